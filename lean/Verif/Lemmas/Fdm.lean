import Verif.Lemmas.DemodScale
import Verif.Model.Fdm
import Verif.Spec.Geometry

/-!
# The FDM in the scalar reading
-/

namespace Snompy

/-! ## What never raises -/

theorem transferMatrixQs_ok (s : Stack (FP ℝ) (FP ℂ)) (h : 2 ≤ s.eps.length) (q : FP ℝ) :
    ∃ M, s.transferMatrixQs q = .ok M := by
  unfold Stack.transferMatrixQs
  match he : s.eps with
  | [] => simp [he] at h
  | [_] => simp [he] at h
  | a :: b :: l =>
    simp only [List.dropLast_cons_cons, List.tail_cons, List.zipWith_cons_cons, List.map_cons]
    split_ifs <;> exact ⟨_, rfl⟩

theorem reflCoefQs_ok (s : Stack (FP ℝ) (FP ℂ)) (h : 2 ≤ s.eps.length) (q : FP ℝ) :
    ∃ v, s.reflCoefQs q = .ok v := by
  obtain ⟨M, hM⟩ := transferMatrixQs_ok s h q
  exact ⟨_, by unfold Stack.reflCoefQs; rw [hM]; rfl⟩

theorem quad0_ok (rule : List (ℝ × ℝ)) (lk : List (FP ℝ ⊕ FP ℂ)) (body : FP ℝ → FP ℝ → PyM (FP ℂ))
    (h : ∀ x w, ∃ v, body x w = .ok v) : ∃ v, CplxOps.quad0 rule lk body = .ok v := by
  choose f hf using h
  rw [quad0_unfold, mapM_ok rule _ (fun xw => f (FP.num xw.1) (FP.num xw.2)) fun xw _ => hf _ _]
  exact ⟨_, rfl⟩

theorem aboveSurf_ok (env : Env) (s : Stack (FP ℝ) (FP ℂ)) (h : 2 ≤ s.eps.length) (z : FP ℝ)
    (nLag : Option ℕ) (hn : nLag.getD env.defaults.nLag ≠ 0) :
    ∃ v, s.reflCoefQsAboveSurf env z nLag = .ok v := by
  unfold Stack.reflCoefQsAboveSurf Env.lagRule
  obtain ⟨v, hv⟩ := reflCoefQs_ok s h z
  rw [if_neg hn, PyM.ok_bind, hv, PyM.ok_bind]
  refine quad0_ok _ _ _ fun x w => ?_
  obtain ⟨b, hb⟩ := reflCoefQs_ok s h (x / (lit 2 * z))
  simp only [hb, PyM.ok_bind]
  exact ⟨_, rfl⟩

theorem surf_ok (env : Env) (s : Stack (FP ℝ) (FP ℂ)) (h : 2 ≤ s.eps.length) (z : FP ℝ)
    (nLag : Option ℕ) (hn : nLag.getD env.defaults.nLag ≠ 0) :
    ∃ v, s.surfPotAndField env z nLag = .ok v := by
  unfold Stack.surfPotAndField Env.lagRule
  obtain ⟨v, hv⟩ := reflCoefQs_ok s h z
  rw [if_neg hn, PyM.ok_bind, hv, PyM.ok_bind]
  obtain ⟨p, hp⟩ := quad0_ok (env.laggauss (nLag.getD env.defaults.nLag)) [.inr v]
    (fun x w => (do
      let betaQ ← s.reflCoefQs (x / (lit 2 * z))
      pure (ofR w * betaQ) : PyM (FP ℂ))) fun x w => by
    obtain ⟨b, hb⟩ := reflCoefQs_ok s h (x / (lit 2 * z))
    simp only [hb, PyM.ok_bind]
    exact ⟨_, rfl⟩
  obtain ⟨e, he⟩ := quad0_ok (env.laggauss (nLag.getD env.defaults.nLag)) [.inr v]
    (fun x w => (do
      let betaQ ← s.reflCoefQs (x / (lit 2 * z))
      pure (ofR (w * x) * betaQ) : PyM (FP ℂ))) fun x w => by
    obtain ⟨b, hb⟩ := reflCoefQs_ok s h (x / (lit 2 * z))
    simp only [hb, PyM.ok_bind]
    exact ⟨_, rfl⟩
  rw [hp, PyM.ok_bind, he, PyM.ok_bind]
  exact ⟨_, rfl⟩

theorem image_ok (env : Env) (s : Stack (FP ℝ) (FP ℂ)) (h : 2 ≤ s.eps.length) (z : FP ℝ)
    (nLag : Option ℕ) (hn : nLag.getD env.defaults.nLag ≠ 0) :
    ∃ v, s.imageDepthAndCharge env z nLag = .ok v := by
  obtain ⟨v, hv⟩ := surf_ok env s h z nLag hn
  unfold Stack.imageDepthAndCharge
  rw [hv, PyM.ok_bind]
  exact ⟨_, rfl⟩

theorem demod_ok (env : Env) (f : FP ℝ → PyM (FP ℂ)) (x0 amp n : FP ℝ) (nT : Option ℕ)
    (h : ∀ x, ∃ v, f x = .ok v) : ∃ v, demod env f x0 amp n nT = .ok v := by
  choose g hg using h
  rw [demod_unfold]
  simp only [hg, PyM.ok_bind, PyM.pure_eq_ok]
  rw [mapM_ok _ _ _ fun _ _ => rfl, PyM.ok_bind]
  exact ⟨_, rfl⟩

namespace Fdm

/-! ## Geometry functions at finite arguments -/

theorem log_ne {r l : ℝ} (hr : 0 < r) (hl : 0 < l) (h : r ≠ 4 * l) : Real.log (4 * l / r) ≠ 0 := by
  apply Real.log_ne_zero_of_pos_of_ne_one (by positivity)
  rw [Ne, div_eq_one_iff_eq hr.ne']
  exact fun h0 => h h0.symm

theorem geomFunc_num {z d r l : ℝ} (h : GeomOk z d r l) (g : ℂ) :
    (geomFunc (FP.num z) (FP.num d) (FP.num r) (FP.num l) (FP.num g) : FP ℂ) =
      FP.num (geom z d r l g) := by
  have hr := h.r_pos
  have hl := h.l_pos
  have hd := h.den
  unfold geomFunc geom
  simp only [slit, FP.num_mul, FP.num_add]
  rw [FP.num_div _ (by positivity : 2 * l ≠ 0), FP.num_div _ hd.ne', FP.num_div _ hr.ne',
    slog (by positivity), slog (by positivity)]
  simp only [sofR, FP.num_sub, FP.num_mul]
  rw [FP.num_div _ (by exact_mod_cast log_ne hr hl h.ne)]

/-- At the image of a bulk sample, `geom_func_multi` is `geom_func`. -/
theorem geomFuncMulti_bulk (z d r l : ℝ) (g : FP ℂ) :
    (geomFuncMulti (FP.num z) (FP.num (z + r * d)) (FP.num r) (FP.num l) g : FP ℂ) =
      geomFunc (FP.num z) (FP.num d) (FP.num r) (FP.num l) g := by
  unfold geomFuncMulti geomFunc
  simp only [slit, FP.num_mul, FP.num_add]
  rw [show r + z + (z + r * d) = r + 2 * z + d * r by ring,
    show r + 2 * z + 2 * (z + r * d) = r + 4 * z + 2 * d * r by ring]

theorem formula_num (β f0 β' f1 : ℂ) (h : 1 - β' * f1 ≠ 0) :
    (effPolFormula (FP.num β) (FP.num f0) (FP.num β') (FP.num f1) : FP ℂ) =
      FP.num (1 + β * f0 / (2 * (1 - β' * f1))) := by
  unfold effPolFormula
  simp only [sclit, FP.num_mul, FP.num_sub]
  rw [FP.num_div _ (mul_ne_zero two_ne_zero h), FP.num_add]

/-! ## The methods -/

theorem effPol_default (env : Env) (s : Stack (FP ℝ) (FP ℂ)) (z : Option (FP ℝ))
    (a : FdmArgs (FP ℝ) (FP ℂ)) (nLag : Option ℕ) :
    effPol env s z a nLag none =
      effPol env s z a nLag (some (if s.multilayer then "multi" else "bulk")) := rfl

theorem effPol_bulk (env : Env) (s : Stack (FP ℝ) (FP ℂ)) (hm : s.multilayer = false)
    (z : Option (FP ℝ)) (a : FdmArgs (FP ℝ) (FP ℂ)) (nLag : Option ℕ) :
    effPol env s z a nLag (some "bulk") = s.reflCoefQs >>= fun β => .ok (effPolFormula β
      (geomFunc (z.getD (lit env.defaults.zTip)) (env.defaults.fdm a).dQ0 (env.defaults.fdm a).rTip
        (env.defaults.fdm a).lTip (env.defaults.fdm a).gFactor) β
      (geomFunc (z.getD (lit env.defaults.zTip)) (env.defaults.fdm a).dQ1 (env.defaults.fdm a).rTip
        (env.defaults.fdm a).lTip (env.defaults.fdm a).gFactor)) := by
  unfold effPol
  simp only [Option.getD_some, if_true, hm, Bool.false_eq_true, if_false]
  rfl

theorem effPol_Qave (env : Env) (s : Stack (FP ℝ) (FP ℂ))
    (z : Option (FP ℝ)) (a : FdmArgs (FP ℝ) (FP ℂ)) (nLag : Option ℕ) :
    effPol env s z a nLag (some "Q_ave") =
      s.reflCoefQsAboveSurf env (z.getD (lit env.defaults.zTip) +
        (env.defaults.fdm a).rTip * (env.defaults.fdm a).dQa) nLag >>= fun β => .ok (effPolFormula β
      (geomFunc (z.getD (lit env.defaults.zTip)) (env.defaults.fdm a).dQ0 (env.defaults.fdm a).rTip
        (env.defaults.fdm a).lTip (env.defaults.fdm a).gFactor) β
      (geomFunc (z.getD (lit env.defaults.zTip)) (env.defaults.fdm a).dQ1 (env.defaults.fdm a).rTip
        (env.defaults.fdm a).lTip (env.defaults.fdm a).gFactor)) := by
  unfold effPol
  simp only [Option.getD_some]
  rw [if_neg (by decide), if_neg (by decide), if_pos trivial]
  rfl

theorem effPol_multi (env : Env) (s : Stack (FP ℝ) (FP ℂ))
    (z : Option (FP ℝ)) (a : FdmArgs (FP ℝ) (FP ℂ)) (nLag : Option ℕ) :
    effPol env s z a nLag (some "multi") =
      s.imageDepthAndCharge env (z.getD (lit env.defaults.zTip) +
        (env.defaults.fdm a).rTip * (env.defaults.fdm a).dQ0) nLag >>= fun p =>
      s.imageDepthAndCharge env (z.getD (lit env.defaults.zTip) +
        (env.defaults.fdm a).rTip * (env.defaults.fdm a).dQ1) nLag >>= fun p' =>
      .ok (effPolFormula p.2
      (geomFuncMulti (z.getD (lit env.defaults.zTip)) p.1 (env.defaults.fdm a).rTip
        (env.defaults.fdm a).lTip (env.defaults.fdm a).gFactor) p'.2
      (geomFuncMulti (z.getD (lit env.defaults.zTip)) p'.1 (env.defaults.fdm a).rTip
        (env.defaults.fdm a).lTip (env.defaults.fdm a).gFactor)) := by
  unfold effPol
  simp only [Option.getD_some]
  rw [if_neg (by decide), if_pos trivial]
  rfl

end Fdm

end Snompy
