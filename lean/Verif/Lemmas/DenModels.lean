import Verif.Lemmas.DenFar
import Verif.Model.Fdm
import Verif.Model.Pdm

/-!
# Demodulation, FDM and PDM, elementwise
-/

namespace Snompy

open ArrSample (dep_map dep_map2)

/-- An elementwise function depends on the index only modulo broadcasting. -/
theorem dep_of_elementwise {f : RArr → PyM CArr} {fS : (ℕ → ℕ) → FP ℝ → PyM (FP ℂ)} {sf : Shape}
    (hf : ∀ x sx X, Den x sx X → DenM (f x) (sx ⊔ᵇ sf) (fun i => fS i (X i))) : Dep sf fS := by
  rintro s0 rfl i j hij
  funext z
  have h := hf _ _ _ (Den.scalar z)
  simp only [Shape.unit_join] at h
  rcases h with ⟨e, _, h⟩ | ⟨A, g, _, hA, h⟩
  · exact (h i).trans (h j).symm
  · have hi : fS i z = _ := (h i).1
    have hj : fS j z = _ := (h j).1
    rw [hi, hj, ← (h i).2, ← (h j).2, NDArray.get, NDArray.get, hA, hij]

/-- `demod`, elementwise.  `f` is any function that is itself elementwise. -/
theorem demod_den (env : Env) (f : RArr → PyM CArr) (fS : (ℕ → ℕ) → FP ℝ → PyM (FP ℂ)) {sf : Shape}
    (hf : ∀ x sx X, Den x sx X → DenM (f x) (sx ⊔ᵇ sf) (fun i => fS i (X i)))
    {x0 amp n : RArr} {s0 sa sn : Shape} {X0 Am N : (ℕ → ℕ) → FP ℝ}
    (h0 : Den x0 s0 X0) (ha : Den amp sa Am) (hn : Den n sn N) (nTrapz : Option ℕ) :
    DenM (demod env f x0 amp n nTrapz) (s0 ⊔ᵇ sa ⊔ᵇ sn ⊔ᵇ sf)
      (fun i => demod env (fS i) (X0 i) (Am i) (N i) nTrapz) := by
  have hdep := dep_of_elementwise hf
  unfold demod
  set u := s0 ⊔ᵇ sa ⊔ᵇ sn ⊔ᵇ sf with hu
  have l0 : s0 ≤ᵇ u := by
    rw [hu, Shape.join_assoc, Shape.join_assoc]; exact Shape.le_join_left _ _
  have la : sa ≤ᵇ u := by
    have : u = sa ⊔ᵇ (s0 ⊔ᵇ sn ⊔ᵇ sf) := by rw [hu]; shape_ac
    rw [this]; exact Shape.le_join_left _ _
  have ln : sn ≤ᵇ u := by
    have : u = sn ⊔ᵇ (s0 ⊔ᵇ sa ⊔ᵇ sf) := by rw [hu]; shape_ac
    rw [this]; exact Shape.le_join_left _ _
  have lf : sf ≤ᵇ u := Shape.le_join_right _ _
  have hprobe := hf _ _ _ (h0.radd ((Den.lit 0).rmul ha))
  simp only [Shape.unit_join] at hprobe
  refine DenM.seq hprobe (by
    exact Shape.join_le (Shape.join_le l0 la) lf) fun probe P hP => ?_
  refine DenM.seq (s := u) (DenM.trapz0 (shapes := [s0 ⊔ᵇ sa ⊔ᵇ sf, sn])
    (likesS := fun i => [.inr (P i), .inl (N i)])
    (bodyS := fun i theta => do
      let fx ← fS i (X0 i + RealOps.cos theta * Am i)
      pure (fx * CplxOps.exp (clit (-Complex.I) * ofR (N i) * ofR theta)))
    (thetaGrid (nTrapz.getD env.defaults.nTrapz)) ?_ ?_ ?_ ?_ ?_)
    (Shape.le_refl _) ?_
  · exact List.Forall₂.cons ⟨P, hP⟩ (List.Forall₂.cons ⟨N, hn⟩ List.Forall₂.nil)
  · simp only [joinAll, Shape.join_unit, hu]; shape_ac
  · intro x sx X hx
    refine DenM.seq (hf _ _ _ (h0.radd (hx.cos.rmul ha))) ?_ fun y g hy => ?_
    · refine Shape.join_le (Shape.join_le (Shape.le_trans l0 (Shape.le_join_right _ _))
        (Shape.join_le (Shape.le_join_left _ _) (Shape.le_trans la (Shape.le_join_right _ _))))
        (Shape.le_trans lf (Shape.le_join_right _ _))
    · refine DenM.ok ((hy.cmul (((Den.clit _).cmul hn.ofR).cmul hx.ofR).exp).congr ?_ fun i => rfl)
      simp only [Shape.unit_join, hu]
      shape_ac
  · have d0 := Dep.of_den h0 l0
    have da := Dep.of_den ha la
    have dn := Dep.of_den hn ln
    have df : Dep u fS := by
      rintro w hw i j hij
      cases hsf : sf with
      | none => rw [hsf, hw] at lf; exact absurd (Shape.le_none lf) (by simp)
      | some v =>
        rw [hsf, hw] at lf
        exact hdep v hsf i j (canon_congr_of_le lf hij)
    intro w hw i j hij
    simp only [d0 w hw i j hij, da w hw i j hij, dn w hw i j hij, df w hw i j hij]
  · left
    simp [thetaGrid]
  · intro y g hy
    exact DenM.ok ((hy.cdiv (Den.clit _)).congr (by simp) fun i => rfl)

namespace Fdm

variable {z d r l : RArr} {g : CArr} {sz sd sr sl sg : Shape} {Z D R L : (ℕ → ℕ) → FP ℝ}
  {G : (ℕ → ℕ) → FP ℂ}

theorem geomFunc_den (hz : Den z sz Z) (hd : Den d sd D) (hr : Den r sr R) (hl : Den l sl L)
    (hg : Den g sg G) :
    Den (geomFunc z d r l g) (sz ⊔ᵇ sd ⊔ᵇ sr ⊔ᵇ sl ⊔ᵇ sg)
      (fun i => geomFunc (Z i) (D i) (R i) (L i) (G i)) := by
  unfold geomFunc
  refine Den.congr (Den.cdiv (Den.cmul (Den.csub hg (Den.ofR (Den.rdiv (Den.radd (Den.radd hr
    (Den.rmul (Den.lit 2) hz)) (Den.rmul hd hr)) (Den.rmul (Den.lit 2) hl))))
    (Den.ofR (Den.log (Den.rdiv (Den.rmul (Den.lit 4) hl) (Den.radd (Den.radd hr
      (Den.rmul (Den.lit 4) hz)) (Den.rmul (Den.rmul (Den.lit 2) hd) hr))))))
    (Den.ofR (Den.log (Den.rdiv (Den.rmul (Den.lit 4) hl) hr)))) ?_ (fun i => rfl)
  simp only [Shape.unit_join]
  shape_ac

theorem geomFuncMulti_den (hz : Den z sz Z) (hd : Den d sd D) (hr : Den r sr R) (hl : Den l sl L)
    (hg : Den g sg G) :
    Den (geomFuncMulti z d r l g) (sz ⊔ᵇ sd ⊔ᵇ sr ⊔ᵇ sl ⊔ᵇ sg)
      (fun i => geomFuncMulti (Z i) (D i) (R i) (L i) (G i)) := by
  unfold geomFuncMulti
  refine Den.congr (Den.cdiv (Den.cmul (Den.csub hg (Den.ofR (Den.rdiv (Den.radd (Den.radd hr
    hz) hd) (Den.rmul (Den.lit 2) hl))))
    (Den.ofR (Den.log (Den.rdiv (Den.rmul (Den.lit 4) hl) (Den.radd (Den.radd hr
      (Den.rmul (Den.lit 2) hz)) (Den.rmul (Den.lit 2) hd))))))
    (Den.ofR (Den.log (Den.rdiv (Den.rmul (Den.lit 4) hl) hr)))) ?_ (fun i => rfl)
  simp only [Shape.unit_join]
  shape_ac

theorem effPolFormula_den {b0 f0 b1 f1 : CArr} {s0 t0 s1 t1 : Shape}
    {B0 F0 B1 F1 : (ℕ → ℕ) → FP ℂ} (h1 : Den b0 s0 B0) (h2 : Den f0 t0 F0) (h3 : Den b1 s1 B1)
    (h4 : Den f1 t1 F1) :
    Den (effPolFormula b0 f0 b1 f1) (s0 ⊔ᵇ t0 ⊔ᵇ s1 ⊔ᵇ t1)
      (fun i => effPolFormula (B0 i) (F0 i) (B1 i) (F1 i)) := by
  unfold effPolFormula
  refine Den.congr (Den.cadd (Den.clit 1) (Den.cdiv (Den.cmul h1 h2) (Den.cmul (Den.clit 2)
    (Den.csub (Den.clit 1) (Den.cmul h3 h4))))) ?_ (fun i => rfl)
  simp only [Shape.unit_join]
  shape_ac

/-- The tip parameters, after defaults were filled in. -/
structure TipDen (p : FdmTip RArr CArr) (P : (ℕ → ℕ) → FdmTip (FP ℝ) (FP ℂ))
    (sr sl sg s0 s1 sa : Shape) : Prop where
  hr : Den p.rTip sr fun i => (P i).rTip
  hl : Den p.lTip sl fun i => (P i).lTip
  hg : Den p.gFactor sg fun i => (P i).gFactor
  h0 : Den p.dQ0 s0 fun i => (P i).dQ0
  h1 : Den p.dQ1 s1 fun i => (P i).dQ1
  ha : Den p.dQa sa fun i => (P i).dQa

theorem getD_lit_den (o : Option (NDArray (FP ℝ))) (v : ℝ) :
    Den ((o.map .ok).getD (lit v) : RArr) (optShape o) fun i => (o.map (·.get i)).getD (lit v) := by
  cases o with
  | none => exact Den.lit v
  | some A => exact Den.leaf A

theorem getD_clit_den (o : Option (NDArray (FP ℂ))) (v : ℂ) :
    Den ((o.map .ok).getD (clit v) : CArr) (optShape o)
      fun i => (o.map (·.get i)).getD (clit v) := by
  cases o with
  | none => exact Den.clit v
  | some A => exact Den.leaf A

/-- Shape of `d_Q0` after defaults were filled in. -/
def shapeQ0 (a : Args) : Shape :=
  match a.dQ0 with
  | some A => some A.rshape
  | none => optShape a.rTip ⊔ᵇ optShape a.lTip

theorem tip_den (env : Env) (a : Args) :
    TipDen (env.defaults.fdm (argsArr a)) (fun i => env.defaults.fdm (argsAt a i))
      (optShape a.rTip) (optShape a.lTip) (optShape a.gFactor) (shapeQ0 a) (optShape a.dQ1)
      (optShape a.dQa) where
  hr := getD_lit_den _ _
  hl := getD_lit_den _ _
  hg := getD_clit_den _ _
  h0 := by
    simp only [Defaults.fdm, argsArr, argsAt, shapeQ0]
    cases a.dQ0 with
    | some A => exact Den.leaf A
    | none =>
      have hr := getD_lit_den a.rTip env.defaults.rTip
      have hl := getD_lit_den a.lTip env.defaults.lTip
      refine (((Den.lit 1.31).rmul hl).rdiv (hl.radd ((Den.lit 2).rmul hr))).congr ?_ fun i => rfl
      simp only [Shape.unit_join]
      shape_ac
  h1 := getD_lit_den _ _
  ha := getD_lit_den _ _

/-- The shape of the result of `eff_pol` apart from `z_tip`: all tip arguments the selected method
reads, and the sample. -/
def effPolShape (S : ArrSample) (a : Args) (method : Option String) : Shape :=
  optShape a.rTip ⊔ᵇ optShape a.lTip ⊔ᵇ optShape a.gFactor ⊔ᵇ optShape a.dQ0 ⊔ᵇ optShape a.dQ1 ⊔ᵇ
    (if method = some "Q_ave" then optShape a.dQa else some []) ⊔ᵇ S.shape

theorem shapeQ0_join (a : Args) :
    optShape a.rTip ⊔ᵇ optShape a.lTip ⊔ᵇ shapeQ0 a =
      optShape a.rTip ⊔ᵇ optShape a.lTip ⊔ᵇ optShape a.dQ0 := by
  unfold shapeQ0
  cases a.dQ0 with
  | some A => rfl
  | none =>
    have : optShape (none : Option (NDArray (FP ℝ))) = some [] := rfl
    rw [this, Shape.join_self, Shape.join_unit]

theorem effPolShape_eq (S : ArrSample) (a : Args) (method : Option String) :
    effPolShape S a method =
      optShape a.rTip ⊔ᵇ optShape a.lTip ⊔ᵇ shapeQ0 a ⊔ᵇ optShape a.gFactor ⊔ᵇ optShape a.dQ1 ⊔ᵇ
    (if method = some "Q_ave" then optShape a.dQa else some []) ⊔ᵇ S.shape := by
  rw [shapeQ0_join, effPolShape]
  shape_ac

/-- `eff_pol`, elementwise. -/
theorem effPol_den (env : Env) (S : ArrSample) (a : Args) (nLag : Option ℕ)
    (method : Option String) (snu : Option RArr) (z : RArr) (sz : Shape) (Z : (ℕ → ℕ) → FP ℝ)
    (hz : Den z sz Z) :
    DenM (effPol env (S.stack snu) (some z) (argsArr a) nLag method)
      (sz ⊔ᵇ effPolShape S a method)
      (fun i => effPol env (S.at_ i none) (some (Z i)) (argsAt a i) nLag method) := by
  obtain ⟨hr, hl, hg, h0, h1, ha⟩ := tip_den env a
  rw [effPolShape_eq]
  unfold effPol
  simp only [Option.getD_some, ArrSample.multilayer_eq, ArrSample.at_multilayer_eq]
  -- which method?
  by_cases hb : method.getD (if decide (S.t ≠ []) = true then "multi" else "bulk") = "bulk"
  · simp only [hb, if_true]
    by_cases ht : S.t = []
    · simp only [ht, ne_eq, not_true_eq_false, decide_false, Bool.false_eq_true, if_false]
      have hm : ¬ method = some "Q_ave" := by rintro rfl; simp at hb
      simp only [hm, if_false]
      refine DenM.seq (S.reflCoefQs_den (Den.lit 0) snu fun _ => none) ?_ fun y b hy => ?_
      · simp only [Shape.unit_join]
        exact Shape.le_trans (Shape.le_join_right _ _) (Shape.le_join_right _ _)
      · simp only [Shape.unit_join] at hy
        refine DenM.ok ((effPolFormula_den hy (geomFunc_den hz h0 hr hl hg) hy
          (geomFunc_den hz h1 hr hl hg)).congr ?_ fun i => rfl)
        simp only [Shape.join_unit]
        shape_ac
    · simp only [ne_eq, ht, not_false_eq_true, decide_true, if_true]
      exact DenM.err _ _
  · simp only [hb, if_false]
    by_cases hm : method.getD (if decide (S.t ≠ []) = true then "multi" else "bulk") = "multi"
    · simp only [hm, if_true]
      have hq : ¬ method = some "Q_ave" := by rintro rfl; simp at hm
      simp only [hq, if_false, Shape.join_unit]
      refine S.imageDepthAndCharge_den env nLag (hz.radd (hr.rmul h0)) snu ?_ _ (fun i p => do
        let (zIm1, beta1) ← (S.at_ i none).imageDepthAndCharge env
          (Z i + (env.defaults.fdm (argsAt a i)).rTip * (env.defaults.fdm (argsAt a i)).dQ1) nLag
        let q := env.defaults.fdm (argsAt a i)
        pure (effPolFormula p.2 (geomFuncMulti (Z i) p.1 q.rTip q.lTip q.gFactor) beta1
          (geomFuncMulti (Z i) zIm1 q.rTip q.lTip q.gFactor))) ?_
      · unfold Shape.le
        shape_ac
      · intro zi0 b0 ZI0 B0 hzi0 hb0
        refine S.imageDepthAndCharge_den env nLag (hz.radd (hr.rmul h1)) snu ?_ _ (fun i p =>
          pure (effPolFormula (B0 i) (geomFuncMulti (Z i) (ZI0 i)
            (env.defaults.fdm (argsAt a i)).rTip (env.defaults.fdm (argsAt a i)).lTip
            (env.defaults.fdm (argsAt a i)).gFactor) p.2
          (geomFuncMulti (Z i) p.1 (env.defaults.fdm (argsAt a i)).rTip
            (env.defaults.fdm (argsAt a i)).lTip (env.defaults.fdm (argsAt a i)).gFactor))) ?_
        · unfold Shape.le
          shape_ac
        · intro zi1 b1 ZI1 B1 hzi1 hb1
          refine DenM.ok ((effPolFormula_den hb0 (geomFuncMulti_den hz hzi0 hr hl hg) hb1
            (geomFuncMulti_den hz hzi1 hr hl hg)).congr ?_ fun i => rfl)
          shape_ac
    · simp only [hm, if_false]
      by_cases hq : method.getD (if decide (S.t ≠ []) = true then "multi" else "bulk") = "Q_ave"
      · have hq' : method = some "Q_ave" := by
          cases method with
          | none => simp only [Option.getD_none] at hq; split_ifs at hq <;> simp at hq
          | some m => simpa using hq
        simp only [hq, if_true]
        rw [if_pos hq']
        refine DenM.seq (S.reflCoefQsAboveSurf_den env nLag (hz.radd (hr.rmul ha)) snu) ?_
          fun y b hy => ?_
        · unfold Shape.le
          shape_ac
        · refine DenM.ok ((effPolFormula_den hy (geomFunc_den hz h0 hr hl hg) hy
            (geomFunc_den hz h1 hr hl hg)).congr ?_ fun i => rfl)
          shape_ac
      · simp only [hq, if_false]
        exact DenM.err _ _

/-- `eff_pol_n`, elementwise. -/
theorem effPolN_den (env : Env) (S : ArrSample) (a : Args) (nLag : Option ℕ)
    (method : Option String) (snu : Option RArr) (nTrapz : Option ℕ) {z A n : RArr}
    {sz sA sn : Shape} {Z AA N : (ℕ → ℕ) → FP ℝ} (hz : Den z sz Z) (hA : Den A sA AA)
    (hn : Den n sn N) :
    DenM (effPolN env (S.stack snu) A n (some z) nTrapz (argsArr a) nLag method)
      (sz ⊔ᵇ sA ⊔ᵇ sn ⊔ᵇ effPolShape S a method)
      (fun i => effPolN env (S.at_ i none) (AA i) (N i) (some (Z i)) nTrapz (argsAt a i) nLag
        method) := by
  unfold effPolN
  simp only [Option.getD_some]
  refine (demod_den env _ (fun i x => effPol env (S.at_ i none) (some x) (argsAt a i) nLag method)
    (fun x sx X hx => effPol_den env S a nLag method snu x sx X hx) (hz.radd hA) hA hn nTrapz).congr
    ?_ fun i => rfl
  shape_ac

/-- `taylor_coef`, elementwise. -/
theorem taylorCoef_den (env : Env) (nTrapz : Option ℕ) {z A n r l d0 d1 : RArr} {g : CArr}
    {j : JArr} {sz sA sn sr sl s0 s1 sg sj : Shape} {Z AA N R L D0 D1 : (ℕ → ℕ) → FP ℝ}
    {G : (ℕ → ℕ) → FP ℂ} {Jx : (ℕ → ℕ) → ℤ} (hz : Den z sz Z) (hj : Den j sj Jx) (hA : Den A sA AA)
    (hn : Den n sn N) (hr : Den r sr R) (hl : Den l sl L) (hg : Den g sg G) (h0 : Den d0 s0 D0)
    (h1 : Den d1 s1 D1) :
    DenM (taylorCoef env z j A n r l g d0 d1 nTrapz)
      (sj ⊔ᵇ (sz ⊔ᵇ sA ⊔ᵇ sn ⊔ᵇ sr ⊔ᵇ sl ⊔ᵇ sg ⊔ᵇ s0 ⊔ᵇ s1))
      (fun i => taylorCoef env (Z i) (Jx i) (AA i) (N i) (R i) (L i) (G i) (D0 i) (D1 i) nTrapz) := by
  unfold taylorCoef
  refine DenM.seq (demod_den (sf := sj ⊔ᵇ sr ⊔ᵇ sl ⊔ᵇ sg ⊔ᵇ s0 ⊔ᵇ s1) env _
    (fun i x => pure (geomFuncTaylor x (Jx i) (R i) (L i) (G i) (D0 i) (D1 i)))
    (fun x sx X hx => ?_) (hz.radd hA) hA hn nTrapz) ?_ fun y d hy => ?_
  · refine DenM.ok (((geomFunc_den hx h0 hr hl hg).cmul
      ((geomFunc_den hx h1 hr hl hg).jpow hj.jpred)).congr ?_ fun i => rfl)
    shape_ac
  · unfold Shape.le
    shape_ac
  · refine DenM.ok ((Den.whereJ hj (Den.whereR hn (Den.clit 1) (Den.clit 0))
      (hy.cdiv (Den.clit 2))).congr ?_ fun i => rfl)
    simp only [Shape.join_unit]
    shape_ac

/-- The scalar `taylor_coef` never raises. -/
theorem taylorCoef_ok (env : Env) (nTrapz : Option ℕ) (z A n r l d0 d1 : FP ℝ) (g : FP ℂ) (j : ℤ) :
    ∃ v, taylorCoef env z j A n r l g d0 d1 nTrapz = .ok v := by
  unfold taylorCoef demod
  simp only [PyM.pure_eq_ok, PyM.ok_bind]
  have : ∀ (grid : List ℝ) (lk : List (FP ℝ ⊕ FP ℂ)) (F : FP ℝ → FP ℂ),
      ∃ v, (CplxOps.trapz0 grid lk fun x => (.ok (F x) : PyM (FP ℂ))) = .ok v := by
    intro grid lk F
    show ∃ v, (do
      let vals ← grid.mapM fun x => (.ok (F (FP.num x)) : PyM (FP ℂ))
      pure (FP.trapz vals)) = .ok v
    rw [mapM_ok grid _ (fun x => F (FP.num x)) (fun _ _ => rfl)]
    exact ⟨_, rfl⟩
  obtain ⟨v, hv⟩ := this (thetaGrid (nTrapz.getD env.defaults.nTrapz))
    [.inr (geomFuncTaylor (z + A + lit 0 * A) j r l g d0 d1), .inl n]
    (fun theta => geomFuncTaylor (z + A + RealOps.cos theta * A) j r l g d0 d1 *
      CplxOps.exp (clit (-Complex.I) * ofR n * ofR theta))
  rw [hv]
  exact ⟨_, rfl⟩

/-- The shape of the result of `eff_pol_n_taylor` apart from `z_tip`, `A_tip` and `n`. -/
def taylorShape (S : ArrSample) (a : Args) (method : Option String) : Shape :=
  optShape a.rTip ⊔ᵇ optShape a.lTip ⊔ᵇ optShape a.gFactor ⊔ᵇ optShape a.dQ0 ⊔ᵇ optShape a.dQ1 ⊔ᵇ
    (if method.getD (if S.t = [] then "bulk" else "Q_ave") = "Q_ave" then optShape a.dQa
      else some []) ⊔ᵇ S.shape

/-- The expansion variable of `eff_pol_n_taylor`, elementwise. -/
theorem taylorBeta_den (env : Env) (S : ArrSample) (a : Args) (nLag : Option ℕ)
    (method : Option String) (snu : Option RArr) {z : RArr} {sz : Shape} {Z : (ℕ → ℕ) → FP ℝ}
    (hz : Den z sz Z) :
    DenM (taylorBeta env (S.stack snu) z (env.defaults.fdm (argsArr a)) nLag method)
      ((if method.getD (if S.t = [] then "bulk" else "Q_ave") = "Q_ave" then
        sz ⊔ᵇ (optShape a.rTip ⊔ᵇ optShape a.dQa) else some []) ⊔ᵇ S.shape)
      (fun i => taylorBeta env (S.at_ i none) (Z i) (env.defaults.fdm (argsAt a i)) nLag method) := by
  obtain ⟨hr, hl, hg, h0, h1, ha⟩ := tip_den env a
  unfold taylorBeta
  have hme : (if decide (S.t ≠ []) = true then "Q_ave" else "bulk") =
      (if S.t = [] then "bulk" else "Q_ave") := by
    by_cases ht : S.t = [] <;> simp [ht]
  simp only [ArrSample.multilayer_eq, ArrSample.at_multilayer_eq, hme]
  by_cases hb : method.getD (if S.t = [] then "bulk" else "Q_ave") = "bulk"
  · have hq : ¬ ("bulk" = "Q_ave") := by decide
    simp only [hb, if_true, hq, if_false]
    by_cases ht : S.t = []
    · simp only [ht, ne_eq, not_true_eq_false, decide_false, Bool.false_eq_true, if_false]
      exact S.reflCoefQs_den (Den.lit 0) snu fun _ => none
    · simp only [ne_eq, ht, not_false_eq_true, decide_true, if_true]
      exact DenM.err _ _
  · simp only [hb, if_false]
    by_cases hq : method.getD (if S.t = [] then "bulk" else "Q_ave") = "Q_ave"
    · simp only [hq, if_true]
      exact S.reflCoefQsAboveSurf_den env nLag (hz.radd (hr.rmul ha)) snu
    · simp only [hq, if_false]
      exact DenM.err _ _

/-- `eff_pol_n_taylor`, elementwise. -/
theorem effPolNTaylor_den (env : Env) (S : ArrSample) (a : Args) (nLag : Option ℕ)
    (method : Option String) (snu : Option RArr) (nTrapz nTayl : Option ℕ) {z A n : RArr}
    {sz sA sn : Shape} {Z AA N : (ℕ → ℕ) → FP ℝ} (hz : Den z sz Z) (hA : Den A sA AA)
    (hn : Den n sn N) :
    DenM (effPolNTaylor env (S.stack snu) A n (some z) (argsArr a) nLag method nTrapz nTayl)
      (sz ⊔ᵇ sA ⊔ᵇ sn ⊔ᵇ taylorShape S a method)
      (fun i => effPolNTaylor env (S.at_ i none) (AA i) (N i) (some (Z i)) (argsAt a i) nLag method
        nTrapz nTayl) := by
  obtain ⟨hr, hl, hg, h0, h1, ha⟩ := tip_den env a
  have hQ0 := shapeQ0_join a
  have hT : taylorShape S a method = optShape a.rTip ⊔ᵇ optShape a.lTip ⊔ᵇ shapeQ0 a ⊔ᵇ
      optShape a.gFactor ⊔ᵇ optShape a.dQ1 ⊔ᵇ
      (if method.getD (if S.t = [] then "bulk" else "Q_ave") = "Q_ave" then optShape a.dQa
        else some []) ⊔ᵇ S.shape := by
    rw [hQ0, taylorShape]; shape_ac
  unfold effPolNTaylor
  simp only [Option.getD_some]
  rw [hT]
  set sq := (if method.getD (if S.t = [] then "bulk" else "Q_ave") = "Q_ave" then
    sz ⊔ᵇ (optShape a.rTip ⊔ᵇ optShape a.dQa) else some []) with hsq
  set sq' := (if method.getD (if S.t = [] then "bulk" else "Q_ave") = "Q_ave" then optShape a.dQa
        else some []) with hsq'
  have hjoin : sz ⊔ᵇ optShape a.rTip ⊔ᵇ sq = sz ⊔ᵇ optShape a.rTip ⊔ᵇ sq' := by
    rw [hsq, hsq']
    by_cases hc : method.getD (if S.t = [] then "bulk" else "Q_ave") = "Q_ave"
    · rw [if_pos hc, if_pos hc]; shape_ac
    · rw [if_neg hc, if_neg hc]
  set u := sz ⊔ᵇ sA ⊔ᵇ sn ⊔ᵇ (optShape a.rTip ⊔ᵇ optShape a.lTip ⊔ᵇ shapeQ0 a ⊔ᵇ
      optShape a.gFactor ⊔ᵇ optShape a.dQ1 ⊔ᵇ sq' ⊔ᵇ S.shape) with hu
  have hu' : u = sz ⊔ᵇ (sA ⊔ᵇ (sn ⊔ᵇ (sq ⊔ᵇ S.shape ⊔ᵇ (optShape a.rTip ⊔ᵇ (optShape a.lTip ⊔ᵇ
      (optShape a.gFactor ⊔ᵇ (shapeQ0 a ⊔ᵇ (optShape a.dQ1 ⊔ᵇ some [])))))))) := by
    calc u = (sz ⊔ᵇ optShape a.rTip ⊔ᵇ sq') ⊔ᵇ (sA ⊔ᵇ sn ⊔ᵇ optShape a.lTip ⊔ᵇ shapeQ0 a ⊔ᵇ
          optShape a.gFactor ⊔ᵇ optShape a.dQ1 ⊔ᵇ S.shape) := by rw [hu]; shape_ac
      _ = (sz ⊔ᵇ optShape a.rTip ⊔ᵇ sq) ⊔ᵇ (sA ⊔ᵇ sn ⊔ᵇ optShape a.lTip ⊔ᵇ shapeQ0 a ⊔ᵇ
          optShape a.gFactor ⊔ᵇ optShape a.dQ1 ⊔ᵇ S.shape) := by rw [hjoin]
      _ = _ := by rw [Shape.join_unit]; shape_ac
  have hb := taylorBeta_den env S a nLag method snu hz
  rw [← hsq] at hb
  generalize optShape a.rTip = sr at *
  generalize optShape a.lTip = sl at *
  generalize optShape a.gFactor = sg at *
  generalize shapeQ0 a = s0 at *
  generalize optShape a.dQ1 = s1 at *
  clear_value sq sq' u
  refine DenM.seq hb ?_ fun beta B hB => ?_
  · rw [hu']; unfold Shape.le; shape_ac
  · refine DenM.series0 (shapes := [sz, sA, sn, sq ⊔ᵇ S.shape, sr, sl, sg, s0, s1])
      (likesS := fun i => [.inl (Z i), .inl (AA i), .inl (N i), .inr (B i),
        .inl (env.defaults.fdm (argsAt a i)).rTip, .inl (env.defaults.fdm (argsAt a i)).lTip,
        .inr (env.defaults.fdm (argsAt a i)).gFactor, .inl (env.defaults.fdm (argsAt a i)).dQ0,
        .inl (env.defaults.fdm (argsAt a i)).dQ1]) _ ?_ hu'.symm ?_ ?_ ?_
    · exact .cons ⟨_, hz⟩ <| .cons ⟨_, hA⟩ <| .cons ⟨_, hn⟩ <| .cons ⟨_, hB⟩ <| .cons ⟨_, hr⟩ <|
        .cons ⟨_, hl⟩ <| .cons ⟨_, hg⟩ <| .cons ⟨_, h0⟩ <| .cons ⟨_, h1⟩ .nil
    · intro j sj Jx hj
      refine DenM.seq (taylorCoef_den env nTrapz hz hj hA hn hr hl hg h0 h1) ?_ fun y c hy => ?_
      · rw [hu']; unfold Shape.le; shape_ac
      · refine DenM.ok ((hy.cmul (hB.jpow hj)).congr ?_ fun i => rfl)
        rw [hu', Shape.join_unit]; shape_ac
    · have lz : sz ≤ᵇ u := by rw [hu']; exact Shape.le_join_left _ _
      have lA : sA ≤ᵇ u := by rw [hu']; unfold Shape.le; shape_ac
      have ln : sn ≤ᵇ u := by rw [hu']; unfold Shape.le; shape_ac
      have lB : sq ⊔ᵇ S.shape ≤ᵇ u := by rw [hu']; unfold Shape.le; shape_ac
      have lr : sr ≤ᵇ u := by rw [hu']; unfold Shape.le; shape_ac
      have ll : sl ≤ᵇ u := by rw [hu']; unfold Shape.le; shape_ac
      have lg : sg ≤ᵇ u := by rw [hu']; unfold Shape.le; shape_ac
      have l0 : s0 ≤ᵇ u := by rw [hu']; unfold Shape.le; shape_ac
      have l1 : s1 ≤ᵇ u := by rw [hu']; unfold Shape.le; shape_ac
      intro w hw i j hij
      have e1 := Dep.of_den hz lz w hw i j hij
      have e2 := Dep.of_den hA lA w hw i j hij
      have e3 := Dep.of_den hn ln w hw i j hij
      have e4 := Dep.of_den hB lB w hw i j hij
      have e5 := Dep.of_den hr lr w hw i j hij
      have e6 := Dep.of_den hl ll w hw i j hij
      have e7 := Dep.of_den hg lg w hw i j hij
      have e8 := Dep.of_den h0 l0 w hw i j hij
      have e9 := Dep.of_den h1 l1 w hw i j hij
      simp only at e5 e6 e7 e8 e9
      simp only [e1, e2, e3, e4, e5, e6, e7, e8, e9]
    · refine Or.inr fun i j => ?_
      obtain ⟨v, hv⟩ := taylorCoef_ok env nTrapz (Z i) (AA i) (N i)
        (env.defaults.fdm (argsAt a i)).rTip (env.defaults.fdm (argsAt a i)).lTip
        (env.defaults.fdm (argsAt a i)).dQ0 (env.defaults.fdm (argsAt a i)).dQ1
        (env.defaults.fdm (argsAt a i)).gFactor j
      exact ⟨_, by rw [hv]; rfl⟩

end Fdm

namespace Pdm

/-- Broadcast of the shapes of the tip arguments. -/
def argsShape (a : Args) : Shape :=
  optShape a.rTip ⊔ᵇ optShape a.epsTip ⊔ᵇ optShape a.alphaTip

theorem tip_den (env : Env) (a : Args) :
    (∃ e, env.defaults.pdm (argsArr a) = .error e ∧
      ∀ i, env.defaults.pdm (argsAt a i) = .error e) ∨
    ∃ r al R AL sal, env.defaults.pdm (argsArr a) = .ok (r, al) ∧
      (∀ i, env.defaults.pdm (argsAt a i) = .ok (R i, AL i)) ∧
      Den r (optShape a.rTip) R ∧ Den al sal AL ∧ optShape a.rTip ⊔ᵇ sal = argsShape a := by
  have hr := Fdm.getD_lit_den a.rTip env.defaults.rTip
  have h4 := (((Den.lit 4).rmul (Den.lit Real.pi)).rmul (hr.npow 3)).ofR
  have hnil : ∀ {α : Type}, optShape (none : Option (NDArray α)) = some [] := rfl
  have hsome : ∀ {α : Type} (A : NDArray α), optShape (some A) = some A.rshape := fun _ => rfl
  unfold Defaults.pdm
  simp only [argsArr, argsAt, argsShape]
  cases he : a.epsTip with
  | none =>
    cases ha : a.alphaTip with
    | none =>
      right
      exact ⟨_, _, _, _, _, rfl, fun i => rfl, hr, h4, by simp [hnil, Shape.join_self]⟩
    | some al =>
      right
      exact ⟨_, _, _, _, _, rfl, fun i => rfl, hr, Den.leaf al, by simp [hnil, hsome]⟩
  | some ep =>
    cases ha : a.alphaTip with
    | none =>
      right
      refine ⟨_, _, _, _, _, rfl, fun i => rfl, hr,
        (h4.cmul ((Den.leaf ep).csub (Den.clit 1))).cdiv ((Den.leaf ep).cadd (Den.clit 2)), ?_⟩
      simp only [hnil, hsome, Shape.join_unit, Shape.unit_join]
      shape_ac
    | some al => exact Or.inl ⟨_, rfl, fun i => rfl⟩

theorem geomFunc_den {z r : RArr} {al : CArr} {sz sr sa : Shape} {Z R : (ℕ → ℕ) → FP ℝ}
    {A : (ℕ → ℕ) → FP ℂ} (hz : Den z sz Z) (hr : Den r sr R) (ha : Den al sa A) :
    Den (geomFunc z r al) (sz ⊔ᵇ (sr ⊔ᵇ sa)) (fun i => geomFunc (Z i) (R i) (A i)) := by
  unfold geomFunc
  refine (ha.cdiv (((Den.lit 16).rmul (Den.lit Real.pi)).rmul ((hr.radd hz).npow 3)).ofR).congr ?_
    fun i => rfl
  simp only [Shape.unit_join]
  shape_ac

/-- `eff_pol`, elementwise. -/
theorem effPol_den (env : Env) (S : ArrSample) (a : Args) (snu : Option RArr) (z : RArr) (sz : Shape)
    (Z : (ℕ → ℕ) → FP ℝ) (hz : Den z sz Z) :
    DenM (effPol env (S.stack snu) (some z) (argsArr a)) (sz ⊔ᵇ (argsShape a ⊔ᵇ S.shape))
      (fun i => effPol env (S.at_ i none) (some (Z i)) (argsAt a i)) := by
  unfold effPol
  simp only [Option.getD_some]
  rcases tip_den env a with ⟨e, h1, h2⟩ | ⟨r, al, R, AL, sal, h1, h2, hr, ha, hs⟩
  · simp only [h1, h2, PyM.error_bind]
    exact DenM.err e _
  · simp only [h1, h2, PyM.ok_bind]
    refine DenM.seq (S.reflCoefQs_den (Den.lit 0) snu fun _ => none) ?_ fun y b hy => ?_
    · simp only [Shape.unit_join]
      exact Shape.le_trans (Shape.le_join_right _ _) (Shape.le_join_right _ _)
    · simp only [Shape.unit_join] at hy
      refine DenM.ok ((ha.cdiv ((Den.clit 1).csub ((geomFunc_den hz hr ha).cmul hy))).congr ?_
        fun i => rfl)
      rw [← hs]
      simp only [Shape.unit_join]
      shape_ac

/-- `eff_pol_n`, elementwise. -/
theorem effPolN_den (env : Env) (S : ArrSample) (a : Args) (snu : Option RArr) (nTrapz : Option ℕ)
    {z A n : RArr} {sz sA sn : Shape} {Z AA N : (ℕ → ℕ) → FP ℝ} (hz : Den z sz Z)
    (hA : Den A sA AA) (hn : Den n sn N) :
    DenM (effPolN env (S.stack snu) A n (some z) nTrapz (argsArr a))
      (sz ⊔ᵇ sA ⊔ᵇ sn ⊔ᵇ (argsShape a ⊔ᵇ S.shape))
      (fun i => effPolN env (S.at_ i none) (AA i) (N i) (some (Z i)) nTrapz (argsAt a i)) := by
  unfold effPolN
  simp only [Option.getD_some]
  refine (demod_den env _ (fun i x => effPol env (S.at_ i none) (some x) (argsAt a i))
    (fun x sx X hx => effPol_den env S a snu x sx X hx) (hz.radd hA) hA hn nTrapz).congr
    ?_ fun i => rfl
  shape_ac

/-- `taylor_coef`, elementwise. -/
theorem taylorCoef_den (env : Env) (nTrapz : Option ℕ) {z A n r : RArr} {al : CArr}
    {j : JArr} {sz sA sn sr sa sj : Shape} {Z AA N R : (ℕ → ℕ) → FP ℝ}
    {AL : (ℕ → ℕ) → FP ℂ} {Jx : (ℕ → ℕ) → ℤ} (hz : Den z sz Z) (hj : Den j sj Jx) (hA : Den A sA AA)
    (hn : Den n sn N) (hr : Den r sr R) (ha : Den al sa AL) :
    DenM (taylorCoef env z j A n r al nTrapz) (sj ⊔ᵇ (sz ⊔ᵇ sA ⊔ᵇ sn ⊔ᵇ sr ⊔ᵇ sa))
      (fun i => taylorCoef env (Z i) (Jx i) (AA i) (N i) (R i) (AL i) nTrapz) := by
  unfold taylorCoef
  refine (demod_den (sf := sj ⊔ᵇ sr ⊔ᵇ sa) env _
    (fun i x => pure (CplxOps.jpow (geomFunc x (R i) (AL i)) (Jx i)))
    (fun x sx X hx => ?_) (hz.radd hA) hA hn nTrapz).congr ?_ fun i => rfl
  · refine DenM.ok (((geomFunc_den hx hr ha).jpow hj).congr ?_ fun i => rfl)
    shape_ac
  · shape_ac

/-- The scalar `taylor_coef` never raises. -/
theorem taylorCoef_ok (env : Env) (nTrapz : Option ℕ) (z A n r : FP ℝ) (al : FP ℂ) (j : ℤ) :
    ∃ v, taylorCoef env z j A n r al nTrapz = .ok v := by
  unfold taylorCoef demod
  simp only [PyM.pure_eq_ok, PyM.ok_bind]
  have : ∀ (grid : List ℝ) (lk : List (FP ℝ ⊕ FP ℂ)) (F : FP ℝ → FP ℂ),
      ∃ v, (CplxOps.trapz0 grid lk fun x => (.ok (F x) : PyM (FP ℂ))) = .ok v := by
    intro grid lk F
    show ∃ v, (do
      let vals ← grid.mapM fun x => (.ok (F (FP.num x)) : PyM (FP ℂ))
      pure (FP.trapz vals)) = .ok v
    rw [mapM_ok grid _ (fun x => F (FP.num x)) (fun _ _ => rfl)]
    exact ⟨_, rfl⟩
  obtain ⟨v, hv⟩ := this (thetaGrid (nTrapz.getD env.defaults.nTrapz))
    [.inr (CplxOps.jpow (geomFunc (z + A + lit 0 * A) r al) j), .inl n]
    (fun theta => CplxOps.jpow (geomFunc (z + A + RealOps.cos theta * A) r al) j *
      CplxOps.exp (clit (-Complex.I) * ofR n * ofR theta))
  rw [hv]
  exact ⟨_, rfl⟩

/-- `eff_pol_n_taylor`, elementwise. -/
theorem effPolNTaylor_den (env : Env) (S : ArrSample) (a : Args) (snu : Option RArr)
    (nTrapz nTayl : Option ℕ) {z A n : RArr} {sz sA sn : Shape} {Z AA N : (ℕ → ℕ) → FP ℝ}
    (hz : Den z sz Z) (hA : Den A sA AA) (hn : Den n sn N) :
    DenM (effPolNTaylor env (S.stack snu) A n (some z) (argsArr a) nTrapz nTayl)
      (sz ⊔ᵇ sA ⊔ᵇ sn ⊔ᵇ (argsShape a ⊔ᵇ S.shape))
      (fun i => effPolNTaylor env (S.at_ i none) (AA i) (N i) (some (Z i)) (argsAt a i) nTrapz
        nTayl) := by
  unfold effPolNTaylor
  simp only [Option.getD_some]
  rcases tip_den env a with ⟨e, h1, h2⟩ | ⟨r, al, R, AL, sal, h1, h2, hr, ha, hs⟩
  · simp only [h1, h2, PyM.error_bind]
    exact DenM.err e _
  · simp only [h1, h2, PyM.ok_bind]
    set u := sz ⊔ᵇ sA ⊔ᵇ sn ⊔ᵇ (argsShape a ⊔ᵇ S.shape) with hu
    have hu' : u = sz ⊔ᵇ (sA ⊔ᵇ (sn ⊔ᵇ (S.shape ⊔ᵇ (optShape a.rTip ⊔ᵇ (sal ⊔ᵇ some []))))) := by
      rw [hu, ← hs, Shape.join_unit]; shape_ac
    refine DenM.seq (S.reflCoefQs_den (Den.lit 0) snu fun _ => none) ?_ fun beta B hB => ?_
    · rw [hu', Shape.unit_join]; unfold Shape.le; shape_ac
    · simp only [Shape.unit_join] at hB
      refine DenM.series0 (shapes := [sz, sA, sn, S.shape, optShape a.rTip, sal])
        (likesS := fun i => [.inl (Z i), .inl (AA i), .inl (N i), .inr (B i), .inl (R i),
          .inr (AL i)]) _ ?_ hu'.symm ?_ ?_ ?_
      · exact .cons ⟨_, hz⟩ <| .cons ⟨_, hA⟩ <| .cons ⟨_, hn⟩ <| .cons ⟨_, hB⟩ <| .cons ⟨_, hr⟩ <|
          .cons ⟨_, ha⟩ .nil
      · intro j sj Jx hj
        refine DenM.seq (taylorCoef_den env nTrapz hz hj hA hn hr ha) ?_ fun y c hy => ?_
        · rw [hu', Shape.join_unit]; unfold Shape.le; shape_ac
        · refine DenM.ok ((hy.cmul (hB.jpow hj)).congr ?_ fun i => rfl)
          rw [hu', Shape.join_unit]; shape_ac
      · have lz : sz ≤ᵇ u := by rw [hu']; exact Shape.le_join_left _ _
        have lA : sA ≤ᵇ u := by rw [hu']; unfold Shape.le; shape_ac
        have ln : sn ≤ᵇ u := by rw [hu']; unfold Shape.le; shape_ac
        have lB : S.shape ≤ᵇ u := by rw [hu']; unfold Shape.le; shape_ac
        have lr : optShape a.rTip ≤ᵇ u := by rw [hu']; unfold Shape.le; shape_ac
        have la : sal ≤ᵇ u := by rw [hu']; unfold Shape.le; shape_ac
        intro w hw i j hij
        have e1 := Dep.of_den hz lz w hw i j hij
        have e2 := Dep.of_den hA lA w hw i j hij
        have e3 := Dep.of_den hn ln w hw i j hij
        have e4 := Dep.of_den hB lB w hw i j hij
        have e5 := Dep.of_den hr lr w hw i j hij
        have e6 := Dep.of_den ha la w hw i j hij
        simp only [e1, e2, e3, e4, e5, e6]
      · refine Or.inr fun i j => ?_
        obtain ⟨v, hv⟩ := taylorCoef_ok env nTrapz (Z i) (AA i) (N i) (R i) (AL i) j
        exact ⟨_, by rw [hv]; rfl⟩

end Pdm

end Snompy
