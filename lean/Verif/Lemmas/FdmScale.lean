import Verif.Lemmas.Fdm

/-!
# The FDM under a change of length unit
-/

namespace Snompy

theorem scabs_nan : (CplxOps.cabs (FP.nan : FP ℂ) : FP ℝ) = FP.nan := rfl
theorem scpow_nan (n : ℕ) : (CplxOps.cpow FP.nan n : FP ℂ) = FP.nan := rfl
theorem sofR_nan : (ofR (FP.nan : FP ℝ) : FP ℂ) = FP.nan := rfl

theorem FP.div_scale {c : ℝ} (hc : c ≠ 0) (a b : ℝ) :
    (FP.num (c * a) / FP.num (c * b) : FP ℝ) = FP.num a / FP.num b := by
  rw [FP.num_div_eq, FP.num_div_eq]
  simp only [mul_eq_zero, hc, false_or]
  rw [mul_div_mul_left _ _ hc]

/-- `s'` is `s` with lengths in units `1/c`. -/
structure Rescaled (c : ℝ) (s s' : Stack (FP ℝ) (FP ℂ)) : Prop where
  pos : 0 < c
  len : 2 ≤ s.eps.length
  eps : s'.eps = s.eps
  num : ∀ q : ℝ, s'.reflCoefQs (FP.num (q / c)) = s.reflCoefQs (FP.num q)
  nan : s'.reflCoefQs FP.nan = s.reflCoefQs FP.nan

namespace Rescaled

variable {c : ℝ} {s s' : Stack (FP ℝ) (FP ℂ)}

theorem multilayer (h : Rescaled c s s') : s'.multilayer = s.multilayer := by
  unfold Stack.multilayer Stack.nLayers
  rw [h.eps]

theorem zero (h : Rescaled c s s') : s'.reflCoefQs = s.reflCoefQs := by
  have := h.num 0
  rwa [zero_div] at this

theorem node (h : Rescaled c s s') (z x : ℝ) :
    s'.reflCoefQs (FP.num x / (lit 2 * FP.num (c * z))) =
      s.reflCoefQs (FP.num x / (lit 2 * FP.num z)) := by
  simp only [slit, FP.num_mul]
  have hc := h.pos.ne'
  by_cases hz : z = 0
  · subst hz
    simp only [mul_zero, FP.num_div_zero]
    exact h.nan
  · rw [FP.num_div _ (by positivity), FP.num_div _ (by positivity), ← h.num]
    congr 2
    field_simp

theorem aboveSurf (h : Rescaled c s s') (env : Env) (z : ℝ) (nLag : Option ℕ) :
    s'.reflCoefQsAboveSurf env (FP.num (c * z)) nLag = s.reflCoefQsAboveSurf env (FP.num z) nLag := by
  unfold Stack.reflCoefQsAboveSurf
  obtain ⟨v, hv⟩ := reflCoefQs_ok s h.len (FP.num z)
  obtain ⟨v', hv'⟩ := reflCoefQs_ok s' (h.eps ▸ h.len) (FP.num (c * z))
  cases env.lagRule (nLag.getD env.defaults.nLag) with
  | error e => rfl
  | ok rule =>
    simp only [PyM.ok_bind, hv, hv', quad0_unfold, h.node]

/-- Potentials are inverse lengths, fields are inverse squares. -/
theorem surf (h : Rescaled c s s') (env : Env) (z : ℝ) (nLag : Option ℕ) :
    s'.surfPotAndField env (FP.num (c * z)) nLag =
      s.surfPotAndField env (FP.num z) nLag >>= fun p =>
        .ok (FP.num ((1 / c : ℝ) : ℂ) * p.1, FP.num ((1 / c ^ 2 : ℝ) : ℂ) * p.2) := by
  unfold Stack.surfPotAndField
  obtain ⟨v, hv⟩ := reflCoefQs_ok s h.len (FP.num z)
  obtain ⟨v', hv'⟩ := reflCoefQs_ok s' (h.eps ▸ h.len) (FP.num (c * z))
  have hc : (c : ℂ) ≠ 0 := by exact_mod_cast h.pos.ne'
  cases env.lagRule (nLag.getD env.defaults.nLag) with
  | error e => rfl
  | ok rule =>
    simp only [PyM.ok_bind, hv, hv', quad0_unfold, h.node]
    generalize (List.mapM (m := PyM) (β := FP ℂ) _ rule) = A
    generalize (List.mapM (m := PyM) (β := FP ℂ) _ rule) = B
    cases A with
    | error e => rfl
    | ok a =>
      cases B with
      | error e => rfl
      | ok b =>
        simp only [PyM.ok_bind, PyM.pure_eq_ok, slit, snpow, FP.num_mul, sofR]
        congr 2
        · cases FP.sum a with
          | nan => simp
          | num a =>
            rw [FP.num_div_eq, FP.num_div_eq]
            push_cast
            have h3 : (2 * (c * z : ℂ)) = c * (2 * z) := by ring
            rw [h3]
            simp only [mul_eq_zero, hc, false_or]
            split_ifs with h1
            · simp
            · rw [FP.num_mul]
              congr 1
              field_simp
        · cases FP.sum b with
          | nan => simp
          | num b =>
            rw [FP.num_div_eq, FP.num_div_eq]
            push_cast
            have h3 : (4 * (c * z : ℂ) ^ 2) = c ^ 2 * (4 * z ^ 2) := by ring
            rw [h3]
            simp only [mul_eq_zero, pow_eq_zero_iff two_ne_zero, hc, false_or]
            split_ifs with h1
            · simp
            · rw [FP.num_mul]
              congr 1
              field_simp

theorem image (h : Rescaled c s s') (env : Env) (z : ℝ) (nLag : Option ℕ) :
    s'.imageDepthAndCharge env (FP.num (c * z)) nLag =
      s.imageDepthAndCharge env (FP.num z) nLag >>= fun p => .ok (FP.num c * p.1, p.2) := by
  unfold Stack.imageDepthAndCharge
  have hc : (c : ℂ) ≠ 0 := by exact_mod_cast h.pos.ne'
  rw [h.surf]
  cases s.surfPotAndField env (FP.num z) nLag with
  | error e => rfl
  | ok p =>
    obtain ⟨phi, e⟩ := p
    simp only [PyM.ok_bind, PyM.pure_eq_ok]
    cases phi with
    | nan => simp [scabs_nan, scpow_nan]
    | num phi =>
      cases e with
      | nan => simp [scabs_nan]
      | num e =>
        simp only [FP.num_mul, scpow, FP.num_div_eq]
        by_cases he : e = 0
        · subst he
          simp [scabs_nan]
        · have h2 : ((1 / c ^ 2 : ℝ) : ℂ) * e ≠ 0 := by
            push_cast
            exact mul_ne_zero (one_div_ne_zero (pow_ne_zero 2 hc)) he
          simp only [h2, he, if_false, scabs, FP.num_sub, FP.num_mul]
          congr 3
          · have h3 : ((1 / c : ℝ) : ℂ) * phi / (((1 / c ^ 2 : ℝ) : ℂ) * e) = c * (phi / e) := by
              push_cast
              field_simp
            rw [h3, norm_mul, Complex.norm_real, Real.norm_eq_abs, abs_of_pos h.pos]
            ring
          · push_cast
            field_simp

end Rescaled

namespace Fdm

theorem geomFunc_scale {c : ℝ} (hc : 0 < c) (z r l : ℝ) (d : FP ℝ) (g : FP ℂ) :
    (geomFunc (FP.num (c * z)) d (FP.num (c * r)) (FP.num (c * l)) g : FP ℂ) =
      geomFunc (FP.num z) d (FP.num r) (FP.num l) g := by
  unfold geomFunc
  cases d with
  | nan => simp [slit, sofR_nan]
  | num d =>
    simp only [slit, FP.num_mul, FP.num_add]
    rw [show c * r + 2 * (c * z) + d * (c * r) = c * (r + 2 * z + d * r) by ring,
      show 2 * (c * l) = c * (2 * l) by ring, show 4 * (c * l) = c * (4 * l) by ring,
      show c * r + 4 * (c * z) + 2 * d * (c * r) = c * (r + 4 * z + 2 * d * r) by ring,
      FP.div_scale hc.ne', FP.div_scale hc.ne', FP.div_scale hc.ne']

theorem geomFuncMulti_scale {c : ℝ} (hc : 0 < c) (z r l : ℝ) (d : FP ℝ) (g : FP ℂ) :
    (geomFuncMulti (FP.num (c * z)) (FP.num c * d) (FP.num (c * r)) (FP.num (c * l)) g : FP ℂ) =
      geomFuncMulti (FP.num z) d (FP.num r) (FP.num l) g := by
  unfold geomFuncMulti
  cases d with
  | nan => simp [slit, sofR_nan]
  | num d =>
    simp only [slit, FP.num_mul, FP.num_add]
    rw [show c * r + c * z + c * d = c * (r + z + d) by ring,
      show 2 * (c * l) = c * (2 * l) by ring, show 4 * (c * l) = c * (4 * l) by ring,
      show c * r + 2 * (c * z) + 2 * (c * d) = c * (r + 2 * z + 2 * d) by ring,
      FP.div_scale hc.ne', FP.div_scale hc.ne', FP.div_scale hc.ne']

/-- The tip with the lengths replaced. -/
def withLengths (a : FdmArgs (FP ℝ) (FP ℂ)) (r l : ℝ) : FdmArgs (FP ℝ) (FP ℂ) :=
  { a with rTip := some (FP.num r), lTip := some (FP.num l) }

theorem fdm_withLengths (env : Env) (a : FdmArgs (FP ℝ) (FP ℂ)) {c : ℝ} (hc : 0 < c) (r l : ℝ) :
    ∃ g d0 d1 dA, env.defaults.fdm (withLengths a r l) =
        ⟨FP.num r, FP.num l, g, d0, d1, dA⟩ ∧
      env.defaults.fdm (withLengths a (c * r) (c * l)) =
        ⟨FP.num (c * r), FP.num (c * l), g, d0, d1, dA⟩ := by
  refine ⟨_, _, _, _, rfl, ?_⟩
  unfold withLengths Defaults.fdm
  cases h : a.dQ0 with
  | some d => simp
  | none =>
    simp only [Option.getD_some, Option.getD_none, slit, FP.num_mul, FP.num_add]
    rw [show 1.31 * (c * l) = c * (1.31 * l) by ring, show c * l + 2 * (c * r) = c * (l + 2 * r) by ring,
      FP.div_scale hc.ne']

theorem effPol_scale {c : ℝ} {s s' : Stack (FP ℝ) (FP ℂ)} (h : Rescaled c s s') (env : Env) (z r l : ℝ)
    (a : FdmArgs (FP ℝ) (FP ℂ)) (nLag : Option ℕ) (m : Option String) :
    effPol env s' (some (FP.num (c * z))) (withLengths a (c * r) (c * l)) nLag m =
      effPol env s (some (FP.num z)) (withLengths a r l) nLag m := by
  obtain ⟨g, d0, d1, dA, h1, h2⟩ := fdm_withLengths env a h.pos r l
  have hz : ∀ d : FP ℝ, (∃ x : ℝ, FP.num z + FP.num r * d = FP.num x ∧
      FP.num (c * z) + FP.num (c * r) * d = FP.num (c * x)) ∨
      (FP.num z + FP.num r * d = FP.nan ∧ FP.num (c * z) + FP.num (c * r) * d = FP.nan) := by
    intro d
    cases d with
    | nan => right; simp
    | num d => left; exact ⟨z + r * d, by simp, by simp; ring⟩
  have hnode : ∀ x : FP ℝ, x / (lit 2 * FP.nan) = FP.nan := by intro x; cases x <;> simp [slit]
  obtain ⟨v, hv⟩ := reflCoefQs_ok s h.len FP.nan
  have hA : s'.reflCoefQsAboveSurf env FP.nan nLag = s.reflCoefQsAboveSurf env FP.nan nLag := by
    unfold Stack.reflCoefQsAboveSurf
    simp only [hnode, h.nan]
  have hS : s'.imageDepthAndCharge env FP.nan nLag =
      s.imageDepthAndCharge env FP.nan nLag >>= fun p => .ok (FP.num c * p.1, p.2) := by
    unfold Stack.imageDepthAndCharge Stack.surfPotAndField
    simp only [hnode, h.nan]
    cases env.lagRule (nLag.getD env.defaults.nLag) with
    | error e => rfl
    | ok rule =>
      simp only [PyM.ok_bind, hv, quad0_unfold]
      generalize (List.mapM (m := PyM) (β := FP ℂ) _ rule) = A
      generalize (List.mapM (m := PyM) (β := FP ℂ) _ rule) = B
      cases A <;> cases B <;> simp
  have hI : ∀ d, s'.imageDepthAndCharge env (FP.num (c * z) + FP.num (c * r) * d) nLag =
      s.imageDepthAndCharge env (FP.num z + FP.num r * d) nLag >>= fun p =>
        .ok (FP.num c * p.1, p.2) := by
    intro d
    rcases hz d with ⟨x, hx, hx'⟩ | ⟨hx, hx'⟩
    · rw [hx, hx', h.image]
    · rw [hx, hx', hS]
  have hB : s'.reflCoefQsAboveSurf env (FP.num (c * z) + FP.num (c * r) * dA) nLag =
      s.reflCoefQsAboveSurf env (FP.num z + FP.num r * dA) nLag := by
    rcases hz dA with ⟨x, hx, hx'⟩ | ⟨hx, hx'⟩
    · rw [hx, hx', h.aboveSurf]
    · rw [hx, hx', hA]
  unfold effPol
  rw [h1, h2, h.multilayer]
  simp only [Option.getD_some, h.zero, geomFunc_scale h.pos, hB, hI]
  generalize m.getD (if s.multilayer = true then "multi" else "bulk") = m
  split_ifs
  all_goals try rfl
  cases s.imageDepthAndCharge env (FP.num z + FP.num r * d0) nLag with
  | error e => rfl
  | ok p =>
    cases s.imageDepthAndCharge env (FP.num z + FP.num r * d1) nLag with
    | error e => rfl
    | ok p' => simp only [PyM.ok_bind, geomFuncMulti_scale h.pos]

end Fdm

end Snompy
