import Verif.Lemmas.Qs

/-!
# C09–C18: quasistatic reflection of layered samples

`layered env layers sub` (`Verif/Spec/Layered.lean`) is a scalar sample of any height.  A zero permittivity
below the environment makes the code divide by zero, hence the hypotheses `≠ 0`; where both sides are
not finite in that case the hypothesis is not needed.
-/

namespace Snompy.Props

open Snompy

/-! ## C09 Bulk reflection is the same at every momentum -/

theorem C09_refl (env sub : ℂ) (nu : Option ℝ) (q : FP ℝ) (hs : sub ≠ 0) (h : sub + env ≠ 0) :
    (bulk env sub nu).reflCoefQs q = .ok (FP.num ((sub - env) / (sub + env))) := by
  have h00 : (1 + env / sub) / 2 ≠ 0 := by
    rw [show (1 + env / sub) / 2 = (sub + env) / (2 * sub) by field_simp]
    exact div_ne_zero h (mul_ne_zero two_ne_zero hs)
  have hm := layered_multilayer env [] sub nu
  unfold bulk Stack.reflCoefQs Stack.transferMatrixQs
  rw [hm]
  simp only [layered, List.map_nil, List.nil_append]
  rw [zipWith_adj]
  simp only [adj, List.map_cons, List.map_nil, FP.num_div _ hs, interface_num, sones,
      sofR, ne_eq, not_true_eq_false, decide_false, Bool.false_eq_true, if_false]
  simp only [toFP, PyM.ok_bind, PyM.pure_eq_ok, FP.num_mul, TM, Matrix.of_apply, Matrix.cons_val',
    Matrix.cons_val_zero, Matrix.cons_val_one, Matrix.cons_val_fin_one, Complex.ofReal_one, mul_one]
  rw [FP.num_div _ h00]
  congr 2
  field_simp

theorem C09_beta_stack (env sub : ℂ) (nu : Option ℝ) (h : sub + env ≠ 0) :
    (bulk env sub nu).betaStack = [FP.num ((sub - env) / (sub + env))] := by
  simp [bulk, layered, Stack.betaStack, reflCoefQsSingle, FP.num_div _ h]

theorem C09_trans (env sub : ℂ) (nu : Option ℝ) (q : FP ℝ) (hs : sub ≠ 0) (h : sub + env ≠ 0) :
    (bulk env sub nu).transCoefQs q = .ok (FP.num (1 + (sub - env) / (sub + env))) := by
  have h00 : (1 + env / sub) / 2 ≠ 0 := by
    rw [show (1 + env / sub) / 2 = (sub + env) / (2 * sub) by field_simp]
    exact div_ne_zero h (mul_ne_zero two_ne_zero hs)
  have hm := layered_multilayer env [] sub nu
  unfold bulk Stack.transCoefQs Stack.transferMatrixQs
  rw [hm]
  simp only [layered, List.map_nil, List.nil_append]
  rw [zipWith_adj]
  simp only [adj, List.map_cons, List.map_nil, FP.num_div _ hs, interface_num, sones,
      sofR, ne_eq, not_true_eq_false, decide_false, Bool.false_eq_true, if_false]
  simp only [toFP, PyM.ok_bind, PyM.pure_eq_ok, FP.num_mul, TM, Matrix.of_apply, Matrix.cons_val',
    Matrix.cons_val_zero, Matrix.cons_val_one, Matrix.cons_val_fin_one, Complex.ofReal_one, mul_one,
    sclit]
  rw [FP.num_div _ h00]
  congr 2
  field_simp
  ring

/-- Opposite permittivities (the surface-phonon pole), or a substrate of zero permittivity: the code
divides by zero. -/
theorem C09_pole (env sub : ℂ) (nu : Option ℝ) (q : ℝ) (h : sub + env = 0 ∨ sub = 0) :
    (bulk env sub nu).reflCoefQs (FP.num q) = .ok FP.nan ∧
      (bulk env sub nu).transCoefQs (FP.num q) = .ok FP.nan := by
  by_cases hs : sub = 0
  · unfold bulk Stack.reflCoefQs Stack.transCoefQs
    rw [transferMatrixQs_zero env [] sub nu _ (Or.inr hs)]
    simp [nanMat]
  · have h0 : qsMat q env [] sub 0 0 = 0 := by
      have : env = -sub := by linear_combination h.resolve_right hs
      simp [qsMat, gen, TM, this, neg_div, div_self hs]
    unfold bulk
    rw [reflCoefQs_eq env [] sub nu q (by simp) hs, transCoefQs_eq env [] sub nu q (by simp) hs, h0,
      num_div_zero, num_div_zero]
    simp

/-- Silicon in air. -/
example : (bulk 1 (11.7 : ℂ)).reflCoefQs (FP.num 3) = .ok (FP.num ((11.7 - 1) / (11.7 + 1))) :=
  C09_refl 1 11.7 none _ (by norm_num) (by norm_num)
example : (bulk 1 (-1)).reflCoefQs (FP.num 3) = .ok FP.nan :=
  (C09_pole 1 (-1) none 3 (by norm_num)).1

/-! ## C10 At zero momentum only the environment and the substrate matter -/

theorem C10_refl (env : ℂ) (L : List (ℂ × ℝ)) (sub : ℂ) (nu : Option ℝ) (hL : ∀ l ∈ L, l.1 ≠ 0)
    (hs : sub ≠ 0) (h : sub + env ≠ 0) :
    (layered env L sub nu).reflCoefQs = .ok (FP.num ((sub - env) / (sub + env))) := by
  have e : qsMat 0 env L sub = qsMat 0 env [] sub := by
    unfold qsMat
    rw [gen_zero _ _ _ (by
      intro l hl
      obtain ⟨l', h1, rfl⟩ := List.mem_map.1 hl
      exact ⟨hL l' h1, by simp⟩)]
    rfl
  have h1 := reflCoefQs_eq env L sub nu 0 hL hs
  have h2 := reflCoefQs_eq env [] sub nu 0 (by simp) hs
  rw [e, ← h2] at h1
  exact h1.trans (C09_refl env sub nu _ hs h)

theorem C10_trans (env : ℂ) (L : List (ℂ × ℝ)) (sub : ℂ) (nu : Option ℝ) (hL : ∀ l ∈ L, l.1 ≠ 0)
    (hs : sub ≠ 0) (h : sub + env ≠ 0) :
    (layered env L sub nu).transCoefQs = .ok (FP.num (1 + (sub - env) / (sub + env))) := by
  have e : qsMat 0 env L sub = qsMat 0 env [] sub := by
    unfold qsMat
    rw [gen_zero _ _ _ (by
      intro l hl
      obtain ⟨l', h1, rfl⟩ := List.mem_map.1 hl
      exact ⟨hL l' h1, by simp⟩)]
    rfl
  have h1 := transCoefQs_eq env L sub nu 0 hL hs
  have h2 := transCoefQs_eq env [] sub nu 0 (by simp) hs
  rw [e, ← h2] at h1
  exact h1.trans (C09_trans env sub nu _ hs h)

/-- The layers do not matter, also where the result is not finite. -/
theorem C10_layers (env : ℂ) (L : List (ℂ × ℝ)) (sub : ℂ) (nu : Option ℝ) (hL : ∀ l ∈ L, l.1 ≠ 0) :
    (layered env L sub nu).reflCoefQs = (bulk env sub nu).reflCoefQs := by
  by_cases hs : sub = 0
  · unfold bulk Stack.reflCoefQs
    rw [transferMatrixQs_zero env L sub nu _ (Or.inr hs),
      transferMatrixQs_zero env [] sub nu _ (Or.inr hs)]
  · have e : qsMat 0 env L sub = qsMat 0 env [] sub := by
      unfold qsMat
      rw [gen_zero _ _ _ (by
        intro l hl
        obtain ⟨l', h1, rfl⟩ := List.mem_map.1 hl
        exact ⟨hL l' h1, by simp⟩)]
      rfl
    have h1 := reflCoefQs_eq env L sub nu 0 hL hs
    have h2 := reflCoefQs_eq env [] sub nu 0 (by simp) hs
    rw [e, ← h2] at h1
    exact h1

example : (layered 1 [(2, 50), (Complex.I, 3)] 11).reflCoefQs =
    .ok (FP.num ((11 - 1) / (11 + 1))) :=
  C10_refl 1 [(2, 50), (Complex.I, 3)] 11 none (by simp) (by norm_num) (by norm_num)

/-! ## C11 The stack reflection obeys the layer-by-layer recursion -/

theorem C11_recursion (env : ℂ) (L : List (ℂ × ℝ)) (sub : ℂ) (nu : Option ℝ) (q : ℝ)
    (hL : ∀ l ∈ L, l.1 ≠ 0) (hs : sub ≠ 0) (r t : ℂ) (h : stackCoefs q env L sub = some (r, t)) :
    (layered env L sub nu).reflCoefQs (FP.num q) = .ok (FP.num r) ∧
      (layered env L sub nu).transCoefQs (FP.num q) = .ok (FP.num t) := by
  obtain ⟨h1, h2, h3⟩ := gen_stackCoefs q env L sub hL hs r t h
  rw [reflCoefQs_num _ _ _ _ _ hL hs h1, transCoefQs_num _ _ _ _ _ hL hs h1, h2,
    mul_div_assoc, div_self h1, mul_one, ← h3, mul_div_assoc, div_self h1, mul_one]
  exact ⟨rfl, rfl⟩

/-- One layer, written out. -/
theorem slab_refl (q t : ℝ) (hq : 0 ≤ q) (ht : 0 ≤ t) (hqt : q * t ≤ maxExpArg) :
    (layered 1 [(3, t)] 1).reflCoefQs (FP.num q) =
      .ok (FP.num ((1 / 2 - 1 / 2 * (Real.exp (-(q * t)) : ℂ) ^ 2) /
        (1 + 1 / 2 * (-1 / 2) * (Real.exp (-(q * t)) : ℂ) ^ 2))) := by
  have hc : clipped (q * t) = q * t := clipped_of_abs_le (by
    rw [abs_of_nonneg (mul_nonneg hq ht)]; exact hqt)
  have hu : 0 < Real.exp (-(q * t)) := Real.exp_pos _
  have hu1 : Real.exp (-(q * t)) ≤ 1 := Real.exp_le_one_iff.2 (by linarith [mul_nonneg hq ht])
  have h1 : (1 : ℂ) + 1 / 2 * (-1 / 2) * (Real.exp (-(q * t)) : ℂ) ^ 2 ≠ 0 := by
    generalize Real.exp (-(q * t)) = u at hu hu1
    have : (1 : ℝ) + 1 / 2 * (-1 / 2) * u ^ 2 ≠ 0 := by nlinarith
    exact fun h => this (Complex.ofReal_injective (by push_cast; linear_combination h))
  refine (C11_recursion 1 [(3, t)] 1 none q (by simp) (by norm_num) _
    ((1 + 1 / 2) * (1 + -1 / 2) * (Real.exp (-(q * t)) : ℂ) /
      (1 + 1 / 2 * (-1 / 2) * (Real.exp (-(q * t)) : ℂ) ^ 2)) ?_).1
  have a1 : ((1 : ℂ) - 3) / (1 + 3) = -1 / 2 := by norm_num
  have a2 : ((3 : ℂ) - 1) / (3 + 1) = 1 / 2 := by norm_num
  have a3 : ¬ ((3 : ℂ) + 1 = 0 ∨
      1 + 1 / 2 * (-1 / 2) * (Real.exp (-(q * t)) : ℂ) ^ 2 = 0) := by
    rw [not_or]; exact ⟨by norm_num, h1⟩
  have a4 : ¬ ((1 : ℂ) + 3 = 0) := by norm_num
  simp only [stackCoefs, hc, a1, a2, if_neg a3, if_neg a4]
  congr 3
  ring

/-! ## C12 A zero-thickness layer is invisible (far field: `Verif/Props/FarField.lean`) -/

theorem C12_qs (env : ℂ) (L₁ L₂ : List (ℂ × ℝ)) (eps sub : ℂ) (nu : Option ℝ) (q : ℝ)
    (he : eps ≠ 0) :
    (layered env (L₁ ++ (eps, 0) :: L₂) sub nu).transferMatrixQs (FP.num q) =
      (layered env (L₁ ++ L₂) sub nu).transferMatrixQs (FP.num q) := by
  by_cases h : (∃ l ∈ L₁ ++ L₂, l.1 = 0) ∨ sub = 0
  · rw [transferMatrixQs_zero _ (L₁ ++ L₂) _ _ _ h, transferMatrixQs_zero]
    refine h.imp_left ?_
    rintro ⟨l, h1, h2⟩
    refine ⟨l, ?_, h2⟩
    simp only [List.mem_append, List.mem_cons] at h1 ⊢
    tauto
  · simp only [not_or, not_exists, not_and] at h
    rw [transferMatrixQs_layered _ (L₁ ++ L₂) _ _ _ h.1 h.2, transferMatrixQs_layered _ _ _ _ _ _ h.2]
    · unfold qsMat
      simp only [List.map_append, List.map_cons, mul_zero, clipped_zero, Complex.ofReal_zero]
      rw [gen_insert_zero _ _ _ _ _ he]
    · intro l hl
      rcases List.mem_append.1 hl with hl | hl
      · exact h.1 l (by simp [hl])
      · rcases List.mem_cons.1 hl with rfl | hl
        · exact he
        · exact h.1 l (by simp [hl])

theorem C12_qs_coefs (env : ℂ) (L₁ L₂ : List (ℂ × ℝ)) (eps sub : ℂ) (nu : Option ℝ) (q : ℝ)
    (he : eps ≠ 0) :
    (layered env (L₁ ++ (eps, 0) :: L₂) sub nu).reflCoefQs (FP.num q) =
      (layered env (L₁ ++ L₂) sub nu).reflCoefQs (FP.num q) ∧
    (layered env (L₁ ++ (eps, 0) :: L₂) sub nu).transCoefQs (FP.num q) =
      (layered env (L₁ ++ L₂) sub nu).transCoefQs (FP.num q) :=
  coefs_congr (C12_qs env L₁ L₂ eps sub nu q he)

/-- A single layer of no thickness leaves the bulk sample. -/
example (q : ℝ) : (layered 1 [(5, 0)] 2).reflCoefQs (FP.num q) = .ok (FP.num ((2 - 1) / (2 + 1))) :=
  (C12_qs_coefs 1 [] [] 5 2 none q (by norm_num)).1.trans
    (C09_refl 1 2 none _ (by norm_num) (by norm_num))

/-! ## C13 Splitting a layer changes nothing -/

theorem C13_qs (env : ℂ) (L₁ L₂ : List (ℂ × ℝ)) (eps : ℂ) (t₁ t₂ : ℝ) (sub : ℂ) (nu : Option ℝ)
    (q : ℝ) (h1 : |q * t₁| ≤ maxExpArg) (h2 : |q * t₂| ≤ maxExpArg)
    (h12 : |q * (t₁ + t₂)| ≤ maxExpArg) :
    (layered env (L₁ ++ (eps, t₁) :: (eps, t₂) :: L₂) sub nu).transferMatrixQs (FP.num q) =
      (layered env (L₁ ++ (eps, t₁ + t₂) :: L₂) sub nu).transferMatrixQs (FP.num q) := by
  by_cases h : (∃ l ∈ L₁ ++ (eps, t₁ + t₂) :: L₂, l.1 = 0) ∨ sub = 0
  · rw [transferMatrixQs_zero _ (L₁ ++ (eps, t₁ + t₂) :: L₂) _ _ _ h, transferMatrixQs_zero]
    refine h.imp_left ?_
    rintro ⟨l, h1, h2⟩
    simp only [List.mem_append, List.mem_cons] at h1
    rcases h1 with h1 | rfl | h1
    · exact ⟨l, by simp [h1], h2⟩
    · exact ⟨(eps, t₁), by simp, h2⟩
    · exact ⟨l, by simp [h1], h2⟩
  · simp only [not_or, not_exists, not_and] at h
    have he : eps ≠ 0 := h.1 (eps, t₁ + t₂) (by simp)
    rw [transferMatrixQs_layered _ (L₁ ++ (eps, t₁ + t₂) :: L₂) _ _ _ h.1 h.2,
      transferMatrixQs_layered _ _ _ _ _ _ h.2]
    · unfold qsMat
      simp only [List.map_append, List.map_cons]
      rw [gen_split _ _ _ _ _ _ _ he, clipped_of_abs_le h1, clipped_of_abs_le h2,
        clipped_of_abs_le h12]
      push_cast
      ring_nf
    · intro l hl
      rcases List.mem_append.1 hl with hl | hl
      · exact h.1 l (by simp [hl])
      · rcases List.mem_cons.1 hl with rfl | hl
        · exact he
        · rcases List.mem_cons.1 hl with rfl | hl
          · exact he
          · exact h.1 l (by simp [hl])

/-- Beyond the exponent limit the law fails: in a `1 | 2 | 1` slab the reflection of two
sheets each at the limit is not that of the double sheet. -/
theorem C13_clip : ∃ (q t : ℝ), 0 < q ∧ 0 < t ∧
    (layered 1 [(2, t), (2, t)] 1).reflCoefQs (FP.num q) ≠
      (layered 1 [(2, t + t)] 1).reflCoefQs (FP.num q) := by
  refine ⟨1, maxExpArg, one_pos, maxExpArg_pos, ?_⟩
  have hp := maxExpArg_pos
  have c1 : clipped (1 * maxExpArg) = maxExpArg := by
    rw [one_mul, clipped_of_nonneg hp.le, min_self]
  have c2 : clipped (1 * (maxExpArg + maxExpArg)) = maxExpArg := by
    rw [one_mul, clipped_of_nonneg (by linarith), min_eq_right (by linarith)]
  have hu : 0 < Real.exp (-maxExpArg) := Real.exp_pos _
  have hu1 : Real.exp (-maxExpArg) < 1 := Real.exp_lt_one_iff.2 (by linarith)
  set u := Real.exp (-maxExpArg) with hudef
  have hone : ∀ v : ℝ, 0 < v → v < 1 → (1 : ℝ) + 1 / 3 * (-(1 / 3)) * v ^ 2 ≠ 0 := by
    intro v h1 h2; nlinarith
  have a1 : ((1 : ℂ) - 2) / (1 + 2) = -(1 / 3) := by norm_num
  have a2 : ((2 : ℂ) - 1) / (2 + 1) = 1 / 3 := by norm_num
  have a3 : ((2 : ℂ) - 2) / (2 + 2) = 0 := by norm_num
  have a4 : ¬ ((1 : ℂ) + 2 = 0) := by norm_num
  have a5 : ¬ ((2 : ℂ) + 2 = 0) := by norm_num
  have a6 : ¬ ((2 : ℂ) + 1 = 0) := by norm_num
  have b1 : (1 : ℂ) + 1 / 3 * (-(1 / 3)) * (u : ℂ) ^ 2 ≠ 0 := fun h =>
    hone u hu hu1 (Complex.ofReal_injective (by push_cast; linear_combination h))
  have b2 : (1 : ℂ) + 1 / 3 * (-(1 / 3) * (u : ℂ) ^ 2) * (u : ℂ) ^ 2 ≠ 0 := by
    have := hone (u * u) (mul_pos hu hu) (by nlinarith)
    have h' : (1 : ℝ) + 1 / 3 * (-(1 / 3) * u ^ 2) * u ^ 2 ≠ 0 := by
      intro h; apply this; rw [← h]; ring
    exact fun h => h' (Complex.ofReal_injective (by push_cast; linear_combination h))
  have s1 : stackCoefs 1 1 [(2, maxExpArg + maxExpArg)] 1 =
      some ((1 / 3 + (-(1 / 3)) * (u : ℂ) ^ 2) / (1 + 1 / 3 * (-(1 / 3)) * (u : ℂ) ^ 2),
        (1 + 1 / 3) * (1 + -(1 / 3)) * (u : ℂ) / (1 + 1 / 3 * (-(1 / 3)) * (u : ℂ) ^ 2)) := by
    simp only [stackCoefs, c2, a1, a2, if_neg a4, ← hudef]
    rw [if_neg (by rw [not_or]; exact ⟨a6, b1⟩)]
  obtain ⟨τ, s2⟩ : ∃ τ : ℂ, stackCoefs 1 1 [(2, maxExpArg), (2, maxExpArg)] 1 =
      some ((1 / 3 + (-(1 / 3) * (u : ℂ) ^ 2) * (u : ℂ) ^ 2) /
        (1 + 1 / 3 * (-(1 / 3) * (u : ℂ) ^ 2) * (u : ℂ) ^ 2), τ) := by
    refine ⟨(1 + 1 / 3) * ((1 + -(1 / 3)) * (u : ℂ)) * (u : ℂ) /
      (1 + 1 / 3 * (-(1 / 3) * (u : ℂ) ^ 2) * (u : ℂ) ^ 2), ?_⟩
    simp only [stackCoefs, c1, a1, a2, a3, if_neg a4, ← hudef, zero_mul, add_zero, zero_add, div_one]
    rw [if_neg (by rw [not_or]; exact ⟨a5, one_ne_zero⟩)]
    simp only
    rw [if_neg (by rw [not_or]; exact ⟨a6, b2⟩), one_mul]
  rw [(C11_recursion 1 [(2, maxExpArg + maxExpArg)] 1 none 1 (by simp) (by norm_num) _ _ s1).1,
    (C11_recursion 1 [(2, maxExpArg), (2, maxExpArg)] 1 none 1 (by simp) (by norm_num) _ _ s2).1]
  intro h
  have h' := FP.num.inj (Except.ok.inj h)
  rw [div_eq_div_iff b2 b1] at h'
  have h3 : (1 / 3 + -(1 / 3) * u ^ 2 * u ^ 2) * (1 + 1 / 3 * (-(1 / 3)) * u ^ 2) =
      (1 / 3 + -(1 / 3) * u ^ 2) * (1 + 1 / 3 * (-(1 / 3) * u ^ 2) * u ^ 2) := by
    exact Complex.ofReal_injective (by push_cast; linear_combination h')
  have h4 : (8 / 27) * (u ^ 2 * (1 - u ^ 2)) = 0 := by nlinarith
  have : 0 < (8 / 27) * (u ^ 2 * (1 - u ^ 2)) := by
    have : 0 < 1 - u ^ 2 := by nlinarith
    positivity
  linarith

/-- Within the limit: halves of a sheet of thickness 2. -/
example : (layered 1 [(4, 1), (4, 1)] 2).transferMatrixQs (FP.num 0.1) =
    (layered 1 [(4, 1 + 1)] 2).transferMatrixQs (FP.num 0.1) := by
  have h := maxExpArg_gt
  refine C13_qs 1 [] [] 4 1 1 2 none 0.1 ?_ ?_ ?_ <;> norm_num [abs_of_nonneg] <;> linarith

/-! ## C14 Reciprocity of the stack (far field: `Verif/Props/FarField.lean`) -/

theorem C14_qs_det (env : ℂ) (L : List (ℂ × ℝ)) (sub : ℂ) (nu : Option ℝ) (q : ℝ)
    (hL : ∀ l ∈ L, l.1 ≠ 0) (hs : sub ≠ 0) :
    ∃ M, (layered env L sub nu).transferMatrixQs (FP.num q) = .ok M ∧
      M.m00 * M.m11 - M.m01 * M.m10 = FP.num (env / sub) := by
  refine ⟨_, transferMatrixQs_layered env L sub nu q hL hs, ?_⟩
  have h := det_gen env (L.map fun l => (l.1, (clipped (q * l.2) : ℂ))) sub (by
    intro l hl
    obtain ⟨l', h1, rfl⟩ := List.mem_map.1 hl
    exact hL l' h1)
  rw [Matrix.det_fin_two] at h
  simp only [toFP, FP.num_mul, FP.num_sub]
  congr 1

/-- Transmission from above and from below (upside-down stack). -/
theorem C14_qs_trans (env : ℂ) (L : List (ℂ × ℝ)) (sub : ℂ) (nu : Option ℝ) (q : ℝ)
    (h0 : env ≠ 0) (hL : ∀ l ∈ L, l.1 ≠ 0) (hs : sub ≠ 0) :
    ∃ down up, (layered env L sub nu).transCoefQs (FP.num q) = .ok down ∧
      (layered sub L.reverse env nu).transCoefQs (FP.num q) = .ok up ∧
      down = FP.num (sub / env) * up := by
  refine ⟨_, _, transCoefQs_eq env L sub nu q hL hs,
    transCoefQs_eq sub L.reverse env nu q (by simpa using hL) h0, ?_⟩
  have h := gen_reverse env (L.map fun l => (l.1, (clipped (q * l.2) : ℂ))) sub h0 (by
    intro l hl
    obtain ⟨l', h1, rfl⟩ := List.mem_map.1 hl
    exact hL l' h1) hs
  have h' := congrFun (congrFun h 0) 0
  rw [← List.map_reverse] at h'
  change qsMat q env L sub 0 0 = env / sub * qsMat q sub L.reverse env 0 0 at h'
  have hes := div_ne_zero h0 hs
  by_cases hz : qsMat q sub L.reverse env 0 0 = 0
  · rw [h', hz, mul_zero, num_div_zero]; simp
  · rw [h', FP.num_div _ hz, FP.num_div _ (mul_ne_zero hes hz), FP.num_mul]
    congr 1
    field_simp

example : ∃ down up, (layered 1 [(3, 1), (5, 2)] 2).transCoefQs (FP.num 1) = .ok down ∧
    (layered 2 [(5, 2), (3, 1)] 1).transCoefQs (FP.num 1) = .ok up ∧ down = FP.num (2 / 1) * up :=
  C14_qs_trans 1 [(3, 1), (5, 2)] 2 none 1 (by norm_num) (by simp) (by norm_num)

/-! ## C15 Passive stacks never amplify -/

theorem C15_passive (env : ℝ) (L : List (ℂ × ℝ)) (sub : ℂ) (nu : Option ℝ) (q : ℝ) (h0 : 0 < env)
    (hL : ∀ l ∈ L, Passive l.1 ∧ 0 ≤ l.2) (hs : Passive sub) (hq : 0 ≤ q) :
    ∃ β : ℂ, (layered env L sub nu).reflCoefQs (FP.num q) = .ok (FP.num β) ∧ 0 ≤ β.im := by
  have h0' : (env : ℂ) ∈ {z : ℂ | 0 < z.im ∨ z.im = 0 ∧ 0 < z.re} := Or.inr ⟨by simp, by simpa⟩
  obtain ⟨hE, h⟩ := reflCoefQs_effEps posCone_upper env L sub nu q h0' hs hL hq
  refine ⟨_, h, ?_⟩
  have hne := posCone_upper.ne_zero (posCone_upper.add hE h0')
  set E := effEps (L.map fun l => (l.1, clipped (q * l.2))) sub
  have hEi : 0 ≤ E.im := by rcases hE with h | ⟨h, _⟩ <;> linarith
  rw [show (E - env) / (E + env) = 1 - 2 * env / (E + env) by field_simp; ring]
  have : (1 - 2 * (env : ℂ) / (E + env)).im = 2 * env * E.im / Complex.normSq (E + env) := by
    rw [Complex.sub_im, Complex.div_im]
    simp
  rw [this]
  exact div_nonneg (by positivity) (Complex.normSq_nonneg _)

/-- Silicon dioxide on silicon, near the phonon resonance. -/
example (q : ℝ) (hq : 0 ≤ q) : ∃ β : ℂ,
    (layered (1 : ℝ) [(⟨-2, 1⟩, 30)] 11.7).reflCoefQs (FP.num q) = .ok (FP.num β) ∧ 0 ≤ β.im :=
  C15_passive 1 [(⟨-2, 1⟩, 30)] 11.7 none q one_pos
    (by intro l hl; simp only [List.mem_singleton] at hl; subst hl; simp [Passive])
    (Or.inr (by norm_num)) hq

/-! ## C16 Dielectric stacks reflect less than everything -/

theorem C16_bound (env : ℝ) (L : List (ℂ × ℝ)) (sub : ℂ) (nu : Option ℝ) (q : ℝ) (h0 : 0 < env)
    (hL : ∀ l ∈ L, 0 < l.1.re ∧ 0 ≤ l.2) (hs : 0 < sub.re) (hq : 0 ≤ q) :
    ∃ β : ℂ, (layered env L sub nu).reflCoefQs (FP.num q) = .ok (FP.num β) ∧ ‖β‖ < 1 := by
  have h0' : (env : ℂ) ∈ {z : ℂ | 0 < z.re} := by simpa using h0
  obtain ⟨hE, h⟩ := reflCoefQs_effEps posCone_re env L sub nu q h0' hs hL hq
  refine ⟨_, h, ?_⟩
  have hne := posCone_re.ne_zero (posCone_re.add hE h0')
  set E := effEps (L.map fun l => (l.1, clipped (q * l.2))) sub
  have hEr : 0 < E.re := hE
  rw [norm_div, div_lt_one (norm_pos_iff.2 hne)]
  refine lt_of_pow_lt_pow_left₀ 2 (norm_nonneg _) ?_
  rw [← Complex.normSq_eq_norm_sq, ← Complex.normSq_eq_norm_sq, Complex.normSq_apply,
    Complex.normSq_apply]
  simp
  nlinarith [mul_pos hEr h0]

example : ∃ β : ℂ, (layered (1 : ℝ) [(2, 30), (⟨1, -5⟩, 4)] 11.7).reflCoefQs (FP.num 0.5) =
    .ok (FP.num β) ∧ ‖β‖ < 1 :=
  C16_bound 1 [(2, 30), (⟨1, -5⟩, 4)] 11.7 none 0.5 one_pos
    (by intro l hl; simp only [List.mem_cons, List.not_mem_nil, or_false] at hl
        rcases hl with rfl | rfl <;> norm_num)
    (by norm_num) (by norm_num)

/-! ## C17 At large momentum only the top interface matters -/

theorem C17_exponential (env : ℝ) (eps : ℂ) (L : List (ℂ × ℝ)) (sub : ℂ) (nu : Option ℝ) (h0 : 0 < env)
    (he : 0 < eps.re) (hL : ∀ l ∈ L, 0 < l.1.re ∧ 0 ≤ l.2) (hs : 0 < sub.re) :
    ∃ C : ℝ, ∀ q t : ℝ, 0 ≤ q → 0 ≤ t → ∃ β : ℂ,
      (layered env ((eps, t) :: L) sub nu).reflCoefQs (FP.num q) = .ok (FP.num β) ∧
      ‖β - (eps - env) / (eps + env)‖ ≤ C * Real.exp (-2 * min (q * t) maxExpArg) := by
  -- the permittivity below the first layer is bounded
  obtain ⟨B, hB⟩ : ∃ B : ℝ, ∀ q : ℝ, 0 ≤ q →
      ‖effEps (L.map fun l => (l.1, clipped (q * l.2))) sub‖ ≤ B := by
    clear he
    induction L with
    | nil => exact ⟨‖sub‖, fun q _ => le_rfl⟩
    | cons l L ih =>
      obtain ⟨e, t⟩ := l
      obtain ⟨he, ht⟩ := hL (e, t) (by simp)
      simp only at he ht
      have hL' : ∀ l ∈ L, 0 < l.1.re ∧ 0 ≤ l.2 := fun l hl => hL l (by simp [hl])
      obtain ⟨B, hB⟩ := ih hL'
      refine ⟨‖e‖ * (‖e‖ + B) / e.re, fun q hq => ?_⟩
      have hx := clipped_nonneg (mul_nonneg hq ht)
      have hE := effEps_mem posCone_re (L.map fun l => (l.1, clipped (q * l.2))) sub hs (by
        intro l hl
        obtain ⟨l', h1, rfl⟩ := List.mem_map.1 hl
        exact ⟨(hL' l' h1).1, clipped_nonneg (mul_nonneg hq (hL' l' h1).2)⟩)
      have hEB := hB q hq
      simp only [List.map_cons, effEps]
      set E := effEps (L.map fun l => (l.1, clipped (q * l.2))) sub
      set x := clipped (q * t)
      have hEr : 0 < E.re := hE
      have hc := Real.cosh_pos x
      have hsh : 0 ≤ Real.sinh x := Real.sinh_nonneg_iff.2 hx
      have hsc : Real.sinh x ≤ Real.cosh x := (Real.sinh_lt_cosh x).le
      have hd : e.re * Real.cosh x ≤ ‖e * Real.cosh x + E * Real.sinh x‖ := by
        refine le_trans ?_ (Complex.re_le_norm _)
        rw [Complex.add_re, Complex.re_mul_ofReal, Complex.re_mul_ofReal]
        nlinarith [mul_nonneg hEr.le hsh]
      have hn : ‖e * (e * Real.sinh x + E * Real.cosh x)‖ ≤ ‖e‖ * (‖e‖ + B) * Real.cosh x := by
        rw [norm_mul, mul_assoc]
        refine mul_le_mul_of_nonneg_left ?_ (norm_nonneg _)
        refine (norm_add_le _ _).trans ?_
        rw [norm_mul, norm_mul, Complex.norm_of_nonneg hsh, Complex.norm_of_nonneg hc.le, add_mul]
        gcongr
      rw [norm_div]
      calc _ ≤ ‖e‖ * (‖e‖ + B) * Real.cosh x / (e.re * Real.cosh x) := by
            have hdp : 0 < e.re * Real.cosh x := by positivity
            have := le_trans (norm_nonneg _) hn
            gcongr
        _ = _ := by field_simp
  refine ⟨2 * env * (‖eps‖ * (B + ‖eps‖) * 2 / eps.re) / (env * env), fun q t hq ht => ?_⟩
  have h0' : (env : ℂ) ∈ {z : ℂ | 0 < z.re} := by simpa using h0
  have hL1 : ∀ l ∈ (eps, t) :: L, l.1 ∈ {z : ℂ | 0 < z.re} ∧ 0 ≤ l.2 := by
    intro l hl
    rcases List.mem_cons.1 hl with rfl | hl
    · exact ⟨he, ht⟩
    · exact hL l hl
  obtain ⟨hE1, h⟩ := reflCoefQs_effEps posCone_re env ((eps, t) :: L) sub nu q h0' hs hL1 hq
  refine ⟨_, h, ?_⟩
  have hE := effEps_mem posCone_re (L.map fun l => (l.1, clipped (q * l.2))) sub hs (by
    intro l hl
    obtain ⟨l', h1, rfl⟩ := List.mem_map.1 hl
    exact ⟨(hL l' h1).1, clipped_nonneg (mul_nonneg hq (hL l' h1).2)⟩)
  have hEB := hB q hq
  have hcl : clipped (q * t) = min (q * t) maxExpArg := clipped_of_nonneg (mul_nonneg hq ht)
  rw [← hcl]
  simp only [List.map_cons, effEps] at hE1 ⊢
  have hx := clipped_nonneg (mul_nonneg hq ht)
  set E := effEps (L.map fun l => (l.1, clipped (q * l.2))) sub
  set x := clipped (q * t)
  have hEr : 0 < E.re := hE
  have hc := Real.cosh_pos x
  have hsh : 0 ≤ Real.sinh x := Real.sinh_nonneg_iff.2 hx
  set D := eps * (Real.cosh x : ℂ) + E * (Real.sinh x : ℂ) with hD
  have hdr : eps.re * Real.cosh x ≤ D.re := by
    rw [hD, Complex.add_re, Complex.re_mul_ofReal, Complex.re_mul_ofReal]
    nlinarith [mul_nonneg hEr.le hsh]
  have hd0 : 0 < D.re := lt_of_lt_of_le (mul_pos he hc) hdr
  have hd : eps.re * Real.cosh x ≤ ‖D‖ := hdr.trans (Complex.re_le_norm _)
  have hD0 : D ≠ 0 := by intro h; rw [h] at hd0; simp at hd0
  set F := eps * (eps * (Real.sinh x : ℂ) + E * (Real.cosh x : ℂ)) / D with hF
  have hFr : 0 < F.re := hE1
  have hF0 : F + env ≠ 0 := posCone_re.ne_zero (posCone_re.add hE1 h0')
  have he0 : eps + env ≠ 0 := by
    have := posCone_re.ne_zero (posCone_re.add (z := eps) he h0')
    exact this
  have hcs : Real.cosh x - Real.sinh x = Real.exp (-x) := Real.cosh_sub_sinh x
  have hFe : F - eps = eps * (E - eps) * (Real.exp (-x) : ℂ) / D := by
    rw [← hcs, hF, eq_div_iff hD0, sub_mul, div_mul_cancel₀ _ hD0, hD]
    push_cast
    ring
  have hFn : ‖F - eps‖ ≤ ‖eps‖ * (B + ‖eps‖) * 2 / eps.re * Real.exp (-2 * x) := by
    rw [hFe, norm_div, norm_mul, norm_mul, Complex.norm_of_nonneg (Real.exp_pos _).le]
    have h1 : ‖E - eps‖ ≤ B + ‖eps‖ := (norm_sub_le _ _).trans (by gcongr)
    have h2 : Real.exp x ≤ 2 * Real.cosh x := by
      rw [Real.cosh_eq]; linarith [Real.exp_pos (-x)]
    have h3 : Real.exp (-2 * x) = Real.exp (-x) / Real.exp x := by
      rw [← Real.exp_sub]; congr 1; ring
    have h4 : eps.re * (Real.exp x / 2) ≤ ‖D‖ := by
      refine le_trans ?_ hd
      have : Real.exp x / 2 ≤ Real.cosh x := by linarith
      gcongr
    have hxp := Real.exp_pos x
    calc ‖eps‖ * ‖E - eps‖ * Real.exp (-x) / ‖D‖
        ≤ ‖eps‖ * (B + ‖eps‖) * Real.exp (-x) / (eps.re * (Real.exp x / 2)) := by
          have : 0 < eps.re * (Real.exp x / 2) := by positivity
          have : 0 ≤ B + ‖eps‖ := le_trans (norm_nonneg _) h1
          gcongr
      _ = _ := by rw [h3]; field_simp
  have hbeta : (F - env) / (F + env) - (eps - env) / (eps + env) =
      2 * env * (F - eps) / ((F + env) * (eps + env)) := by
    field_simp
    ring
  rw [hbeta, norm_div, norm_mul, norm_mul, norm_mul, Complex.norm_of_nonneg h0.le]
  have hn1 : env ≤ ‖F + env‖ := by
    refine le_trans ?_ (Complex.re_le_norm _)
    simp; linarith
  have hn2 : env ≤ ‖eps + env‖ := by
    refine le_trans ?_ (Complex.re_le_norm _)
    simp; linarith
  have h2n : ‖(2 : ℂ)‖ = 2 := by simp
  rw [h2n]
  calc 2 * env * ‖F - eps‖ / (‖F + env‖ * ‖eps + env‖)
      ≤ 2 * env * (‖eps‖ * (B + ‖eps‖) * 2 / eps.re * Real.exp (-2 * x)) / (env * env) := by
        have := le_trans (norm_nonneg _) hFn
        gcongr
    _ = _ := by ring

example : ∃ C : ℝ, ∀ q t : ℝ, 0 ≤ q → 0 ≤ t → ∃ β : ℂ,
    (layered (1 : ℝ) ((2, t) :: [(3, 4)]) 11).reflCoefQs (FP.num q) = .ok (FP.num β) ∧
    ‖β - (2 - (1 : ℝ)) / (2 + (1 : ℝ))‖ ≤ C * Real.exp (-2 * min (q * t) maxExpArg) :=
  C17_exponential 1 2 [(3, 4)] 11 none one_pos (by norm_num) (by simp) (by norm_num)

/-! ## C18 Quasistatic reflection depends only on q*t and permittivity ratios -/

theorem C18_scale_eps (c env : ℂ) (L : List (ℂ × ℝ)) (sub : ℂ) (nu : Option ℝ) (q : ℝ) (hc : c ≠ 0) :
    (layered (c * env) (L.map fun l => (c * l.1, l.2)) (c * sub) nu).transferMatrixQs (FP.num q) =
      (layered env L sub nu).transferMatrixQs (FP.num q) := by
  by_cases h : (∃ l ∈ L, l.1 = 0) ∨ sub = 0
  · rw [transferMatrixQs_zero _ L _ _ _ h, transferMatrixQs_zero]
    refine h.imp ?_ ?_
    · rintro ⟨l, h1, h2⟩
      exact ⟨_, List.mem_map.2 ⟨l, h1, rfl⟩, by simp [h2]⟩
    · rintro rfl; simp
  · simp only [not_or, not_exists, not_and] at h
    rw [transferMatrixQs_layered _ L _ _ _ h.1 h.2,
      transferMatrixQs_layered _ _ _ _ _ _ (mul_ne_zero hc h.2)]
    · unfold qsMat
      have := gen_scale c env (L.map fun l => (l.1, (clipped (q * l.2) : ℂ))) sub hc
      simp only [List.map_map, Function.comp_def] at this ⊢
      rw [this]
    · intro l hl
      obtain ⟨l', h1, rfl⟩ := List.mem_map.1 hl
      exact mul_ne_zero hc (h.1 l' h1)

theorem C18_scale_q (c : ℝ) (env : ℂ) (L : List (ℂ × ℝ)) (sub : ℂ) (nu : Option ℝ) (q : ℝ)
    (hc : c ≠ 0) :
    (layered env (L.map fun l => (l.1, l.2 / c)) sub nu).transferMatrixQs (FP.num (c * q)) =
      (layered env L sub nu).transferMatrixQs (FP.num q) := by
  by_cases h : (∃ l ∈ L, l.1 = 0) ∨ sub = 0
  · rw [transferMatrixQs_zero _ L _ _ _ h, transferMatrixQs_zero]
    refine h.imp_left ?_
    rintro ⟨l, h1, h2⟩
    exact ⟨_, List.mem_map.2 ⟨l, h1, rfl⟩, h2⟩
  · simp only [not_or, not_exists, not_and] at h
    rw [transferMatrixQs_layered _ L _ _ _ h.1 h.2, transferMatrixQs_layered _ _ _ _ _ _ h.2]
    · unfold qsMat
      simp only [List.map_map, Function.comp_def]
      have : ∀ t : ℝ, c * q * (t / c) = q * t := fun t => by field_simp
      simp only [this]
    · intro l hl
      obtain ⟨l', h1, rfl⟩ := List.mem_map.1 hl
      exact h.1 l' h1

theorem C18_conj (env : ℂ) (L : List (ℂ × ℝ)) (sub : ℂ) (nu : Option ℝ) (q : ℝ) :
    (layered (star env) (L.map fun l => (star l.1, l.2)) (star sub) nu).reflCoefQs (FP.num q) =
      ((layered env L sub nu).reflCoefQs (FP.num q)).map (FP.map star) ∧
    (layered (star env) (L.map fun l => (star l.1, l.2)) (star sub) nu).transCoefQs (FP.num q) =
      ((layered env L sub nu).transCoefQs (FP.num q)).map (FP.map star) := by
  by_cases h : (∃ l ∈ L, l.1 = 0) ∨ sub = 0
  · unfold Stack.reflCoefQs Stack.transCoefQs
    rw [transferMatrixQs_zero _ L _ _ _ h, transferMatrixQs_zero]
    · simp [nanMat, Except.map, FP.map]
    · refine h.imp ?_ ?_
      · rintro ⟨l, h1, h2⟩
        exact ⟨_, List.mem_map.2 ⟨l, h1, rfl⟩, by simp [h2]⟩
      · rintro rfl; simp
  · simp only [not_or, not_exists, not_and] at h
    have hL : ∀ l ∈ L.map fun l : ℂ × ℝ => (star l.1, l.2), l.1 ≠ 0 := by
      intro l hl
      obtain ⟨l', h1, rfl⟩ := List.mem_map.1 hl
      exact star_ne_zero.2 (h.1 l' h1)
    rw [reflCoefQs_eq _ L _ _ _ h.1 h.2, reflCoefQs_eq _ _ _ _ _ hL (star_ne_zero.2 h.2),
      transCoefQs_eq _ L _ _ _ h.1 h.2, transCoefQs_eq _ _ _ _ _ hL (star_ne_zero.2 h.2)]
    have hm : qsMat q (star env) (L.map fun l : ℂ × ℝ => (star l.1, l.2)) (star sub) =
        (qsMat q env L sub).map star := by
      have := gen_conj env (L.map fun l => (l.1, (clipped (q * l.2) : ℂ))) sub
      simp only [List.map_map, Function.comp_def] at this
      unfold qsMat
      rw [← this]
      simp [List.map_map, Function.comp_def]
    rw [hm]
    simp only [Matrix.map_apply]
    have hdiv : ∀ a b : ℂ, (FP.num (star a) / FP.num (star b) : FP ℂ) =
        FP.map star (FP.num a / FP.num b) := by
      intro a b
      by_cases hb : b = 0
      · rw [hb, star_zero, num_div_zero, num_div_zero]; rfl
      · rw [FP.num_div _ hb, FP.num_div _ (star_ne_zero.2 hb), FP.map, star_div₀]
    have h1 := hdiv 1 (qsMat q env L sub 0 0)
    rw [star_one] at h1
    exact ⟨by rw [hdiv]; rfl, by rw [h1]; rfl⟩

/-- Units: thicknesses in metres and momenta in 1/m, or nanometres and 1/nm. -/
example : (layered 1 [(2, 30 / 1e9)] 4).transferMatrixQs (FP.num (1e9 * 0.1)) =
    (layered 1 [(2, 30)] 4).transferMatrixQs (FP.num 0.1) :=
  C18_scale_q 1e9 1 [(2, 30)] 4 none 0.1 (by norm_num)

end Snompy.Props
