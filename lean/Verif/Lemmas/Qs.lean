import Verif.Lemmas.EffEps
import Mathlib.Analysis.Complex.ExponentialBounds

/-!
# Quasistatic coefficients of finite samples
-/

namespace Snompy

open Matrix

theorem maxExpArg_gt : 709 < maxExpArg := by
  have h1 : (1 / 2 : ℝ) ^ 52 ≤ 1 := pow_le_one₀ (by norm_num) (by norm_num)
  have h2 : (0 : ℝ) < 2 ^ 1023 := pow_pos two_pos _
  have h3 : Real.log (2 ^ 1023) ≤ maxExpArg := by
    unfold maxExpArg
    refine Real.log_le_log h2 ?_
    generalize (1 / 2 : ℝ) ^ 52 = a at *
    generalize (2 : ℝ) ^ 1023 = b at *
    nlinarith
  rw [Real.log_pow] at h3
  have := Real.log_two_gt_d9
  push_cast at h3
  linarith

/-- The all-`nan` matrix. -/
def nanMat : Mat2 (FP ℂ) := ⟨FP.nan, FP.nan, FP.nan, FP.nan⟩

theorem interface_nan : Stack.interface (FP.nan : FP ℂ) = nanMat := by
  simp [Stack.interface, nanMat]

theorem nanMat_matmul (M : Mat2 (FP ℂ)) : nanMat.matmul M = nanMat := by
  simp [Mat2.matmul, nanMat]

theorem matmul_nanMat (M : Mat2 (FP ℂ)) : M.matmul nanMat = nanMat := by
  simp [Mat2.matmul, nanMat]

theorem chain_nan (TP : List (Mat2 (FP ℂ) × Mat2 (FP ℂ))) : Stack.chain nanMat TP = nanMat := by
  induction TP with
  | nil => rfl
  | cons p TP ih =>
    show Stack.chain ((nanMat.matmul p.2).matmul p.1) TP = nanMat
    rw [nanMat_matmul, nanMat_matmul, ih]

theorem chain_nan_mem (M : Mat2 (FP ℂ)) (TP : List (Mat2 (FP ℂ) × Mat2 (FP ℂ)))
    (h : ∃ p ∈ TP, p.1 = nanMat) : Stack.chain M TP = nanMat := by
  induction TP generalizing M with
  | nil => simp at h
  | cons p TP ih =>
    show Stack.chain ((M.matmul p.2).matmul p.1) TP = nanMat
    obtain ⟨p', hp', hn⟩ := h
    rcases List.mem_cons.1 hp' with rfl | hp'
    · rw [hn, matmul_nanMat, chain_nan]
    · exact ih _ ⟨p', hp', hn⟩

theorem num_div_zero (a : ℂ) : (FP.num a / FP.num 0 : FP ℂ) = FP.nan := by
  show FP.div _ _ = _
  simp [FP.div]

/-- A division by zero occurs if some layer has zero permittivity. -/
theorem transferMatrixQs_zero (env : ℂ) (L : List (ℂ × ℝ)) (sub : ℂ) (nu : Option ℝ) (q : FP ℝ)
    (h : (∃ l ∈ L, l.1 = 0) ∨ sub = 0) :
    (layered env L sub nu).transferMatrixQs q = .ok nanMat := by
  have hm := layered_multilayer env L sub nu
  unfold Stack.transferMatrixQs
  rw [hm]
  cases L with
  | nil =>
    simp only [List.not_mem_nil, false_and, exists_false, false_or] at h
    subst h
    simp only [layered, List.map_nil, List.nil_append]
    rw [zipWith_adj]
    simp only [adj, List.map_cons, List.map_nil, num_div_zero, interface_nan]
    simp [nanMat]
  | cons l L =>
    have e1 : (layered env (l :: L) sub nu).eps =
        FP.num env :: FP.num l.1 :: ((L ++ [(sub, (0 : ℝ))]).map fun l => FP.num l.1) := by
      simp [layered]
    have e2 : (layered env (l :: L) sub nu).t = (l :: L).map fun l => FP.num l.2 := rfl
    rw [e1, e2, zipWith_adj]
    simp only [adj]
    rw [adj_map (fun a b : FP ℂ => a / b) (fun l : ℂ × ℝ => FP.num l.1) l]
    simp only [List.map_cons]
    simp only [ne_eq, reduceCtorEq, not_false_eq_true, decide_true, if_true, Except.ok.injEq]
    by_cases hl : l.1 = 0
    · rw [hl, num_div_zero, interface_nan, chain_nan]
    · refine chain_nan_mem _ _ ?_
      have h' : (∃ l ∈ L, l.1 = 0) ∨ sub = 0 := by
        rcases h with ⟨l', h1, h2⟩ | h
        · rcases List.mem_cons.1 h1 with rfl | h1
          · exact absurd h2 hl
          · exact Or.inl ⟨l', h1, h2⟩
        · exact Or.inr h
      clear h hm e1 e2 hl
      generalize (RealOps.clip (-maxExpArg) maxExpArg (q * FP.num l.2) : FP ℝ) = p0
      induction L generalizing l p0 with
      | nil =>
        simp only [List.not_mem_nil, false_and, exists_false, false_or] at h'
        subst h'
        refine ⟨_, List.mem_cons_self, ?_⟩
        simp only [num_div_zero, interface_nan]
      | cons l' L ih =>
        by_cases hl : l'.1 = 0
        · refine ⟨_, List.mem_cons_self, ?_⟩
          simp only [hl, num_div_zero, interface_nan]
        · have h'' : (∃ l ∈ L, l.1 = 0) ∨ sub = 0 := by
            rcases h' with ⟨l', h1, h2⟩ | h
            · rcases List.mem_cons.1 h1 with rfl | h1
              · exact absurd h2 hl
              · exact Or.inl ⟨l', h1, h2⟩
            · exact Or.inr h
          obtain ⟨p, h1, h2⟩ := ih l' h'' (RealOps.clip (-maxExpArg) maxExpArg (q * FP.num l'.2))
          exact ⟨p, List.mem_cons_of_mem _ h1, h2⟩

theorem reflCoefQs_eq (env : ℂ) (L : List (ℂ × ℝ)) (sub : ℂ) (nu : Option ℝ) (q : ℝ)
    (hL : ∀ l ∈ L, l.1 ≠ 0) (hs : sub ≠ 0) :
    (layered env L sub nu).reflCoefQs (FP.num q) =
      .ok (FP.num (qsMat q env L sub 1 0) / FP.num (qsMat q env L sub 0 0)) := by
  simp only [Stack.reflCoefQs, transferMatrixQs_layered env L sub nu q hL hs, PyM.ok_bind, toFP,
    PyM.pure_eq_ok]

theorem transCoefQs_eq (env : ℂ) (L : List (ℂ × ℝ)) (sub : ℂ) (nu : Option ℝ) (q : ℝ)
    (hL : ∀ l ∈ L, l.1 ≠ 0) (hs : sub ≠ 0) :
    (layered env L sub nu).transCoefQs (FP.num q) =
      .ok (FP.num 1 / FP.num (qsMat q env L sub 0 0)) := by
  simp only [Stack.transCoefQs, transferMatrixQs_layered env L sub nu q hL hs, PyM.ok_bind, toFP,
    PyM.pure_eq_ok, sclit]

theorem reflCoefQs_num (env : ℂ) (L : List (ℂ × ℝ)) (sub : ℂ) (nu : Option ℝ) (q : ℝ)
    (hL : ∀ l ∈ L, l.1 ≠ 0) (hs : sub ≠ 0) (h : qsMat q env L sub 0 0 ≠ 0) :
    (layered env L sub nu).reflCoefQs (FP.num q) =
      .ok (FP.num (qsMat q env L sub 1 0 / qsMat q env L sub 0 0)) := by
  rw [reflCoefQs_eq _ _ _ _ _ hL hs, FP.num_div _ h]

theorem transCoefQs_num (env : ℂ) (L : List (ℂ × ℝ)) (sub : ℂ) (nu : Option ℝ) (q : ℝ)
    (hL : ∀ l ∈ L, l.1 ≠ 0) (hs : sub ≠ 0) (h : qsMat q env L sub 0 0 ≠ 0) :
    (layered env L sub nu).transCoefQs (FP.num q) =
      .ok (FP.num (1 / qsMat q env L sub 0 0)) := by
  rw [transCoefQs_eq _ _ _ _ _ hL hs, FP.num_div _ h]

/-- Equality of the matrices gives equality of both coefficients. -/
theorem coefs_congr {s s' : Stack (FP ℝ) (FP ℂ)} {q q' : FP ℝ}
    (h : s.transferMatrixQs q = s'.transferMatrixQs q') :
    s.reflCoefQs q = s'.reflCoefQs q' ∧ s.transCoefQs q = s'.transCoefQs q' := by
  simp only [Stack.reflCoefQs, Stack.transCoefQs, h, and_self]

/-- A stack with the arguments of the exponentials spelled out. -/
theorem qsMat_eq (q : ℝ) (env : ℂ) (L : List (ℂ × ℝ)) (sub : ℂ) :
    qsMat q env L sub = gen env ((L.map fun l => (l.1, clipped (q * l.2))).map
      fun l => (l.1, (l.2 : ℂ))) sub := by
  simp [qsMat, List.map_map, Function.comp_def]

/-- Finite samples whose permittivities lie in a cone. -/
theorem reflCoefQs_effEps {S : Set ℂ} (hS : PosCone S) (env : ℂ) (L : List (ℂ × ℝ)) (sub : ℂ)
    (nu : Option ℝ) (q : ℝ) (h0 : env ∈ S) (hs : sub ∈ S) (hL : ∀ l ∈ L, l.1 ∈ S ∧ 0 ≤ l.2)
    (hq : 0 ≤ q) :
    effEps (L.map fun l => (l.1, clipped (q * l.2))) sub ∈ S ∧
    (layered env L sub nu).reflCoefQs (FP.num q) =
      .ok (FP.num ((effEps (L.map fun l => (l.1, clipped (q * l.2))) sub - env) /
        (effEps (L.map fun l => (l.1, clipped (q * l.2))) sub + env))) := by
  have hL' : ∀ l ∈ L.map fun l => (l.1, clipped (q * l.2)), l.1 ∈ S ∧ 0 ≤ l.2 := by
    intro l hl
    obtain ⟨l', h1, rfl⟩ := List.mem_map.1 hl
    exact ⟨(hL l' h1).1, clipped_nonneg (mul_nonneg hq (hL l' h1).2)⟩
  obtain ⟨h1, h2⟩ := gen_refl hS env _ sub h0 hs hL'
  rw [← qsMat_eq] at h1 h2
  refine ⟨effEps_mem hS _ _ hs hL', ?_⟩
  rw [reflCoefQs_num env L sub nu q (fun l hl => hS.ne_zero (hL l hl).1) (hS.ne_zero hs) h1, h2]

theorem gen_stackCoefs (q : ℝ) (env : ℂ) (L : List (ℂ × ℝ)) (sub : ℂ) (hL : ∀ l ∈ L, l.1 ≠ 0)
    (hs : sub ≠ 0) (b c : ℂ) (h : stackCoefs q env L sub = some (b, c)) :
    qsMat q env L sub 0 0 ≠ 0 ∧ qsMat q env L sub 1 0 = b * qsMat q env L sub 0 0 ∧
      c * qsMat q env L sub 0 0 = 1 := by
  induction L generalizing env b c with
  | nil =>
    simp only [stackCoefs] at h
    split_ifs at h with h0
    simp only [Option.some.injEq, Prod.mk.injEq] at h
    obtain ⟨rfl, rfl⟩ := h
    have e00 : qsMat q env [] sub 0 0 = (sub + env) / (2 * sub) := by
      simp [qsMat, gen, TM]; field_simp
    have e10 : qsMat q env [] sub 1 0 = (sub - env) / (2 * sub) := by
      simp [qsMat, gen, TM]; field_simp
    rw [e00, e10]
    refine ⟨div_ne_zero h0 (mul_ne_zero two_ne_zero hs), ?_, ?_⟩
    · field_simp
    · field_simp; ring
  | cons l L ih =>
    obtain ⟨e, t⟩ := l
    have he : e ≠ 0 := hL (e, t) (by simp)
    have hL' : ∀ l ∈ L, l.1 ≠ 0 := fun l hl => hL l (by simp [hl])
    simp only [stackCoefs] at h
    cases hr : stackCoefs q e L sub with
    | none => rw [hr] at h; simp at h
    | some p =>
      obtain ⟨ρ, τ⟩ := p
      rw [hr] at h
      simp only at h
      split_ifs at h with h0
      rw [not_or] at h0
      obtain ⟨h0, h1⟩ := h0
      simp only [Option.some.injEq, Prod.mk.injEq] at h
      obtain ⟨i1, i2, i3⟩ := ih e hL' ρ τ hr
      have es := gen_cons_sum env e (clipped (q * t) : ℂ) sub
        (L.map fun l => (l.1, (clipped (q * l.2) : ℂ)))
      have ed := gen_cons_diff env e (clipped (q * t) : ℂ) sub
        (L.map fun l => (l.1, (clipped (q * l.2) : ℂ)))
      change qsMat q env ((e, t) :: L) sub 0 0 + qsMat q env ((e, t) :: L) sub 1 0 =
        Complex.exp (clipped (q * t) : ℂ) * qsMat q e L sub 0 0 +
        Complex.exp (-(clipped (q * t) : ℂ)) * qsMat q e L sub 1 0 at es
      change qsMat q env ((e, t) :: L) sub 0 0 - qsMat q env ((e, t) :: L) sub 1 0 =
        env / e * (Complex.exp (clipped (q * t) : ℂ) * qsMat q e L sub 0 0 -
        Complex.exp (-(clipped (q * t) : ℂ)) * qsMat q e L sub 1 0) at ed
      set A := qsMat q env ((e, t) :: L) sub 0 0
      set B := qsMat q env ((e, t) :: L) sub 1 0
      set A' := qsMat q e L sub 0 0
      set B' := qsMat q e L sub 1 0
      have hu : ((Real.exp (-clipped (q * t)) : ℝ) : ℂ) = Complex.exp (-(clipped (q * t) : ℂ)) := by
        push_cast; rfl
      have hv : Complex.exp (clipped (q * t) : ℂ) * Complex.exp (-(clipped (q * t) : ℂ)) = 1 := by
        rw [← Complex.exp_add, add_neg_cancel, Complex.exp_zero]
      rw [hu] at h h1
      generalize Complex.exp (-(clipped (q * t) : ℂ)) = u at *
      generalize Complex.exp (clipped (q * t) : ℂ) = v at *
      have hv0 : v ≠ 0 := left_ne_zero_of_mul_eq_one hv
      have hu0 : u ≠ 0 := right_ne_zero_of_mul_eq_one hv
      obtain ⟨rfl, rfl⟩ := h
      rw [i2] at es ed
      set r := (e - env) / (e + env) with hrdef
      have hre : env / e * (1 + r) = 1 - r := by rw [hrdef]; field_simp; ring
      have hr1 : 1 + r ≠ 0 := by
        rw [hrdef]
        rw [show 1 + (e - env) / (e + env) = 2 * e / (e + env) by field_simp; ring]
        exact div_ne_zero (mul_ne_zero two_ne_zero he) h0
      have hA : (1 + r) * A = v * A' * (1 + r * ρ * u ^ 2) := by
        linear_combination (1 + r) / 2 * es + (1 + r) / 2 * ed +
          (v * A' - u * ρ * A') / 2 * hre + (-r * ρ * u * A') * hv
      have hB : (1 + r) * B = v * A' * (r + ρ * u ^ 2) := by
        linear_combination (1 + r) / 2 * es - (1 + r) / 2 * ed -
          (v * A' - u * ρ * A') / 2 * hre + (-ρ * u * A') * hv
      have hA0 : A ≠ 0 := by
        intro hh
        rw [hh, mul_zero] at hA
        exact mul_ne_zero (mul_ne_zero hv0 i1) h1 hA.symm
      refine ⟨hA0, ?_, ?_⟩
      · have : (1 + r) * (B * (1 + r * ρ * u ^ 2)) = (1 + r) * ((r + ρ * u ^ 2) * A) := by
          linear_combination (1 + r * ρ * u ^ 2) * hB - (r + ρ * u ^ 2) * hA
        have := mul_left_cancel₀ hr1 this
        rw [div_mul_eq_mul_div, eq_div_iff h1, this]
      · rw [div_mul_eq_mul_div, div_eq_one_iff_eq h1]
        linear_combination τ * u * hA + (1 + r * ρ * u ^ 2) * τ * A' * hv +
          (1 + r * ρ * u ^ 2) * i3

end Snompy
