import Verif.Spec.Unique
import Verif.Lemmas.Qs
import Mathlib.Analysis.Analytic.IsolatedZeros
import Mathlib.Analysis.SpecialFunctions.Exp
import Mathlib.Analysis.Complex.RealDeriv
import Mathlib.Analysis.Analytic.Constructions
import Mathlib.Analysis.SpecialFunctions.Complex.Analytic

/-!
# The layers from the reflection coefficient
-/

namespace Snompy

open Filter Topology

/-- Numerator and denominator of the reflection coefficient, up to a common factor. -/
noncomputable def qsND (e : ℂ) : List (ℂ × ℝ) → ℂ → ℝ → ℂ × ℂ
  | [], sub, _ => (sub - e, sub + e)
  | (a, t) :: L, sub, q =>
    let p := qsND a L sub q
    let x := Complex.exp (-2 * q * t)
    ((a - e) * p.2 + (a + e) * p.1 * x, (a + e) * p.2 + (a - e) * p.1 * x)

theorem clipped_of_le {x : ℝ} (h : |x| ≤ maxExpArg) : clipped x = x := by
  obtain ⟨h1, h2⟩ := abs_le.1 h
  rw [clipped, max_eq_left h1, min_eq_left h2]

/-- The entries of the transfer matrix in terms of `qsND`. -/
theorem qsMat_qsND (q : ℝ) (e : ℂ) (L : List (ℂ × ℝ)) (sub : ℂ) (hL : ∀ l ∈ L, l.1 ≠ 0) (hs : sub ≠ 0)
    (hq : ∀ l ∈ L, |q * l.2| ≤ maxExpArg) :
    ∃ c : ℂ, c ≠ 0 ∧ qsMat q e L sub 1 0 = c * (qsND e L sub q).1 ∧ qsMat q e L sub 0 0 = c * (qsND e L sub q).2 := by
  induction L generalizing e with
  | nil =>
    refine ⟨(2 * sub)⁻¹, by simpa using hs, ?_, ?_⟩ <;>
    · simp only [qsMat, List.map_nil, gen, TM, qsND]
      simp
      field_simp
  | cons l L ih =>
    obtain ⟨a, t⟩ := l
    obtain ⟨c, hc, h1, h2⟩ := ih a (fun l hl => hL l (List.mem_cons_of_mem _ hl)) (fun l hl => hq l (List.mem_cons_of_mem _ hl))
    have ha : a ≠ 0 := hL (a, t) List.mem_cons_self
    have hx : clipped (q * t) = q * t := clipped_of_le (hq (a, t) List.mem_cons_self)
    have s := gen_cons_sum e a (clipped (q * t)) sub (L.map fun l => (l.1, (clipped (q * l.2) : ℂ)))
    have d := gen_cons_diff e a (clipped (q * t)) sub (L.map fun l => (l.1, (clipped (q * l.2) : ℂ)))
    have hE : Complex.exp (-(q * t : ℂ)) = Complex.exp (q * t) * Complex.exp (-2 * q * t) := by
      rw [← Complex.exp_add]; congr 1; ring
    change qsMat q e ((a, t) :: L) sub 0 0 + qsMat q e ((a, t) :: L) sub 1 0 =
      _ * qsMat q a L sub 0 0 + _ * qsMat q a L sub 1 0 at s
    change qsMat q e ((a, t) :: L) sub 0 0 - qsMat q e ((a, t) :: L) sub 1 0 =
      _ * (_ * qsMat q a L sub 0 0 - _ * qsMat q a L sub 1 0) at d
    rw [h1, h2, hx] at s d
    push_cast at s d
    rw [hE] at s d
    have hm : e / a * a = e := div_mul_cancel₀ e ha
    refine ⟨c * Complex.exp (q * t) / (2 * a), ?_, ?_, ?_⟩
    · exact div_ne_zero (mul_ne_zero hc (Complex.exp_ne_zero _)) (mul_ne_zero two_ne_zero ha)
    · have : qsMat q e ((a, t) :: L) sub 1 0 = ((qsMat q e ((a, t) :: L) sub 0 0 + qsMat q e ((a, t) :: L) sub 1 0) -
        (qsMat q e ((a, t) :: L) sub 0 0 - qsMat q e ((a, t) :: L) sub 1 0)) / 2 := by ring
      rw [this, s, d]
      simp only [qsND]
      field_simp
      ring
    · have : qsMat q e ((a, t) :: L) sub 0 0 = ((qsMat q e ((a, t) :: L) sub 0 0 + qsMat q e ((a, t) :: L) sub 1 0) +
        (qsMat q e ((a, t) :: L) sub 0 0 - qsMat q e ((a, t) :: L) sub 1 0)) / 2 := by ring
      rw [this, s, d]
      simp only [qsND]
      field_simp
      ring

theorem qsND_analytic (e : ℂ) (L : List (ℂ × ℝ)) (sub : ℂ) :
    AnalyticOnNhd ℝ (fun q => (qsND e L sub q).1) Set.univ ∧ AnalyticOnNhd ℝ (fun q => (qsND e L sub q).2) Set.univ := by
  induction L generalizing e with
  | nil => exact ⟨analyticOnNhd_const, analyticOnNhd_const⟩
  | cons l L ih =>
    obtain ⟨a, t⟩ := l
    obtain ⟨h1, h2⟩ := ih a
    have hx : AnalyticOnNhd ℝ (fun q : ℝ => Complex.exp (-2 * q * t)) Set.univ := fun q _ => by
      have h : AnalyticAt ℝ (fun q : ℝ => (-2 * q * t : ℂ)) q :=
        (analyticAt_const.mul (Complex.ofRealCLM.analyticAt q)).mul analyticAt_const
      exact (analyticAt_cexp.restrictScalars (𝕜 := ℝ)).comp h
    exact ⟨(analyticOnNhd_const.mul h2).add ((analyticOnNhd_const.mul h1).mul hx),
      (analyticOnNhd_const.mul h2).add ((analyticOnNhd_const.mul h1).mul hx)⟩

/-- The first medium below `e`. -/
def topMedium (L : List (ℂ × ℝ)) (sub : ℂ) : ℂ := (L.map Prod.fst ++ [sub]).head (by simp)

theorem head?_topMedium (L : List (ℂ × ℝ)) (sub : ℂ) : (L.map Prod.fst ++ [sub]).head? = some (topMedium L sub) :=
  List.head?_eq_some_head _

theorem topMedium_nil (sub : ℂ) : topMedium [] sub = sub := rfl

theorem topMedium_cons (l : ℂ × ℝ) (L : List (ℂ × ℝ)) (sub : ℂ) : topMedium (l :: L) sub = l.1 := rfl

theorem tendsto_damping {t : ℝ} (ht : 0 < t) : Tendsto (fun q : ℝ => Complex.exp (-2 * q * t)) atTop (𝓝 0) := by
  rw [tendsto_zero_iff_norm_tendsto_zero]
  have h : ∀ q : ℝ, ‖Complex.exp (-2 * q * t)‖ = Real.exp (-(2 * t * q)) := fun q => by
    rw [Complex.norm_exp]
    congr 1
    have : (-2 * q * t : ℂ) = ((-(2 * t * q) : ℝ) : ℂ) := by push_cast; ring
    rw [this, Complex.ofReal_re]
  simp only [h]
  exact Real.tendsto_exp_neg_atTop_nhds_zero.comp (tendsto_id.const_mul_atTop (by positivity))

/-- At large momenta only the top interface is left. -/
theorem qsND_limit (e : ℂ) (L : List (ℂ × ℝ)) (sub : ℂ) (h : Visible e L sub) :
    ∃ d : ℂ, d ≠ 0 ∧ Tendsto (fun q => (qsND e L sub q).1) atTop (𝓝 ((topMedium L sub - e) * d)) ∧
      Tendsto (fun q => (qsND e L sub q).2) atTop (𝓝 ((topMedium L sub + e) * d)) := by
  induction L generalizing e with
  | nil =>
    refine ⟨1, one_ne_zero, ?_, ?_⟩ <;> simp [qsND, topMedium_nil]
  | cons l L ih =>
    obtain ⟨a, t⟩ := l
    obtain ⟨ha, hae, ht, -, hL⟩ := h
    obtain ⟨d, hd, h1, h2⟩ := ih a hL
    have hne : topMedium L sub + a ≠ 0 := by
      cases L with
      | nil => exact hL.2
      | cons l L => exact hL.2.1
    have hx := tendsto_damping ht
    refine ⟨(topMedium L sub + a) * d, mul_ne_zero hne hd, ?_, ?_⟩
    · have := (h2.const_mul (a - e)).add ((h1.const_mul (a + e)).mul hx)
      simpa [qsND, topMedium_cons] using this
    · have := (h2.const_mul (a + e)).add ((h1.const_mul (a - e)).mul hx)
      simpa [qsND, topMedium_cons] using this

theorem qsND_top {e : ℂ} (he : e ≠ 0) {L₁ L₂ : List (ℂ × ℝ)} {s₁ s₂ : ℂ} (v₁ : Visible e L₁ s₁) (v₂ : Visible e L₂ s₂)
    (h : ∀ q, (qsND e L₁ s₁ q).1 * (qsND e L₂ s₂ q).2 = (qsND e L₂ s₂ q).1 * (qsND e L₁ s₁ q).2) :
    topMedium L₁ s₁ = topMedium L₂ s₂ := by
  obtain ⟨d₁, hd₁, n1, m1⟩ := qsND_limit e L₁ s₁ v₁
  obtain ⟨d₂, hd₂, n2, m2⟩ := qsND_limit e L₂ s₂ v₂
  have := tendsto_nhds_unique (n1.mul m2) ((tendsto_congr h).2 (n2.mul m1))
  have h3 : 2 * e * d₁ * d₂ * (topMedium L₁ s₁ - topMedium L₂ s₂) = 0 := by linear_combination this
  have h4 : 2 * e * d₁ * d₂ ≠ 0 := mul_ne_zero (mul_ne_zero (mul_ne_zero two_ne_zero he) hd₁) hd₂
  exact sub_eq_zero.1 ((mul_eq_zero.1 h3).resolve_left h4)

theorem Visible.below {e a : ℂ} {t : ℝ} {L : List (ℂ × ℝ)} {sub : ℂ} (h : Visible e ((a, t) :: L) sub) :
    topMedium L sub ≠ a := by
  intro h'
  have := h.2.2.2.1
  rw [head?_topMedium, h'] at this
  exact this rfl

/-- A layer is seen from above. -/
theorem qsND_seen {e a : ℂ} {t : ℝ} {L : List (ℂ × ℝ)} {sub : ℂ} (h : Visible e ((a, t) :: L) sub)
    (h0 : ∀ q, (qsND a L sub q).1 = 0) : False := by
  obtain ⟨d, hd, n, -⟩ := qsND_limit a L sub h.2.2.2.2
  simp only [h0] at n
  exact mul_ne_zero (sub_ne_zero.2 h.below) hd (tendsto_nhds_unique n tendsto_const_nhds)

theorem qsND_thickness {a : ℂ} {t₁ t₂ : ℝ} {L₁ L₂ : List (ℂ × ℝ)} {s₁ s₂ : ℂ} (v₁ : Visible a L₁ s₁) (v₂ : Visible a L₂ s₂)
    (n₁ : topMedium L₁ s₁ ≠ a) (p₂ : topMedium L₂ s₂ + a ≠ 0)
    (h : ∀ q : ℝ, (qsND a L₁ s₁ q).1 * (qsND a L₂ s₂ q).2 * Complex.exp (-2 * q * t₁) =
      (qsND a L₂ s₂ q).1 * (qsND a L₁ s₁ q).2 * Complex.exp (-2 * q * t₂)) : t₂ ≤ t₁ := by
  by_contra hlt
  rw [not_le] at hlt
  obtain ⟨d₁, hd₁, a1, b1⟩ := qsND_limit a L₁ s₁ v₁
  obtain ⟨d₂, hd₂, a2, b2⟩ := qsND_limit a L₂ s₂ v₂
  have h' : ∀ q : ℝ, (qsND a L₁ s₁ q).1 * (qsND a L₂ s₂ q).2 =
      (qsND a L₂ s₂ q).1 * (qsND a L₁ s₁ q).2 * Complex.exp (-2 * q * ((t₂ - t₁ : ℝ) : ℂ)) := fun q => by
    have e1 : Complex.exp (-2 * q * t₂) = Complex.exp (-2 * q * ((t₂ - t₁ : ℝ) : ℂ)) * Complex.exp (-2 * q * t₁) := by
      rw [← Complex.exp_add]; congr 1; push_cast; ring
    have := h q
    rw [e1, ← mul_assoc] at this
    exact mul_right_cancel₀ (Complex.exp_ne_zero _) this
  have l1 := a1.mul b2
  have l2 := (a2.mul b1).mul (tendsto_damping (sub_pos.2 hlt))
  have := tendsto_nhds_unique l1 ((tendsto_congr h').2 l2)
  rw [mul_zero] at this
  exact mul_ne_zero (mul_ne_zero (sub_ne_zero.2 n₁) hd₁) (mul_ne_zero p₂ hd₂) this

theorem Visible.top {e : ℂ} {L : List (ℂ × ℝ)} {sub : ℂ} (h : Visible e L sub) : topMedium L sub ≠ 0 ∧ topMedium L sub + e ≠ 0 := by
  cases L with
  | nil => exact h
  | cons l L => exact ⟨h.1, h.2.1⟩

theorem qsND_unique {e : ℂ} (he : e ≠ 0) {L₁ L₂ : List (ℂ × ℝ)} {s₁ s₂ : ℂ} (v₁ : Visible e L₁ s₁) (v₂ : Visible e L₂ s₂)
    (h : ∀ q, (qsND e L₁ s₁ q).1 * (qsND e L₂ s₂ q).2 = (qsND e L₂ s₂ q).1 * (qsND e L₁ s₁ q).2) : L₁ = L₂ ∧ s₁ = s₂ := by
  have ht := qsND_top he v₁ v₂ h
  induction L₁ generalizing e L₂ with
  | nil =>
    cases L₂ with
    | nil => exact ⟨rfl, ht⟩
    | cons l L₂ =>
      obtain ⟨a, t⟩ := l
      rw [topMedium_nil, topMedium_cons] at ht
      subst ht
      refine (qsND_seen v₂ fun q => ?_).elim
      have := h q
      simp only [qsND] at this
      have h4 : 4 * s₁ * e * Complex.exp (-2 * q * t) * (qsND s₁ L₂ s₂ q).1 = 0 := by linear_combination -this
      refine (mul_eq_zero.1 h4).resolve_left (mul_ne_zero (mul_ne_zero (mul_ne_zero (by norm_num : (4 : ℂ) ≠ 0) v₁.1) he) (Complex.exp_ne_zero _))
  | cons l L₁ ih =>
    obtain ⟨a, t⟩ := l
    cases L₂ with
    | nil =>
      rw [topMedium_nil, topMedium_cons] at ht
      subst ht
      refine (qsND_seen v₁ fun q => ?_).elim
      have := h q
      simp only [qsND] at this
      have h4 : 4 * a * e * Complex.exp (-2 * q * t) * (qsND a L₁ s₁ q).1 = 0 := by linear_combination this
      refine (mul_eq_zero.1 h4).resolve_left (mul_ne_zero (mul_ne_zero (mul_ne_zero (by norm_num : (4 : ℂ) ≠ 0) v₁.1) he) (Complex.exp_ne_zero _))
    | cons l₂ L₂ =>
      obtain ⟨b, t₂⟩ := l₂
      rw [topMedium_cons, topMedium_cons] at ht
      obtain rfl : a = b := ht
      have w₁ := v₁.2.2.2.2
      have w₂ := v₂.2.2.2.2
      have hx : ∀ q : ℝ, (qsND a L₁ s₁ q).1 * (qsND a L₂ s₂ q).2 * Complex.exp (-2 * q * t) =
          (qsND a L₂ s₂ q).1 * (qsND a L₁ s₁ q).2 * Complex.exp (-2 * q * t₂) := fun q => by
        have := h q
        simp only [qsND] at this
        have h4 : 4 * a * e * ((qsND a L₁ s₁ q).1 * (qsND a L₂ s₂ q).2 * Complex.exp (-2 * q * t) -
          (qsND a L₂ s₂ q).1 * (qsND a L₁ s₁ q).2 * Complex.exp (-2 * q * t₂)) = 0 := by linear_combination this
        exact sub_eq_zero.1 ((mul_eq_zero.1 h4).resolve_left (mul_ne_zero (mul_ne_zero (by norm_num : (4 : ℂ) ≠ 0) v₁.1) he))
      have t1 := qsND_thickness w₁ w₂ v₁.below w₂.top.2 hx
      have t2 := qsND_thickness w₂ w₁ v₂.below w₁.top.2 fun q => by
        rw [mul_comm (qsND a L₂ s₂ q).1, mul_comm (qsND a L₁ s₁ q).1, mul_comm (qsND a L₁ s₁ q).2, mul_comm (qsND a L₂ s₂ q).2]
        exact (hx q).symm
      obtain rfl := le_antisymm t1 t2
      have hy : ∀ q : ℝ, (qsND a L₁ s₁ q).1 * (qsND a L₂ s₂ q).2 = (qsND a L₂ s₂ q).1 * (qsND a L₁ s₁ q).2 := fun q =>
        mul_right_cancel₀ (Complex.exp_ne_zero _) (hx q)
      obtain ⟨rfl, rfl⟩ := ih v₁.1 w₁ w₂ hy (qsND_top v₁.1 w₁ w₂ hy)
      exact ⟨rfl, rfl⟩

theorem Visible.ne_zero {e : ℂ} {L : List (ℂ × ℝ)} {sub : ℂ} (h : Visible e L sub) : (∀ l ∈ L, l.1 ≠ 0) ∧ sub ≠ 0 := by
  induction L generalizing e with
  | nil => exact ⟨by simp, h.1⟩
  | cons l L ih =>
    obtain ⟨h1, h2⟩ := ih h.2.2.2.2
    exact ⟨List.forall_mem_cons.2 ⟨h.1, h1⟩, h2⟩

/-- A finite reflection coefficient. -/
theorem reflCoefQs_qsND {q : ℝ} {e : ℂ} {L : List (ℂ × ℝ)} {sub : ℂ} {nu : Option ℝ} (h : Visible e L sub)
    (hq : ∀ l ∈ L, |q * l.2| ≤ maxExpArg) {β : ℂ} (hβ : (layered e L sub nu).reflCoefQs (FP.num q) = .ok (FP.num β)) :
    (qsND e L sub q).1 = β * (qsND e L sub q).2 := by
  obtain ⟨c, hc, h1, h2⟩ := qsMat_qsND q e L sub h.ne_zero.1 h.ne_zero.2 hq
  rw [reflCoefQs_eq _ _ _ _ _ h.ne_zero.1 h.ne_zero.2] at hβ
  by_cases h0 : qsMat q e L sub 0 0 = 0
  · rw [h0, num_div_zero] at hβ
    simp at hβ
  · rw [FP.num_div _ h0] at hβ
    simp only [Except.ok.injEq, FP.num.injEq] at hβ
    rw [div_eq_iff h0, h1, h2] at hβ
    exact mul_left_cancel₀ hc (hβ.trans (by ring))

end Snompy
