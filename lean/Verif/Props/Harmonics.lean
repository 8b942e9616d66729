import Verif.Lemmas.AltSeries
import Verif.Props.Monotone
import Verif.Props.Taylor

/-!
# C72, C73: the demodulated signal of a lossless sample

Approach curves of every harmonic decay, a larger reflection coefficient gives a larger harmonic, and higher harmonics are
smaller.  Harmonic `n` carries the sign `(-1)^n`, because the phase of the motion starts at the lowest position.
-/

namespace Snompy.Props

open Snompy Finset

/-! ## The geometry functions have alternating series -/

/-- The highest positions `z + 2 A` of a tip that stays in reach. -/
def tops (A d0 d1 r l g : ℝ) : Set ℝ := {T | 2 * A ≤ T ∧ InReach T d0 r l g ∧ InReach T d1 r l g}

theorem rgeom_alt {A d r l g : ℝ} (hA : 0 ≤ A) {S : Set ℝ} (hS : ∀ T ∈ S, 2 * A ≤ T ∧ InReach T d r l g) :
    ∃ a, Alt (fun x => rgeom x d r l g) (2 * A) S a ∧ Alt.Strict S a := by
  rcases S.eq_empty_or_nonempty with rfl | ⟨T₀, hT₀⟩
  · exact ⟨fun _ _ => 0, ⟨fun _ _ h => h.elim, fun _ _ h => h.elim, fun _ h => h.elim⟩,
      ⟨fun _ _ h => h.elim, fun _ _ h => h.elim⟩⟩
  obtain ⟨-, h₀⟩ := hS T₀ hT₀
  have hr := h₀.r_pos
  have hl : 0 < l := by linarith [h₀.long]
  have hd := h₀.d_nonneg
  have hdr : 0 ≤ d * r := by positivity
  have hlog : 0 < Real.log (4 * l / r) := Real.log_pos (by rw [one_lt_div hr]; exact h₀.long)
  have hlin : ∀ T ∈ S, 0 < g - (r + d * r) / (2 * l) - l⁻¹ * T := by
    intro T hT
    have := (hS T hT).2.below
    have e : g - (r + d * r) / (2 * l) - l⁻¹ * T = (2 * l * g - (r + 2 * T + d * r)) / (2 * l) := by
      field_simp
      ring
    rw [e]
    exact div_pos (by linarith) (by linarith)
  have h1 := Alt.lin (A := 2 * A) (S := S) (p := g - (r + d * r) / (2 * l)) (q := l⁻¹) (by positivity)
    fun T hT => (hlin T hT).le
  obtain ⟨h2, s2⟩ := Alt.log (A := 2 * A) (S := S) (c := (r + 2 * d * r) / 4) (m := Real.log l)
    (fun T hT => by have := (hS T hT).1; linarith) (by linarith) fun T hT => by
      have := (hS T hT).1
      have := (hS T hT).2.short
      exact Real.log_lt_log (by linarith) (by linarith)
  have h3 := (h1.mul h2).smul (inv_pos.2 hlog).le
  refine ⟨_, h3.congr fun T hT y hy => ?_, (Alt.Strict.prod h1 h2 (fun T hT => by simpa using hlin T hT) s2).smul
    (inv_pos.2 hlog)⟩
  have h4 : 0 ≤ T + y := by linarith [(hS T hT).1, neg_le_of_abs_le hy]
  have hden : 0 < T + y + (r + 2 * d * r) / 4 := by linarith
  unfold rgeom
  have e2 : Real.log (4 * l / (r + 4 * (T + y) + 2 * d * r)) = Real.log l - Real.log (T + y + (r + 2 * d * r) / 4) := by
    rw [← Real.log_div hl.ne' hden.ne']
    congr 1
    field_simp
    ring
  rw [e2]
  field_simp
  ring

theorem cube_alt {A r : ℝ} (hA : 0 ≤ A) {S : Set ℝ} (hS : ∀ T ∈ S, 2 * A < T + r) {κ : ℝ} (hκ : 0 < κ) :
    ∃ a, Alt (fun x => κ / (r + x) ^ 3) (2 * A) S a ∧ Alt.Strict S a := by
  obtain ⟨h1, s1⟩ := Alt.inv (A := 2 * A) (S := S) (c := r) hS (by linarith)
  have s2 := Alt.Strict.prod h1 h1 (fun T hT => s1.pos 0 T hT) s1
  have s3 := Alt.Strict.prod h1 (h1.mul h1) (fun T hT => s1.pos 0 T hT) s2
  refine ⟨_, ((h1.mul (h1.mul h1)).smul hκ.le).congr fun T hT y hy => ?_, s3.smul hκ⟩
  have : 0 < T + y + r := by linarith [hS T hT, neg_le_of_abs_le hy]
  have : 0 < r + (T + y) := by linarith
  rw [show T + y + r = r + (T + y) by ring]
  field_simp

/-- A constant under demodulation. -/
theorem demodSum_one (x0 A : ℝ) (n : ℤ) {N : ℕ} (hN : N ≠ 0) :
    demodSum (fun _ => 1) x0 A n N = (-1 : ℂ) ^ n * ((if (N : ℤ) ∣ n then 1 else 0 : ℝ) : ℂ) := by
  rw [demodSum_mean _ _ _ _ hN]
  have := meanN_hump hN 0 n
  simp only [pow_zero] at this
  rw [this, hump]

theorem demodSum_affine (c t : ℂ) (F : ℝ → ℂ) (x0 A n : ℝ) (N : ℕ) :
    demodSum (fun x => c + t * F x) x0 A n N = c * demodSum (fun _ => 1) x0 A n N + t * demodSum F x0 A n N := by
  unfold demodSum wave
  rw [← mul_div_assoc, ← mul_div_assoc, ← add_div, mul_sum, mul_sum, ← sum_add_distrib]
  congr 1
  refine sum_congr rfl fun k _ => ?_
  ring

/-! ## The models -/

/-- The finite dipole model. -/
private theorem fdm_signal (env : Env) (r l g d0 d1 dA A : ℝ) (hA : 0 < A) (nLag : Option ℕ) {N : ℕ} (hN : N ≠ 0) :
    ∃ D : ℝ → ℝ → ℤ → ℝ, ∀ β z : ℝ, 0 < β → β ≤ 1 → z + 2 * A ∈ tops A d0 d1 r l g →
      (∀ (n : ℤ) (s : Stack (FP ℝ) (FP ℂ)), s.multilayer = false → s.reflCoefQs = .ok (FP.num (β : ℂ)) →
        Fdm.effPolN env s (FP.num A) (FP.num n) (some (FP.num z)) (some N) (fdmTip r l g d0 d1 dA) nLag (some "bulk") =
          .ok (FP.num ((((-1 : ℝ) ^ n * ((if (N : ℤ) ∣ n then 1 else 0) + D β z n / 2) : ℝ) : ℂ)))) ∧
      (∀ n, 0 < D β z n) ∧
      (∀ n β' z', 0 < β' → β' ≤ β → z' + 2 * A ∈ tops A d0 d1 r l g → z ≤ z' → (β' < β ∨ z < z') →
        D β' z' n < D β z n) ∧
      ∀ m : ℕ, 2 * (m + 1) ≤ N → D β z ((m : ℤ) + 1) < D β z m := by
  obtain ⟨a0, h0, s0⟩ := rgeom_alt hA.le (S := tops A d0 d1 r l g) (d := d0) fun T hT => ⟨hT.1, hT.2.1⟩
  obtain ⟨a1, h1, s1⟩ := rgeom_alt hA.le (S := tops A d0 d1 r l g) (d := d1) fun T hT => ⟨hT.1, hT.2.2⟩
  have hlow : ∀ T ∈ tops A d0 d1 r l g, 1 * rgeom (T + -(2 * A)) d1 r l g < 1 := fun T hT => by
    rw [one_mul]
    exact rgeom_lt_one (hT.2.2.closer (by linarith [hT.1]) (by linarith))
  obtain ⟨D, hD⟩ := Alt.signal h0 s0 h1 hA hN hlow
  refine ⟨D, fun β z hβ hb hz => ?_⟩
  obtain ⟨p1, p2, p3, p4⟩ := hD β z hβ hb hz
  refine ⟨fun n s hm hs => ?_, p2, p3, p4⟩
  have hz0 : 0 ≤ z := by linarith [hz.1]
  rw [effPolN_num env s hm β hs z r l g d0 d1 dA (hz.2.1.closer hz0 (by linarith)).ok
    (hz.2.2.closer hz0 (by linarith)).ok A hA.le _ nLag n N hN]
  · have e : (fun x : ℝ => 1 + (β : ℂ) * Fdm.geom x d0 r l g / (2 * (1 - β * Fdm.geom x d1 r l g))) =
        fun x => 1 + 1 / 2 * (((1 - β * rgeom x d1 r l g)⁻¹ * (β * rgeom x d0 r l g) : ℝ) : ℂ) := by
      funext x
      rw [geom_rgeom, geom_rgeom]
      push_cast
      rw [div_eq_mul_inv, mul_inv]
      ring
    rw [e, demodSum_affine, p1 n, demodSum_one _ _ _ hN]
    push_cast
    congr 2
    ring
  · intro x hx1 hx2 heq
    have k1 := rgeom_lt_one (hz.2.2.closer (z₂ := x) (by linarith) (by linarith))
    have k0 := rgeom_pos (hz.2.2.closer (z₂ := x) (by linarith) (by linarith))
    rw [geom_rgeom] at heq
    have : β * rgeom x d1 r l g = 1 := by exact_mod_cast heq
    nlinarith

/-- The point dipole model. -/
private theorem pdm_signal (env : Env) (r α A b z₀ : ℝ) (hA : 0 < A) (hα : 0 < α) (hr : 0 < r + z₀)
    (hres : α * b < 16 * Real.pi * (r + z₀) ^ 3) {N : ℕ} (hN : N ≠ 0) :
    ∃ D : ℝ → ℝ → ℤ → ℝ, ∀ β z : ℝ, 0 < β → β ≤ b → z₀ ≤ z →
      (∀ (n : ℤ) (s : Stack (FP ℝ) (FP ℂ)), s.reflCoefQs = .ok (FP.num (β : ℂ)) →
        Pdm.effPolN env s (FP.num A) (FP.num n) (some (FP.num z)) (some N) (tip r α) =
          .ok (FP.num ((((-1 : ℝ) ^ n * (α * (if (N : ℤ) ∣ n then 1 else 0) + α * D β z n) : ℝ) : ℂ)))) ∧
      (∀ n, 0 < D β z n) ∧
      (∀ n β' z', 0 < β' → β' ≤ β → z ≤ z' → (β' < β ∨ z < z') → D β' z' n < D β z n) ∧
      ∀ m : ℕ, 2 * (m + 1) ≤ N → D β z ((m : ℤ) + 1) < D β z m := by
  have hpi := Real.pi_pos
  have hS : ∀ z, z + 2 * A ∈ {T | z₀ + 2 * A ≤ T} ↔ z₀ ≤ z := fun z => by simp
  obtain ⟨a, h, s⟩ := cube_alt hA.le (r := r) (S := {T | z₀ + 2 * A ≤ T})
    (fun T hT => by have : z₀ + 2 * A ≤ T := hT; linarith) (κ := α / (16 * Real.pi)) (by positivity)
  have hlow : ∀ T ∈ {T | z₀ + 2 * A ≤ T}, b * (α / (16 * Real.pi) / (r + (T + -(2 * A))) ^ 3) < 1 := fun T hT => by
    have hT : z₀ + 2 * A ≤ T := hT
    have hle : (r + z₀) ^ 3 ≤ (r + (T + -(2 * A))) ^ 3 := by
      apply pow_le_pow_left₀ hr.le
      linarith
    have hp : 0 < (r + z₀) ^ 3 := pow_pos hr 3
    rw [div_div, mul_div_assoc', div_lt_one (mul_pos (by positivity) (lt_of_lt_of_le hp hle))]
    nlinarith
  obtain ⟨D, hD⟩ := Alt.signal h s h hA hN hlow
  refine ⟨D, fun β z hβ hb hz => ?_⟩
  obtain ⟨p1, p2, p3, p4⟩ := hD β z hβ hb ((hS z).2 hz)
  refine ⟨fun n s hs => ?_, p2, fun n β' z' h1 h2 h3 => p3 n β' z' h1 h2 ((hS z').2 (hz.trans h3)) h3, p4⟩
  have hg : ∀ x, Pdm.geom x r α = ((α / (16 * Real.pi) / (r + x) ^ 3 : ℝ) : ℂ) := by
    intro x
    unfold Pdm.geom
    push_cast
    rw [div_div]
  have hlt : ∀ x, z₀ ≤ x → 0 < α / (16 * Real.pi) / (r + x) ^ 3 ∧ β * (α / (16 * Real.pi) / (r + x) ^ 3) < 1 := by
    intro x hx
    have h1 := hlow (x + 2 * A) ((hS x).2 hx)
    rw [show x + 2 * A + -(2 * A) = x by ring] at h1
    have h2 : 0 < α / (16 * Real.pi) / (r + x) ^ 3 :=
      div_pos (by positivity) (pow_pos (by linarith) 3)
    exact ⟨h2, lt_of_le_of_lt (mul_le_mul_of_nonneg_right hb h2.le) h1⟩
  rw [pdm_effPolN_num env s β hs z r α (by linarith) A hA.le _ n N hN]
  · rw [demodSum_congr hA.le _ N (g' := fun x => (α : ℂ) + α *
      (((1 - β * (α / (16 * Real.pi) / (r + x) ^ 3))⁻¹ * (β * (α / (16 * Real.pi) / (r + x) ^ 3)) : ℝ) : ℂ)),
      demodSum_affine, p1 n, demodSum_one _ _ _ hN]
    · push_cast
      congr 2
      ring
    · intro x hx1 hx2
      have h1 := (hlt x (by linarith)).2
      rw [hg]
      have h2 : (1 - β * (α / (16 * Real.pi) / (r + x) ^ 3)) ≠ 0 := by linarith
      generalize α / (16 * Real.pi) / (r + x) ^ 3 = t at h2
      have h3 : (1 - β * t : ℂ) ≠ 0 := by exact_mod_cast h2
      push_cast
      field_simp
      ring
  · intro x hx1 hx2
    have h1 := hlt x (by linarith)
    rw [hg, ← Complex.ofReal_mul, Complex.norm_real, Real.norm_eq_abs, abs_of_pos (mul_pos hβ h1.1)]
    exact h1.2

/-- The Taylor series of the finite dipole model. -/
private theorem fdm_taylor (env : Env) (r l g d0 d1 dA A : ℝ) (hA : 0 < A) (nLag : Option ℕ) {N : ℕ} (hN : N ≠ 0) (J : ℕ)
    (hJ : 2 ≤ J) :
    ∃ D : ℝ → ℝ → ℤ → ℝ, ∀ β z : ℝ, 0 < β → z + 2 * A ∈ tops A d0 d1 r l g →
      (∀ (n : ℤ) (s : Stack (FP ℝ) (FP ℂ)) (m : Option String), TaylorBeta env s m (z + r * dA) nLag (β : ℂ) →
        Fdm.effPolNTaylor env s (FP.num A) (FP.num n) (some (FP.num z)) (fdmTip r l g d0 d1 dA) nLag m (some N)
          (some J) = .ok (FP.num ((((-1 : ℝ) ^ n * ((if n = 0 then 1 else 0) + D β z n / 2) : ℝ) : ℂ)))) ∧
      (∀ n, 0 < D β z n) ∧
      (∀ n β' z', 0 < β' → β' ≤ β → z' + 2 * A ∈ tops A d0 d1 r l g → z ≤ z' → (β' < β ∨ z < z') →
        D β' z' n < D β z n) ∧
      ∀ m : ℕ, 2 * (m + 1) ≤ N → D β z ((m : ℤ) + 1) < D β z m := by
  obtain ⟨a0, h0, s0⟩ := rgeom_alt hA.le (S := tops A d0 d1 r l g) (d := d0) fun T hT => ⟨hT.1, hT.2.1⟩
  obtain ⟨a1, h1, s1⟩ := rgeom_alt hA.le (S := tops A d0 d1 r l g) (d := d1) fun T hT => ⟨hT.1, hT.2.2⟩
  obtain ⟨D, hD⟩ := Alt.terms h0 s0 h1 (fun T hT => rgeom_pos hT.2.2) hA hN
  have hne : (range (J - 1)).Nonempty := ⟨0, mem_range.2 (by omega)⟩
  refine ⟨fun β z n => ∑ j ∈ range (J - 1), β ^ (j + 1) * D j z n, fun β z hβ hz => ⟨fun n s m hs => ?_, fun n => ?_,
    fun n β' z' hβ' hle hz' hzz hor => ?_, fun m hm => ?_⟩⟩
  · have hz0 : 0 ≤ z := by linarith [hz.1]
    rw [taylor_fdm_num env s m g dA nLag β hs (hz.2.1.closer hz0 (by linarith)).ok
      (hz.2.2.closer hz0 (by linarith)).ok hA.le n hN J]
    obtain ⟨K, rfl⟩ : ∃ K, J = K + 1 := ⟨J - 1, by omega⟩
    rw [sum_range_succ', add_tsub_cancel_right]
    have e : ∀ j, Fdm.coef z (j + 1) A n r l g d0 d1 N = (-1 : ℂ) ^ n * (D j z n : ℂ) / 2 := by
      intro j
      rw [← (hD j z hz).1 n]
      unfold Fdm.coef
      rw [if_neg (by omega), add_tsub_cancel_right]
      congr 2
      funext x
      rw [geom_rgeom, geom_rgeom]
      push_cast
      ring
    have e0 : Fdm.coef z 0 A n r l g d0 d1 N = (-1 : ℂ) ^ n * (if n = 0 then 1 else 0) := by
      unfold Fdm.coef
      rw [if_pos rfl]
      by_cases hn : n = 0
      · simp [hn]
      · rw [if_neg (by exact_mod_cast hn), if_neg hn, mul_zero]
    simp only [e, e0]
    congr 2
    push_cast
    rw [mul_add, mul_div_assoc', mul_sum, sum_div]
    rw [add_comm]
    congr 1
    · split_ifs <;> simp
    · refine sum_congr rfl fun j _ => ?_
      ring
  · exact sum_pos (fun j _ => mul_pos (pow_pos hβ _) ((hD j z hz).2.1 n)) hne
  · refine sum_lt_sum_of_nonempty hne fun j _ => ?_
    have q1 := (hD j z hz).2.1 n
    have q2 := (hD j z' hz').2.1 n
    rcases hle.eq_or_lt with e | e
    · subst e
      exact mul_lt_mul_of_pos_left ((hD j z' hz').2.2.1 n z hz (hor.resolve_left (lt_irrefl _))) (pow_pos hβ' _)
    · have hpow : β' ^ (j + 1) < β ^ (j + 1) := pow_lt_pow_left₀ e hβ'.le (by omega)
      have hDle : D j z' n ≤ D j z n := by
        rcases hzz.eq_or_lt with e' | e'
        · rw [e']
        · exact ((hD j z' hz').2.2.1 n z hz e').le
      exact mul_lt_mul hpow hDle q2 (pow_pos hβ _).le
  · exact sum_lt_sum_of_nonempty hne fun j _ => mul_lt_mul_of_pos_left ((hD j z hz).2.2.2 m hm) (pow_pos hβ _)

/-- The Taylor series of the point dipole model. -/
private theorem pdm_taylor (env : Env) (r α A z₀ : ℝ) (hA : 0 < A) (hα : 0 < α) (hr : 0 < r + z₀) {N : ℕ} (hN : N ≠ 0)
    (J : ℕ) (hJ : 2 ≤ J) :
    ∃ D : ℝ → ℝ → ℤ → ℝ, ∀ β z : ℝ, 0 < β → z₀ ≤ z →
      (∀ (n : ℤ) (s : Stack (FP ℝ) (FP ℂ)), s.reflCoefQs = .ok (FP.num (β : ℂ)) →
        Pdm.effPolNTaylor env s (FP.num A) (FP.num n) (some (FP.num z)) (tip r α) (some N) (some J) =
          .ok (FP.num ((((-1 : ℝ) ^ n * ((if (N : ℤ) ∣ n then 1 else 0) + D β z n) : ℝ) : ℂ)))) ∧
      (∀ n, 0 < D β z n) ∧
      (∀ n β' z', 0 < β' → β' ≤ β → z ≤ z' → (β' < β ∨ z < z') → D β' z' n < D β z n) ∧
      ∀ m : ℕ, 2 * (m + 1) ≤ N → D β z ((m : ℤ) + 1) < D β z m := by
  have hpi := Real.pi_pos
  have hS : ∀ z, z + 2 * A ∈ {T | z₀ + 2 * A ≤ T} ↔ z₀ ≤ z := fun z => by simp
  obtain ⟨a, h, s⟩ := cube_alt hA.le (r := r) (S := {T | z₀ + 2 * A ≤ T})
    (fun T hT => by have : z₀ + 2 * A ≤ T := hT; linarith) (κ := α / (16 * Real.pi)) (by positivity)
  obtain ⟨D, hD⟩ := Alt.terms h s h (fun T hT => by
    have hT : z₀ + 2 * A ≤ T := hT
    exact div_pos (by positivity) (pow_pos (by linarith) 3)) hA hN
  have hg : ∀ x, Pdm.geom x r α = ((α / (16 * Real.pi) / (r + x) ^ 3 : ℝ) : ℂ) := by
    intro x
    unfold Pdm.geom
    push_cast
    rw [div_div]
  have hne : (range (J - 1)).Nonempty := ⟨0, mem_range.2 (by omega)⟩
  refine ⟨fun β z n => ∑ j ∈ range (J - 1), β ^ (j + 1) * D j z n, fun β z hβ hz => ⟨fun n s hs => ?_, fun n => ?_,
    fun n β' z' hβ' hle hzz hor => ?_, fun m hm => ?_⟩⟩
  · rw [taylor_pdm_num env s α β hs (by linarith) hA.le n hN J]
    obtain ⟨K, rfl⟩ : ∃ K, J = K + 1 := ⟨J - 1, by omega⟩
    rw [sum_range_succ', add_tsub_cancel_right]
    have e : ∀ j, Pdm.coef z (j + 1) A n r α N = (-1 : ℂ) ^ n * (D j z n : ℂ) := by
      intro j
      rw [← (hD j z ((hS z).2 hz)).1 n]
      unfold Pdm.coef
      congr 1
      funext x
      rw [hg]
      push_cast
      ring
    have e0 : Pdm.coef z 0 A n r α N = (-1 : ℂ) ^ n * ((if (N : ℤ) ∣ n then 1 else 0 : ℝ) : ℂ) := by
      rw [← demodSum_one (z + A) A n hN]
      unfold Pdm.coef
      simp only [pow_zero]
    simp only [e, e0]
    congr 2
    push_cast
    rw [mul_add, mul_sum, add_comm]
    congr 1
    · simp
    · refine sum_congr rfl fun j _ => ?_
      ring
  · exact sum_pos (fun j _ => mul_pos (pow_pos hβ _) ((hD j z ((hS z).2 hz)).2.1 n)) hne
  · refine sum_lt_sum_of_nonempty hne fun j _ => ?_
    have hz₁ := (hS z).2 hz
    have hz₂ := (hS z').2 (hz.trans hzz)
    have q1 := (hD j z hz₁).2.1 n
    have q2 := (hD j z' hz₂).2.1 n
    rcases hle.eq_or_lt with e | e
    · subst e
      exact mul_lt_mul_of_pos_left ((hD j z' hz₂).2.2.1 n z hz₁ (hor.resolve_left (lt_irrefl _))) (pow_pos hβ' _)
    · have hpow : β' ^ (j + 1) < β ^ (j + 1) := pow_lt_pow_left₀ e hβ'.le (by omega)
      have hDle : D j z' n ≤ D j z n := by
        rcases hzz.eq_or_lt with e' | e'
        · rw [e']
        · exact ((hD j z' hz₂).2.2.1 n z hz₁ e').le
      exact mul_lt_mul hpow hDle q2 (pow_pos hβ _).le
  · exact sum_lt_sum_of_nonempty hne fun j _ =>
      mul_lt_mul_of_pos_left ((hD j z ((hS z).2 hz)).2.2.2 m hm) (pow_pos hβ _)

/-! ## C72 Closer and more polarizable means a larger signal at every harmonic -/

/-- Finite dipole model: harmonic `n` is `(-1)^n` times a positive number that grows when the tip gets closer or the
reflection coefficient larger, for every number of samples.  The term for `N ∣ n` is the constant 1 of the bare tip, which
is seen at harmonic 0 and at its aliases. -/
theorem C72_fdm (env : Env) (s₁ s₂ : Stack (FP ℝ) (FP ℂ)) (m₁ : s₁.multilayer = false) (m₂ : s₂.multilayer = false)
    (b₁ b₂ : ℝ) (h₁ : s₁.reflCoefQs = .ok (FP.num (b₁ : ℂ))) (h₂ : s₂.reflCoefQs = .ok (FP.num (b₂ : ℂ)))
    (r l g d0 d1 dA z₁ z₂ A : ℝ) (hA : 0 < A) (nLag : Option ℕ) (n : ℤ) (N : ℕ) (hN : N ≠ 0)
    (r0 : InReach (z₁ + 2 * A) d0 r l g) (r1 : InReach (z₁ + 2 * A) d1 r l g)
    (hz0 : 0 ≤ z₂) (hz : z₂ ≤ z₁) (hb0 : 0 < b₁) (hb : b₁ ≤ b₂) (hb1 : b₂ ≤ 1) (hlt : b₁ < b₂ ∨ z₂ < z₁) :
    ∃ v₁ v₂ : ℝ,
      Fdm.effPolN env s₁ (FP.num A) (FP.num n) (some (FP.num z₁)) (some N) (fdmTip r l g d0 d1 dA) nLag (some "bulk") =
        .ok (FP.num (((-1 : ℝ) ^ n * v₁ : ℝ) : ℂ)) ∧
      Fdm.effPolN env s₂ (FP.num A) (FP.num n) (some (FP.num z₂)) (some N) (fdmTip r l g d0 d1 dA) nLag (some "bulk") =
        .ok (FP.num (((-1 : ℝ) ^ n * v₂ : ℝ) : ℂ)) ∧
      (if (N : ℤ) ∣ n then 1 else 0) < v₁ ∧ v₁ < v₂ := by
  obtain ⟨D, hD⟩ := fdm_signal env r l g d0 d1 dA A hA nLag hN
  have t₁ : z₁ + 2 * A ∈ tops A d0 d1 r l g := ⟨by linarith, r0, r1⟩
  have t₂ : z₂ + 2 * A ∈ tops A d0 d1 r l g :=
    ⟨by linarith, r0.closer (by linarith) (by linarith), r1.closer (by linarith) (by linarith)⟩
  obtain ⟨p1, p2, -, -⟩ := hD b₁ z₁ hb0 (hb.trans hb1) t₁
  obtain ⟨q1, -, q3, -⟩ := hD b₂ z₂ (lt_of_lt_of_le hb0 hb) hb1 t₂
  have k1 := p2 n
  have k2 := q3 n b₁ z₁ hb0 hb t₁ hz hlt
  exact ⟨_, _, p1 n s₁ m₁ h₁, q1 n s₂ m₂ h₂, by linarith, by linarith⟩

example (env : Env) (n : ℤ) := C72_fdm env (bulk 1 3) (bulk 1 3) rfl rfl (1 / 2) (1 / 2)
  (by rw [C09_refl] <;> norm_num) (by rw [C09_refl] <;> norm_num) 20 300 0.7 1 0.5 1.4 10 0 30 (by norm_num) none n 32
  (by norm_num) ⟨by norm_num, by norm_num, by norm_num, by norm_num, by norm_num, by norm_num, by norm_num⟩
  ⟨by norm_num, by norm_num, by norm_num, by norm_num, by norm_num, by norm_num, by norm_num⟩ le_rfl (by norm_num)
  (by norm_num) le_rfl (by norm_num) (Or.inr (by norm_num))

/-- In terms of permittivities: dielectrics brighter than the environment are ordered by their permittivity in the size of
every harmonic. -/
theorem C72_contrast (env : Env) (e ε₁ ε₂ : ℝ) (he : 0 < e) (h1 : e < ε₁) (h2 : ε₁ < ε₂) (r l g d0 d1 dA z A : ℝ)
    (hA : 0 < A) (nLag : Option ℕ) (n : ℤ) (N : ℕ) (hN : N ≠ 0) (hz : 0 ≤ z) (r0 : InReach (z + 2 * A) d0 r l g)
    (r1 : InReach (z + 2 * A) d1 r l g) :
    ∃ v₁ v₂ : ℂ,
      Fdm.effPolN env (bulk e ε₁) (FP.num A) (FP.num n) (some (FP.num z)) (some N) (fdmTip r l g d0 d1 dA) nLag
        (some "bulk") = .ok (FP.num v₁) ∧
      Fdm.effPolN env (bulk e ε₂) (FP.num A) (FP.num n) (some (FP.num z)) (some N) (fdmTip r l g d0 d1 dA) nLag
        (some "bulk") = .ok (FP.num v₂) ∧ 0 < ‖v₁‖ ∧ ‖v₁‖ < ‖v₂‖ := by
  have val : ∀ ε : ℝ, e < ε → (bulk e ε).reflCoefQs = .ok (FP.num (((ε - e) / (ε + e) : ℝ) : ℂ)) := by
    intro ε h
    rw [C09_refl]
    · push_cast
      rfl
    · exact_mod_cast (he.trans h).ne'
    · exact_mod_cast (by linarith : 0 < ε + e).ne'
  obtain ⟨v₁, v₂, e₁, e₂, q₁, q₂⟩ := C72_fdm env _ _ rfl rfl _ _ (val ε₁ h1) (val ε₂ (h1.trans h2)) r l g d0 d1 dA z z A
    hA nLag n N hN r0 r1 hz le_rfl (by apply div_pos <;> linarith)
    (by rw [div_le_div_iff₀ (by linarith) (by linarith)]; nlinarith) (by rw [div_le_one (by linarith)]; linarith)
    (Or.inl (by rw [div_lt_div_iff₀ (by linarith) (by linarith)]; nlinarith))
  have hge : (0 : ℝ) ≤ if (N : ℤ) ∣ n then 1 else 0 := by split_ifs <;> norm_num
  have hnorm : ∀ x : ℝ, 0 ≤ x → ‖(((-1 : ℝ) ^ n * x : ℝ) : ℂ)‖ = x := by
    intro x hx
    rw [Complex.norm_real, norm_mul, norm_zpow, norm_neg, norm_one, one_zpow, one_mul, Real.norm_eq_abs,
      abs_of_nonneg hx]
  refine ⟨_, _, e₁, e₂, ?_⟩
  rw [hnorm _ (by linarith), hnorm _ (by linarith)]
  constructor <;> linarith

example (env : Env) (n : ℤ) := C72_contrast env 1 3 5 one_pos (by norm_num) (by norm_num) 20 300 0.7 1 0.5 1.4 10 30
  (by norm_num) none n 32 (by norm_num) (by norm_num)
  ⟨by norm_num, by norm_num, by norm_num, by norm_num, by norm_num, by norm_num, by norm_num⟩
  ⟨by norm_num, by norm_num, by norm_num, by norm_num, by norm_num, by norm_num, by norm_num⟩

/-- Point dipole model, as long as the resonance is not reached at the lowest position. -/
theorem C72_pdm (env : Env) (s₁ s₂ : Stack (FP ℝ) (FP ℂ)) (b₁ b₂ : ℝ) (h₁ : s₁.reflCoefQs = .ok (FP.num (b₁ : ℂ)))
    (h₂ : s₂.reflCoefQs = .ok (FP.num (b₂ : ℂ))) (r α z₁ z₂ A : ℝ) (hA : 0 < A) (n : ℤ) (N : ℕ) (hN : N ≠ 0)
    (hα : 0 < α) (hz : z₂ ≤ z₁) (hr : 0 < r + z₂) (hb0 : 0 < b₁) (hb : b₁ ≤ b₂) (hlt : b₁ < b₂ ∨ z₂ < z₁)
    (hres : α * b₂ < 16 * Real.pi * (r + z₂) ^ 3) :
    ∃ v₁ v₂ : ℝ,
      Pdm.effPolN env s₁ (FP.num A) (FP.num n) (some (FP.num z₁)) (some N) (tip r α) =
        .ok (FP.num (((-1 : ℝ) ^ n * v₁ : ℝ) : ℂ)) ∧
      Pdm.effPolN env s₂ (FP.num A) (FP.num n) (some (FP.num z₂)) (some N) (tip r α) =
        .ok (FP.num (((-1 : ℝ) ^ n * v₂ : ℝ) : ℂ)) ∧
      (if (N : ℤ) ∣ n then α else 0) < v₁ ∧ v₁ < v₂ := by
  obtain ⟨D, hD⟩ := pdm_signal env r α A b₂ z₂ hA hα hr hres hN
  obtain ⟨p1, p2, -, -⟩ := hD b₁ z₁ hb0 hb hz
  obtain ⟨q1, -, q3, -⟩ := hD b₂ z₂ (lt_of_lt_of_le hb0 hb) le_rfl le_rfl
  have k1 := mul_pos hα (p2 n)
  have k2 := mul_lt_mul_of_pos_left (q3 n b₁ z₁ hb0 hb hz hlt) hα
  have e : (if (N : ℤ) ∣ n then α else 0) = α * (if (N : ℤ) ∣ n then 1 else 0) := by
    split_ifs <;> simp
  exact ⟨_, _, p1 n s₁ h₁, q1 n s₂ h₂, by rw [e]; linarith, by linarith⟩

example (env : Env) (n : ℤ) := C72_pdm env (bulk 1 3) (bulk 1 3) (1 / 2) (1 / 2)
  (by rw [C09_refl] <;> norm_num) (by rw [C09_refl] <;> norm_num) 1 1 1 0 2 two_pos n 7 (by norm_num) one_pos
  zero_le_one (by norm_num) (by norm_num) le_rfl (Or.inr one_pos) (by have := Real.two_le_pi; norm_num; linarith)

/-- The Taylor series of the finite dipole model behaves in the same way at every length of at least two terms, without a
bound on the reflection coefficient. -/
theorem C72_fdm_taylor (env : Env) (s₁ s₂ : Stack (FP ℝ) (FP ℂ)) (m₁ m₂ : Option String) (b₁ b₂ : ℝ)
    (r l g d0 d1 dA z₁ z₂ A : ℝ) (nLag : Option ℕ) (h₁ : TaylorBeta env s₁ m₁ (z₁ + r * dA) nLag (b₁ : ℂ))
    (h₂ : TaylorBeta env s₂ m₂ (z₂ + r * dA) nLag (b₂ : ℂ)) (hA : 0 < A) (n : ℤ) (N : ℕ) (hN : N ≠ 0) (J : ℕ)
    (hJ : 2 ≤ J) (r0 : InReach (z₁ + 2 * A) d0 r l g) (r1 : InReach (z₁ + 2 * A) d1 r l g)
    (hz0 : 0 ≤ z₂) (hz : z₂ ≤ z₁) (hb0 : 0 < b₁) (hb : b₁ ≤ b₂) (hlt : b₁ < b₂ ∨ z₂ < z₁) :
    ∃ v₁ v₂ : ℝ,
      Fdm.effPolNTaylor env s₁ (FP.num A) (FP.num n) (some (FP.num z₁)) (fdmTip r l g d0 d1 dA) nLag m₁ (some N)
        (some J) = .ok (FP.num (((-1 : ℝ) ^ n * v₁ : ℝ) : ℂ)) ∧
      Fdm.effPolNTaylor env s₂ (FP.num A) (FP.num n) (some (FP.num z₂)) (fdmTip r l g d0 d1 dA) nLag m₂ (some N)
        (some J) = .ok (FP.num (((-1 : ℝ) ^ n * v₂ : ℝ) : ℂ)) ∧
      (if n = 0 then 1 else 0) < v₁ ∧ v₁ < v₂ := by
  obtain ⟨D, hD⟩ := fdm_taylor env r l g d0 d1 dA A hA nLag hN J hJ
  have t₁ : z₁ + 2 * A ∈ tops A d0 d1 r l g := ⟨by linarith, r0, r1⟩
  have t₂ : z₂ + 2 * A ∈ tops A d0 d1 r l g :=
    ⟨by linarith, r0.closer (by linarith) (by linarith), r1.closer (by linarith) (by linarith)⟩
  obtain ⟨p1, p2, -, -⟩ := hD b₁ z₁ hb0 t₁
  obtain ⟨q1, -, q3, -⟩ := hD b₂ z₂ (lt_of_lt_of_le hb0 hb) t₂
  have k1 := p2 n
  have k2 := q3 n b₁ z₁ hb0 hb t₁ hz hlt
  exact ⟨_, _, p1 n s₁ m₁ h₁, q1 n s₂ m₂ h₂, by linarith, by linarith⟩

example (env : Env) (n : ℤ) := C72_fdm_taylor env (bulk 1 3) (bulk 1 3) (some "bulk") none (1 / 2) (1 / 2) 20 300 0.7 1 0.5
  1.4 10 0 30 none (.inl ⟨le_rfl, .inr rfl, by rw [C09_refl] <;> norm_num⟩)
  (.inl ⟨le_rfl, .inl rfl, by rw [C09_refl] <;> norm_num⟩) (by norm_num) n 32
  (by norm_num) 15 (by norm_num)
  ⟨by norm_num, by norm_num, by norm_num, by norm_num, by norm_num, by norm_num, by norm_num⟩
  ⟨by norm_num, by norm_num, by norm_num, by norm_num, by norm_num, by norm_num, by norm_num⟩ le_rfl (by norm_num)
  (by norm_num) le_rfl (Or.inr (by norm_num))

/-- The Taylor series of the point dipole model (which leaves out the factor `alpha_tip`, see C48). -/
theorem C72_pdm_taylor (env : Env) (s₁ s₂ : Stack (FP ℝ) (FP ℂ)) (b₁ b₂ : ℝ)
    (h₁ : s₁.reflCoefQs = .ok (FP.num (b₁ : ℂ))) (h₂ : s₂.reflCoefQs = .ok (FP.num (b₂ : ℂ))) (r α z₁ z₂ A : ℝ)
    (hA : 0 < A) (n : ℤ) (N : ℕ) (hN : N ≠ 0) (J : ℕ) (hJ : 2 ≤ J) (hα : 0 < α) (hz : z₂ ≤ z₁) (hr : 0 < r + z₂)
    (hb0 : 0 < b₁) (hb : b₁ ≤ b₂) (hlt : b₁ < b₂ ∨ z₂ < z₁) :
    ∃ v₁ v₂ : ℝ,
      Pdm.effPolNTaylor env s₁ (FP.num A) (FP.num n) (some (FP.num z₁)) (tip r α) (some N) (some J) =
        .ok (FP.num (((-1 : ℝ) ^ n * v₁ : ℝ) : ℂ)) ∧
      Pdm.effPolNTaylor env s₂ (FP.num A) (FP.num n) (some (FP.num z₂)) (tip r α) (some N) (some J) =
        .ok (FP.num (((-1 : ℝ) ^ n * v₂ : ℝ) : ℂ)) ∧
      (if (N : ℤ) ∣ n then 1 else 0) < v₁ ∧ v₁ < v₂ := by
  obtain ⟨D, hD⟩ := pdm_taylor env r α A z₂ hA hα hr hN J hJ
  obtain ⟨p1, p2, -, -⟩ := hD b₁ z₁ hb0 hz
  obtain ⟨q1, -, q3, -⟩ := hD b₂ z₂ (lt_of_lt_of_le hb0 hb) le_rfl
  have k1 := p2 n
  have k2 := q3 n b₁ z₁ hb0 hb hz hlt
  exact ⟨_, _, p1 n s₁ h₁, q1 n s₂ h₂, by linarith, by linarith⟩

example (env : Env) (n : ℤ) := C72_pdm_taylor env (bulk 1 3) (bulk 1 3) (1 / 2) (1 / 2)
  (by rw [C09_refl] <;> norm_num) (by rw [C09_refl] <;> norm_num) 1 1 1 0 2 two_pos n 7 (by norm_num) 15 (by norm_num)
  one_pos zero_le_one (by norm_num) (by norm_num) le_rfl (Or.inr one_pos)

/-! ## C73 Higher harmonics are smaller -/

private theorem order_lt {c x y : ℝ} (k : ℤ) (hc : 0 ≤ c) (hx : 0 < x) (hy : x < y) :
    0 < ‖(((-1 : ℝ) ^ (k + 1) * (0 + x) : ℝ) : ℂ)‖ ∧
      ‖(((-1 : ℝ) ^ (k + 1) * (0 + x) : ℝ) : ℂ)‖ < ‖(((-1 : ℝ) ^ k * (c + y) : ℝ) : ℂ)‖ := by
  have hnorm : ∀ (k : ℤ) (x : ℝ), 0 ≤ x → ‖(((-1 : ℝ) ^ k * x : ℝ) : ℂ)‖ = x := by
    intro k x hx
    rw [Complex.norm_real, norm_mul, norm_zpow, norm_neg, norm_one, one_zpow, one_mul, Real.norm_eq_abs,
      abs_of_nonneg hx]
  rw [hnorm _ _ (by linarith), hnorm _ _ (by linarith)]
  constructor <;> linarith

private theorem not_alias {n N : ℕ} (hn : 2 * (n + 1) ≤ N) : ¬ (N : ℤ) ∣ (n : ℤ) + 1 := fun hd => by
  have := Int.le_of_dvd (by omega) hd
  omega

private theorem ite_nonneg (p : Prop) [Decidable p] : (0 : ℝ) ≤ if p then 1 else 0 := by split_ifs <;> norm_num

/-- Finite dipole model.  Beyond half the number of samples the harmonics are aliases of lower ones, hence the bound on
`n`. -/
theorem C73_fdm (env : Env) (s : Stack (FP ℝ) (FP ℂ)) (m : s.multilayer = false) (b : ℝ)
    (h : s.reflCoefQs = .ok (FP.num (b : ℂ))) (r l g d0 d1 dA z A : ℝ) (hA : 0 < A) (nLag : Option ℕ) (n N : ℕ)
    (hn : 2 * (n + 1) ≤ N) (r0 : InReach (z + 2 * A) d0 r l g) (r1 : InReach (z + 2 * A) d1 r l g)
    (hz : 0 ≤ z) (hb0 : 0 < b) (hb1 : b ≤ 1) :
    ∃ v w : ℂ,
      Fdm.effPolN env s (FP.num A) (FP.num n) (some (FP.num z)) (some N) (fdmTip r l g d0 d1 dA) nLag (some "bulk") =
        .ok (FP.num v) ∧
      Fdm.effPolN env s (FP.num A) (FP.num (n + 1)) (some (FP.num z)) (some N) (fdmTip r l g d0 d1 dA) nLag
        (some "bulk") = .ok (FP.num w) ∧
      0 < ‖w‖ ∧ ‖w‖ < ‖v‖ := by
  have hN : N ≠ 0 := by omega
  obtain ⟨D, hD⟩ := fdm_signal env r l g d0 d1 dA A hA nLag hN
  have t : z + 2 * A ∈ tops A d0 d1 r l g := ⟨by linarith, r0, r1⟩
  obtain ⟨p1, p2, -, p4⟩ := hD b z hb0 hb1 t
  have e1 := p1 n s m h
  have e2 := p1 (n + 1) s m h
  simp only [Int.cast_natCast, Int.cast_add, Int.cast_one] at e1 e2
  refine ⟨_, _, e1, e2, ?_⟩
  rw [if_neg (not_alias hn)]
  exact order_lt _ (ite_nonneg _) (by linarith [p2 (n + 1)]) (by linarith [p4 n hn])

example (env : Env) := C73_fdm env (bulk 1 3) rfl (1 / 2)
  (by rw [C09_refl] <;> norm_num) 20 300 0.7 1 0.5 1.4 10 30 (by norm_num) none 15 32
  (by norm_num) ⟨by norm_num, by norm_num, by norm_num, by norm_num, by norm_num, by norm_num, by norm_num⟩
  ⟨by norm_num, by norm_num, by norm_num, by norm_num, by norm_num, by norm_num, by norm_num⟩ (by norm_num)
  (by norm_num) (by norm_num)

/-- Point dipole model. -/
theorem C73_pdm (env : Env) (s : Stack (FP ℝ) (FP ℂ)) (b : ℝ) (h : s.reflCoefQs = .ok (FP.num (b : ℂ)))
    (r α z A : ℝ) (hA : 0 < A) (n N : ℕ) (hn : 2 * (n + 1) ≤ N) (hα : 0 < α) (hr : 0 < r + z) (hb0 : 0 < b)
    (hres : α * b < 16 * Real.pi * (r + z) ^ 3) :
    ∃ v w : ℂ,
      Pdm.effPolN env s (FP.num A) (FP.num n) (some (FP.num z)) (some N) (tip r α) = .ok (FP.num v) ∧
      Pdm.effPolN env s (FP.num A) (FP.num (n + 1)) (some (FP.num z)) (some N) (tip r α) = .ok (FP.num w) ∧
      0 < ‖w‖ ∧ ‖w‖ < ‖v‖ := by
  have hN : N ≠ 0 := by omega
  obtain ⟨D, hD⟩ := pdm_signal env r α A b z hA hα hr hres hN
  obtain ⟨p1, p2, -, p4⟩ := hD b z hb0 le_rfl le_rfl
  have e1 := p1 n s h
  have e2 := p1 (n + 1) s h
  simp only [Int.cast_natCast, Int.cast_add, Int.cast_one] at e1 e2
  refine ⟨_, _, e1, e2, ?_⟩
  rw [if_neg (not_alias hn), mul_zero]
  exact order_lt _ (mul_nonneg hα.le (ite_nonneg _)) (mul_pos hα (p2 (n + 1))) (mul_lt_mul_of_pos_left (p4 n hn) hα)

example (env : Env) := C73_pdm env (bulk 1 3) (1 / 2)
  (by rw [C09_refl] <;> norm_num) 1 1 0 2 two_pos 3 8 (by norm_num) one_pos
  (by norm_num) (by norm_num) (by have := Real.two_le_pi; norm_num; linarith)

theorem C73_fdm_taylor (env : Env) (s : Stack (FP ℝ) (FP ℂ)) (m : Option String) (b : ℝ) (r l g d0 d1 dA z A : ℝ)
    (nLag : Option ℕ) (h : TaylorBeta env s m (z + r * dA) nLag (b : ℂ)) (hA : 0 < A) (n N : ℕ)
    (hn : 2 * (n + 1) ≤ N) (J : ℕ) (hJ : 2 ≤ J) (r0 : InReach (z + 2 * A) d0 r l g) (r1 : InReach (z + 2 * A) d1 r l g)
    (hz : 0 ≤ z) (hb0 : 0 < b) :
    ∃ v w : ℂ,
      Fdm.effPolNTaylor env s (FP.num A) (FP.num n) (some (FP.num z)) (fdmTip r l g d0 d1 dA) nLag m (some N)
        (some J) = .ok (FP.num v) ∧
      Fdm.effPolNTaylor env s (FP.num A) (FP.num (n + 1)) (some (FP.num z)) (fdmTip r l g d0 d1 dA) nLag m (some N)
        (some J) = .ok (FP.num w) ∧
      0 < ‖w‖ ∧ ‖w‖ < ‖v‖ := by
  have hN : N ≠ 0 := by omega
  obtain ⟨D, hD⟩ := fdm_taylor env r l g d0 d1 dA A hA nLag hN J hJ
  have t : z + 2 * A ∈ tops A d0 d1 r l g := ⟨by linarith, r0, r1⟩
  obtain ⟨p1, p2, -, p4⟩ := hD b z hb0 t
  have e1 := p1 n s m h
  have e2 := p1 (n + 1) s m h
  simp only [Int.cast_natCast, Int.cast_add, Int.cast_one] at e1 e2
  refine ⟨_, _, e1, e2, ?_⟩
  rw [if_neg (by omega : ¬ (n : ℤ) + 1 = 0)]
  exact order_lt _ (ite_nonneg _) (by linarith [p2 (n + 1)]) (by linarith [p4 n hn])

example (env : Env) := C73_fdm_taylor env (bulk 1 3) (some "bulk") (1 / 2) 20 300 0.7 1 0.5
  1.4 10 30 none (.inl ⟨le_rfl, .inr rfl, by rw [C09_refl] <;> norm_num⟩) (by norm_num) 15 32
  (by norm_num) 15 (by norm_num)
  ⟨by norm_num, by norm_num, by norm_num, by norm_num, by norm_num, by norm_num, by norm_num⟩
  ⟨by norm_num, by norm_num, by norm_num, by norm_num, by norm_num, by norm_num, by norm_num⟩ (by norm_num)
  (by norm_num)

theorem C73_pdm_taylor (env : Env) (s : Stack (FP ℝ) (FP ℂ)) (b : ℝ) (h : s.reflCoefQs = .ok (FP.num (b : ℂ)))
    (r α z A : ℝ) (hA : 0 < A) (n N : ℕ) (hn : 2 * (n + 1) ≤ N) (J : ℕ) (hJ : 2 ≤ J) (hα : 0 < α) (hr : 0 < r + z)
    (hb0 : 0 < b) :
    ∃ v w : ℂ,
      Pdm.effPolNTaylor env s (FP.num A) (FP.num n) (some (FP.num z)) (tip r α) (some N) (some J) = .ok (FP.num v) ∧
      Pdm.effPolNTaylor env s (FP.num A) (FP.num (n + 1)) (some (FP.num z)) (tip r α) (some N) (some J) =
        .ok (FP.num w) ∧
      0 < ‖w‖ ∧ ‖w‖ < ‖v‖ := by
  have hN : N ≠ 0 := by omega
  obtain ⟨D, hD⟩ := pdm_taylor env r α A z hA hα hr hN J hJ
  obtain ⟨p1, p2, -, p4⟩ := hD b z hb0 le_rfl
  have e1 := p1 n s h
  have e2 := p1 (n + 1) s h
  simp only [Int.cast_natCast, Int.cast_add, Int.cast_one] at e1 e2
  refine ⟨_, _, e1, e2, ?_⟩
  rw [if_neg (not_alias hn)]
  exact order_lt _ (ite_nonneg _) (p2 (n + 1)) (p4 n hn)

example (env : Env) := C73_pdm_taylor env (bulk 1 3) (1 / 2)
  (by rw [C09_refl] <;> norm_num) 1 1 0 2 two_pos 3 8 (by norm_num) 15 (by norm_num) one_pos
  (by norm_num) (by norm_num)

end Snompy.Props
