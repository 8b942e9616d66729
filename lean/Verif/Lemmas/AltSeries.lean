import Verif.Lemmas.Trig
import Verif.Lemmas.Taylor
import Mathlib.Analysis.SpecialFunctions.Log.Deriv
import Mathlib.Analysis.Normed.Ring.InfiniteSum
import Mathlib.Analysis.SpecificLimits.Normed

/-!
# Functions with alternating Taylor series, and their demodulation

`Alt f A S a` says that around every centre `R ∈ S`, and up to a distance `A`, the function `f` is the sum of the power
series with coefficients `(-1)^k a k R`, where every `a k` is non-negative and decreases with `R`.  Functions like
`1 / x` and `- log x` are of this kind, and so are their products.  The harmonics of such a function under a cosine
motion of amplitude `A` alternate in sign and decrease in size with the centre of the motion.
-/

namespace Snompy

open Finset

structure Alt (f : ℝ → ℝ) (A : ℝ) (S : Set ℝ) (a : ℕ → ℝ → ℝ) : Prop where
  nonneg : ∀ k, ∀ R ∈ S, 0 ≤ a k R
  anti : ∀ k, AntitoneOn (a k) S
  sum : ∀ R ∈ S, ∀ y, |y| ≤ A → HasSum (fun k => a k R * (-y) ^ k) (f (R + y))

/-- All coefficients positive and strictly decreasing. -/
structure Alt.Strict (S : Set ℝ) (a : ℕ → ℝ → ℝ) : Prop where
  pos : ∀ k, ∀ R ∈ S, 0 < a k R
  anti : ∀ k, StrictAntiOn (a k) S

namespace Alt

variable {f g : ℝ → ℝ} {A : ℝ} {S : Set ℝ} {a b : ℕ → ℝ → ℝ}

theorem const {c : ℝ} (hc : 0 ≤ c) : Alt (fun _ => c) A S (fun k _ => if k = 0 then c else 0) where
  nonneg k R _ := by split_ifs <;> simp [hc]
  anti k R _ R' _ _ := le_rfl
  sum R _ y _ := by
    have := hasSum_single (f := fun k : ℕ => (if k = 0 then c else 0) * (-y) ^ k) 0
      (by intro k hk; simp [hk])
    simpa using this

theorem smul (h : Alt f A S a) {c : ℝ} (hc : 0 ≤ c) : Alt (fun x => c * f x) A S (fun k R => c * a k R) where
  nonneg k R hR := mul_nonneg hc (h.nonneg k R hR)
  anti k R hR R' hR' hle := mul_le_mul_of_nonneg_left (h.anti k hR hR' hle) hc
  sum R hR y hy := by
    have := (h.sum R hR y hy).mul_left c
    simpa only [mul_assoc] using this

/-- Coefficients of a product. -/
def prod (a b : ℕ → ℝ → ℝ) (k : ℕ) (R : ℝ) : ℝ := ∑ p ∈ antidiagonal k, a p.1 R * b p.2 R

theorem summable_norm (h : Alt f A S a) {R : ℝ} (hR : R ∈ S) {y : ℝ} (hy : |y| ≤ A) :
    Summable fun k => ‖a k R * (-y) ^ k‖ := by
  have h1 := (h.sum R hR (-|y|) (by rwa [abs_neg, abs_abs])).summable
  refine h1.congr fun k => ?_
  rw [norm_mul, norm_pow, norm_neg, Real.norm_eq_abs, Real.norm_eq_abs, neg_neg, abs_of_nonneg (h.nonneg k R hR)]

theorem mul (hf : Alt f A S a) (hg : Alt g A S b) : Alt (fun x => f x * g x) A S (prod a b) where
  nonneg k R hR := sum_nonneg fun p _ => mul_nonneg (hf.nonneg _ R hR) (hg.nonneg _ R hR)
  anti k R hR R' hR' hle := sum_le_sum fun p _ =>
    mul_le_mul (hf.anti _ hR hR' hle) (hg.anti _ hR hR' hle) (hg.nonneg _ R' hR') (hf.nonneg _ R hR)
  sum R hR y hy := by
    have nf := hf.summable_norm hR hy
    have ng := hg.summable_norm hR hy
    have hs := (summable_norm_sum_mul_antidiagonal_of_summable_norm nf ng).of_norm
    have ht := tsum_mul_tsum_eq_tsum_sum_antidiagonal_of_summable_norm nf ng
    rw [(hf.sum R hR y hy).tsum_eq, (hg.sum R hR y hy).tsum_eq] at ht
    have := hs.hasSum
    rw [← ht] at this
    refine this.congr_fun fun k => ?_
    unfold prod
    rw [sum_mul]
    refine sum_congr rfl fun p hp => ?_
    rw [← mem_antidiagonal.1 hp, pow_add]
    ring

theorem pow (h : Alt f A S a) (n : ℕ) : ∃ b, Alt (fun x => f x ^ n) A S b := by
  induction n with
  | zero => exact ⟨_, by simpa using const (c := 1) zero_le_one⟩
  | succ n ih =>
    obtain ⟨b, hb⟩ := ih
    exact ⟨_, by simpa only [pow_succ] using hb.mul h⟩

theorem Strict.smul (h : Strict S a) {c : ℝ} (hc : 0 < c) : Strict S (fun k R => c * a k R) where
  pos k R hR := mul_pos hc (h.pos k R hR)
  anti k _ hR _ hR' hlt := mul_lt_mul_of_pos_left (h.anti k hR hR' hlt) hc

/-- A product is strict when one factor is, and the other one has a strict leading coefficient. -/
theorem Strict.prod (hf : Alt f A S a) (hg : Alt g A S b) (h0 : ∀ R ∈ S, 0 < a 0 R) (sb : Strict S b) :
    Strict S (prod a b) where
  pos k R hR := by
    refine sum_pos' (fun p _ => mul_nonneg (hf.nonneg _ R hR) (hg.nonneg _ R hR))
      ⟨(0, k), by simp, mul_pos (h0 R hR) (sb.pos k R hR)⟩
  anti k R hR R' hR' hlt := by
    refine sum_lt_sum (fun p _ => mul_le_mul (hf.anti _ hR hR' hlt.le) (hg.anti _ hR hR' hlt.le)
      (hg.nonneg _ R' hR') (hf.nonneg _ R hR)) ⟨(0, k), by simp, ?_⟩
    exact mul_lt_mul' (hf.anti 0 hR hR' hlt.le) (sb.anti k hR hR' hlt) (hg.nonneg _ R' hR') (h0 R hR)

theorem val_nonneg (h : Alt f A S a) {R : ℝ} (hR : R ∈ S) {y : ℝ} (hy : |y| ≤ A) : 0 ≤ f (R + -|y|) := by
  refine (h.sum R hR (-|y|) (by rwa [abs_neg, abs_abs])).nonneg fun k => ?_
  rw [neg_neg]
  exact mul_nonneg (h.nonneg k R hR) (pow_nonneg (abs_nonneg _) _)

theorem abs_val_le (h : Alt f A S a) {R : ℝ} (hR : R ∈ S) {y : ℝ} (hy : |y| ≤ A) : |f (R + y)| ≤ f (R + -A) := by
  have hA : |A| = A := abs_of_nonneg ((abs_nonneg y).trans hy)
  have h1 := h.sum R hR (-A) (by rw [abs_neg, hA])
  have h2 := h.sum R hR y hy
  rw [← h1.tsum_eq, ← h2.tsum_eq, ← Real.norm_eq_abs]
  refine (norm_tsum_le_tsum_norm (h.summable_norm hR hy)).trans ?_
  refine (h.summable_norm hR hy).tsum_le_tsum (fun k => ?_) h1.summable
  rw [norm_mul, norm_pow, norm_neg, Real.norm_eq_abs, Real.norm_eq_abs, neg_neg, abs_of_nonneg (h.nonneg k R hR)]
  exact mul_le_mul_of_nonneg_left (pow_le_pow_left₀ (abs_nonneg _) hy k) (h.nonneg k R hR)

/-- The geometric series of such a function. -/
theorem geom (h : Alt f A S a) (hA : 0 < A) {β : ℝ} (hβ : 0 ≤ β) (hf : ∀ R ∈ S, β * f (R + -A) < 1) :
    ∃ b, Alt (fun x => (1 - β * f x)⁻¹) A S b ∧ ∀ R ∈ S, 0 < b 0 R := by
  choose c hc using fun n => h.pow n
  have hfA : ∀ R ∈ S, 0 ≤ f (R + -A) := by
    intro R hR
    have := h.val_nonneg hR (y := A) (by rw [abs_of_pos hA])
    rwa [abs_of_pos hA] at this
  have hq : ∀ R ∈ S, ∀ y, |y| ≤ A → |β * f (R + y)| < 1 := by
    intro R hR y hy
    rw [abs_mul, abs_of_nonneg hβ]
    exact lt_of_le_of_lt (mul_le_mul_of_nonneg_left (h.abs_val_le hR hy) hβ) (hf R hR)
  have hrow : ∀ R ∈ S, ∀ y, |y| ≤ A → ∀ j, HasSum (fun k => β ^ j * (c j k R * (-y) ^ k)) ((β * f (R + y)) ^ j) := by
    intro R hR y hy j
    rw [mul_pow]
    exact ((hc j).sum R hR y hy).mul_left _
  have hpos : ∀ R ∈ S, ∀ j k, 0 ≤ β ^ j * (c j k R * A ^ k) := fun R hR j k =>
    mul_nonneg (pow_nonneg hβ j) (mul_nonneg ((hc j).nonneg k R hR) (pow_nonneg hA.le k))
  have habs : ∀ R ∈ S, Summable fun p : ℕ × ℕ => β ^ p.1 * (c p.1 p.2 R * A ^ p.2) := by
    intro R hR
    have hA' : |-A| ≤ A := by rw [abs_neg, abs_of_pos hA]
    have hr := hrow R hR (-A) hA'
    simp only [neg_neg] at hr
    rw [summable_prod_of_nonneg fun p => hpos R hR p.1 p.2]
    refine ⟨fun j => (hr j).summable, ?_⟩
    simp only [(hr _).tsum_eq]
    exact summable_geometric_of_abs_lt_one (hq R hR _ hA')
  have hcol : ∀ R ∈ S, ∀ k, Summable fun j => β ^ j * c j k R := by
    intro R hR k
    have h1 := (habs R hR).prod_symm.prod_factor k
    have h2 := h1.mul_right ((A ^ k)⁻¹)
    refine h2.congr fun j => ?_
    simp only [Prod.swap_prod_mk]
    have : A ^ k ≠ 0 := (pow_pos hA k).ne'
    field_simp
  refine ⟨fun k R => ∑' j, β ^ j * c j k R, ⟨?_, ?_, ?_⟩, ?_⟩
  · intro k R hR
    exact tsum_nonneg fun j => mul_nonneg (pow_nonneg hβ j) ((hc j).nonneg k R hR)
  · intro k R hR R' hR' hle
    exact (hcol R' hR' k).tsum_le_tsum
      (fun j => mul_le_mul_of_nonneg_left ((hc j).anti k hR hR' hle) (pow_nonneg hβ j)) (hcol R hR k)
  · intro R hR y hy
    have hs : Summable fun p : ℕ × ℕ => β ^ p.1 * (c p.1 p.2 R * (-y) ^ p.2) := by
      refine Summable.of_norm_bounded (habs R hR) fun p => ?_
      rw [norm_mul, norm_mul, norm_pow, norm_pow, norm_neg, Real.norm_eq_abs, Real.norm_eq_abs, Real.norm_eq_abs,
        abs_of_nonneg hβ, abs_of_nonneg ((hc p.1).nonneg p.2 R hR)]
      exact mul_le_mul_of_nonneg_left (mul_le_mul_of_nonneg_left (pow_le_pow_left₀ (abs_nonneg _) hy _)
        ((hc p.1).nonneg p.2 R hR)) (pow_nonneg hβ _)
    have h1 := hs.hasSum.prod_fiberwise (hrow R hR y hy)
    have h2 := h1.unique (hasSum_geometric_of_abs_lt_one (hq R hR y hy))
    have h3 := (Equiv.prodComm ℕ ℕ).hasSum_iff.2 hs.hasSum
    rw [h2] at h3
    refine h3.prod_fiberwise fun k => ?_
    have := ((hcol R hR k).hasSum).mul_right ((-y) ^ k)
    refine this.congr_fun fun j => ?_
    simp only [Function.comp_apply, Equiv.prodComm_apply, Prod.swap_prod_mk]
    ring
  · intro R hR
    have h00 : c 0 0 R = 1 := by
      have := (hc 0).sum R hR 0 (by rw [abs_zero]; exact hA.le)
      have h1 := hasSum_single (f := fun k : ℕ => c 0 k R * (-0 : ℝ) ^ k) 0 (by intro k hk; simp [hk])
      have h2 := this.unique h1
      simpa using h2.symm
    refine (hcol R hR 0).tsum_pos (fun j => mul_nonneg (pow_nonneg hβ j) ((hc j).nonneg 0 R hR)) 0 ?_
    rw [h00]
    simp

/-! ## The functions in the tip models -/

theorem inv {c : ℝ} (h : ∀ R ∈ S, A < R + c) (hA : 0 ≤ A) :
    Alt (fun x => (x + c)⁻¹) A S (fun k R => ((R + c)⁻¹) ^ (k + 1)) ∧ Strict S (fun k R => ((R + c)⁻¹) ^ (k + 1)) := by
  have hpos : ∀ R ∈ S, 0 < R + c := fun R hR => lt_of_le_of_lt hA (h R hR)
  have hs : Strict S (fun k R => ((R + c)⁻¹) ^ (k + 1)) :=
    ⟨fun k R hR => pow_pos (inv_pos.2 (hpos R hR)) _, fun k R hR R' hR' hlt => by
      have := hpos R hR
      have := hpos R' hR'
      show ((R' + c)⁻¹) ^ (k + 1) < ((R + c)⁻¹) ^ (k + 1)
      gcongr⟩
  refine ⟨⟨fun k R hR => (hs.pos k R hR).le, fun k => (hs.anti k).antitoneOn, fun R hR y hy => ?_⟩, hs⟩
  have hp := hpos R hR
  have hr : |(-y) * (R + c)⁻¹| < 1 := by
    rw [abs_mul, abs_neg, abs_inv, abs_of_pos hp, ← div_eq_mul_inv, div_lt_one hp]
    exact lt_of_le_of_lt hy (h R hR)
  have := (hasSum_geometric_of_abs_lt_one hr).mul_left (R + c)⁻¹
  have e : (R + c)⁻¹ * (1 - -y * (R + c)⁻¹)⁻¹ = (R + y + c)⁻¹ := by
    rw [← mul_inv]
    congr 1
    field_simp
    ring
  rw [e] at this
  refine this.congr_fun fun k => ?_
  rw [mul_pow]
  ring

theorem lin {p q : ℝ} (hq : 0 ≤ q) (h : ∀ R ∈ S, 0 ≤ p - q * R) :
    Alt (fun x => p - q * x) A S (fun k R => if k = 0 then p - q * R else if k = 1 then q else 0) where
  nonneg k R hR := by
    split_ifs
    · exact h R hR
    · exact hq
    · exact le_rfl
  anti k R hR R' hR' hle := by
    show (if k = 0 then p - q * R' else if k = 1 then q else 0) ≤ (if k = 0 then p - q * R else if k = 1 then q else 0)
    split_ifs
    · have := mul_le_mul_of_nonneg_left hle hq
      linarith
    · exact le_rfl
    · exact le_rfl
  sum R hR y hy := by
    have : HasSum (fun k : ℕ => (if k = 0 then p - q * R else if k = 1 then q else 0) * (-y) ^ k) _ :=
      hasSum_sum_of_ne_finset_zero (s := range 2) (by
        intro k hk
        have : 1 < k := by simpa using hk
        rw [if_neg (by omega), if_neg (by omega), zero_mul])
    rw [sum_range_succ, sum_range_one] at this
    convert! this using 1
    simp only [if_true, pow_zero, pow_one, one_ne_zero, if_false]
    ring

theorem log {c m : ℝ} (h : ∀ R ∈ S, A < R + c) (hA : 0 ≤ A) (hm : ∀ R ∈ S, Real.log (R + c) < m) :
    Alt (fun x => m - Real.log (x + c)) A S
        (fun k R => if k = 0 then m - Real.log (R + c) else ((R + c)⁻¹) ^ k / k) ∧
      Strict S (fun k R => if k = 0 then m - Real.log (R + c) else ((R + c)⁻¹) ^ k / k) := by
  have hpos : ∀ R ∈ S, 0 < R + c := fun R hR => lt_of_le_of_lt hA (h R hR)
  have hs : Strict S (fun k R => if k = 0 then m - Real.log (R + c) else ((R + c)⁻¹) ^ k / k) := by
    constructor
    · intro k R hR
      have := hpos R hR
      have := hm R hR
      show 0 < if k = 0 then m - Real.log (R + c) else ((R + c)⁻¹) ^ k / k
      split_ifs with hk
      · linarith
      · have : (0 : ℝ) < k := by exact_mod_cast Nat.pos_of_ne_zero hk
        positivity
    · intro k R hR R' hR' hlt
      have p1 := hpos R hR
      have p2 := hpos R' hR'
      show (if k = 0 then m - Real.log (R' + c) else ((R' + c)⁻¹) ^ k / k) <
        if k = 0 then m - Real.log (R + c) else ((R + c)⁻¹) ^ k / k
      split_ifs with hk
      · have := Real.log_lt_log p1 (by linarith : R + c < R' + c)
        linarith
      · have : (0 : ℝ) < k := by exact_mod_cast Nat.pos_of_ne_zero hk
        gcongr
  refine ⟨⟨fun k R hR => (hs.pos k R hR).le, fun k => (hs.anti k).antitoneOn, fun R hR y hy => ?_⟩, hs⟩
  have hp := hpos R hR
  have hr : |(-y) * (R + c)⁻¹| < 1 := by
    rw [abs_mul, abs_neg, abs_inv, abs_of_pos hp, ← div_eq_mul_inv, div_lt_one hp]
    exact lt_of_le_of_lt hy (h R hR)
  have hser := Real.hasSum_pow_div_log_of_abs_lt_one hr
  have hy2 := lt_of_le_of_lt hy (h R hR)
  have hyp : 0 < R + y + c := by
    have := neg_abs_le y
    linarith
  have e : m - Real.log (R + y + c) = -Real.log (1 - -y * (R + c)⁻¹) + (m - Real.log (R + c)) := by
    have : R + y + c = (R + c) * (1 - -y * (R + c)⁻¹) := by
      field_simp
      ring
    rw [this, Real.log_mul hp.ne']
    · ring
    · intro h0
      rw [h0, mul_zero] at this
      linarith
  rw [e, ← hasSum_nat_add_iff' (f := fun k => (if k = 0 then m - Real.log (R + c) else ((R + c)⁻¹) ^ k / k) * (-y) ^ k) 1,
    sum_range_one]
  simp only [if_true, pow_zero, mul_one, add_sub_cancel_right]
  refine hser.congr_fun fun k => ?_
  rw [if_neg (by omega), mul_pow]
  push_cast
  ring

end Alt

/-! ## Harmonics -/

/-- The harmonics of `(1 - cos θ)^k`, sampled at `N` phases, up to their sign. -/
noncomputable def hump (N : ℕ) : ℕ → ℤ → ℝ
  | 0, n => if (N : ℤ) ∣ n then 1 else 0
  | k + 1, n => hump N k n + (hump N k (n - 1) + hump N k (n + 1)) / 2

theorem hump_nonneg (N k : ℕ) (n : ℤ) : 0 ≤ hump N k n := by
  induction k generalizing n with
  | zero => unfold hump; split_ifs <;> norm_num
  | succ k ih =>
    have h0 := ih n
    have h1 := ih (n - 1)
    have h2 := ih (n + 1)
    unfold hump
    positivity

theorem hump_period (N k : ℕ) (n : ℤ) : hump N k (n + N) = hump N k n := by
  induction k generalizing n with
  | zero => unfold hump; simp
  | succ k ih =>
    unfold hump
    rw [ih, show n + N - 1 = (n - 1) + N by ring, show n + N + 1 = (n + 1) + N by ring, ih, ih]

theorem hump_neg (N k : ℕ) (n : ℤ) : hump N k (-n) = hump N k n := by
  induction k generalizing n with
  | zero => unfold hump; simp only [Int.dvd_neg]
  | succ k ih =>
    unfold hump
    rw [ih, show -n - 1 = -(n + 1) by ring, show -n + 1 = -(n - 1) by ring, ih, ih]
    ring

theorem hump_reflect (N k : ℕ) (n : ℤ) : hump N k (N - n) = hump N k n := by
  rw [← hump_neg N k n, ← hump_period N k (-n)]
  ring_nf

theorem hump_self (N k : ℕ) : 0 < hump N k k ∧ ∀ j : ℕ, k ≤ j → 0 < hump N j k := by
  have h1 : ∀ k : ℕ, 0 < hump N k k := by
    intro k
    induction k with
    | zero => unfold hump; simp
    | succ k ih =>
      unfold hump
      have := hump_nonneg N k ((k : ℤ) + 1)
      have := hump_nonneg N k ((k : ℤ) + 1 + 1)
      push_cast
      rw [add_sub_cancel_right]
      linarith
  refine ⟨h1 k, fun j hj => ?_⟩
  induction j, hj using Nat.le_induction with
  | base => exact h1 k
  | succ j _ ih =>
    unfold hump
    have := hump_nonneg N j ((k : ℤ) - 1)
    have := hump_nonneg N j ((k : ℤ) + 1)
    linarith

theorem hump_pos (N : ℕ) (n : ℤ) : 0 < hump N n.natAbs n := by
  have := (hump_self N n.natAbs).1
  rcases Int.natAbs_eq n with h | h
  · rw [← h] at this
    exact this
  · rw [h, hump_neg, Int.natAbs_neg, Int.natAbs_natCast]
    exact this

/-- Outside the reach of `k` steps around the circle. -/
theorem hump_zero (N k : ℕ) (n : ℤ) (h1 : (k : ℤ) < n) (h2 : n + k < N) : hump N k n = 0 := by
  induction k generalizing n with
  | zero =>
    unfold hump
    rw [if_neg]
    intro hd
    have := Int.le_of_dvd (by simpa using h1) hd
    push_cast at h2
    omega
  | succ k ih =>
    push_cast at h1 h2
    unfold hump
    rw [ih n (by omega) (by omega), ih (n - 1) (by omega) (by omega), ih (n + 1) (by omega) (by omega)]
    norm_num

/-- Decreasing up to half way around the circle. -/
theorem hump_anti (N k : ℕ) (n : ℕ) (h : 2 * (n + 1) ≤ N) : hump N k ((n : ℤ) + 1) ≤ hump N k n := by
  induction k generalizing n with
  | zero =>
    unfold hump
    rw [if_neg]
    · split_ifs <;> norm_num
    · intro hd
      have := Int.le_of_dvd (by omega) hd
      omega
  | succ k ih =>
    have hlt : ∀ i j : ℕ, i ≤ j → 2 * j ≤ N → hump N k j ≤ hump N k i := by
      intro i j hij hj
      induction j, hij using Nat.le_induction with
      | base => exact le_rfl
      | succ j _ ih2 => exact le_trans (by push_cast; exact ih j hj) (ih2 (by omega))
    by_cases h02 : n = 0 ∧ N = 2
    · obtain ⟨rfl, rfl⟩ := h02
      have e1 := hump_period 2 k 0
      have e2 := hump_period 2 k (-1)
      push_cast at e1 e2
      rw [hump, hump]
      norm_num
      rw [e1, e2]
      linarith
    have key : hump N k ((n : ℤ) + 1 + 1) ≤ hump N k ((n : ℤ) - 1) := by
      have e1 : hump N k ((n : ℤ) - 1) = hump N k (((n : ℤ) - 1).natAbs : ℤ) := by
        rcases Int.natAbs_eq ((n : ℤ) - 1) with h | h
        · rw [← h]
        · conv_lhs => rw [h]
          rw [hump_neg]
      rw [e1]
      by_cases h2 : 2 * (n + 2) ≤ N
      · have := hlt (((n : ℤ) - 1).natAbs) (n + 2) (by omega) h2
        rwa [show ((n + 2 : ℕ) : ℤ) = (n : ℤ) + 1 + 1 by push_cast; ring] at this
      · rw [← hump_reflect]
        have e2 : (N : ℤ) - (n + 1 + 1) = ((N - (n + 2) : ℕ) : ℤ) := by omega
        rw [e2]
        exact hlt _ _ (by omega) (by omega)
    have h0 := ih n h
    rw [hump, hump]
    rw [show (n : ℤ) + 1 - 1 = n by ring]
    linarith

theorem hump_strict (N : ℕ) (n : ℕ) (h : 2 * (n + 1) ≤ N) : hump N n ((n : ℤ) + 1) < hump N n n := by
  by_cases h2 : 2 * n + 1 < N
  · rw [hump_zero N n ((n : ℤ) + 1) (by omega) (by omega)]
    exact (hump_self N n).1
  · omega

theorem meanN_mode_dvd {m : ℤ} {N : ℕ} (hN : N ≠ 0) (h : (N : ℤ) ∣ m) : meanN N (mode m) = (-1 : ℂ) ^ m := by
  obtain ⟨j, rfl⟩ := h
  have hNc : (N : ℂ) ≠ 0 := by exact_mod_cast hN
  have hm : ∀ k, mode (N * j) (phase N k) = (-1 : ℂ) ^ ((N : ℤ) * j) := by
    intro k
    rw [mode_phase _ hN]
    have e1 : Complex.exp (2 * Real.pi * Complex.I * (((N : ℤ) * j : ℤ) / N)) = 1 := by
      rw [Complex.exp_eq_one_iff]
      exact ⟨j, by push_cast; field_simp⟩
    rw [e1, one_pow, mul_one]
    rw [show -(Complex.I * (((N : ℤ) * j : ℤ) : ℂ) * Real.pi) = ((-((N : ℤ) * j) : ℤ) : ℂ) * (Real.pi * Complex.I) by
      push_cast; ring, Complex.exp_int_mul, Complex.exp_pi_mul_I, zpow_neg, ← inv_zpow]
    norm_num
  unfold meanN
  simp only [hm]
  rw [sum_const, card_range, nsmul_eq_mul]
  field_simp

theorem meanN_hump {N : ℕ} (hN : N ≠ 0) (k : ℕ) (n : ℤ) :
    meanN N (mode (-n) * fun θ => ((1 - Real.cos θ : ℝ) : ℂ) ^ k) = (-1 : ℂ) ^ n * (hump N k n : ℂ) := by
  induction k generalizing n with
  | zero =>
    have e : (mode (-n) * fun θ => ((1 - Real.cos θ : ℝ) : ℂ) ^ 0) = mode (-n) := by
      funext θ
      simp
    rw [e]
    unfold hump
    split_ifs with h
    · rw [meanN_mode_dvd hN (by rwa [Int.dvd_neg]), zpow_neg, ← inv_zpow]
      norm_num
    · rw [meanN_mode hN (by rwa [Int.dvd_neg])]
      simp
  | succ k ih =>
    have e : (mode (-n) * fun θ => ((1 - Real.cos θ : ℝ) : ℂ) ^ (k + 1)) =
        (mode (-n) * fun θ => ((1 - Real.cos θ : ℝ) : ℂ) ^ k) -
          (1 / 2 : ℂ) • ((mode (-(n - 1)) * fun θ => ((1 - Real.cos θ : ℝ) : ℂ) ^ k) +
            (mode (-(n + 1)) * fun θ => ((1 - Real.cos θ : ℝ) : ℂ) ^ k)) := by
      rw [show -(n - 1) = -n + 1 by ring, show -(n + 1) = -n + -1 by ring, ← mode_mul, ← mode_mul]
      funext θ
      have hcos : ((1 - Real.cos θ : ℝ) : ℂ) = 1 - (mode 1 θ + mode (-1) θ) / 2 := by
        simp only [mode]
        push_cast
        rw [Complex.cos]
        simp
        ring_nf
      simp only [Pi.mul_apply, Pi.sub_apply, Pi.add_apply, Pi.smul_apply, smul_eq_mul]
      rw [pow_succ, show ((1 - Real.cos θ : ℝ) : ℂ) ^ k * ((1 - Real.cos θ : ℝ) : ℂ) =
        ((1 - Real.cos θ : ℝ) : ℂ) ^ k * (1 - (mode 1 θ + mode (-1) θ) / 2) by rw [← hcos]]
      ring
    have hlin : ∀ (u v : ℝ → ℂ) (t : ℂ), meanN N (u - t • v) = meanN N u - t * meanN N v := by
      intro u v t
      unfold meanN
      simp only [Pi.sub_apply, Pi.smul_apply, smul_eq_mul, sum_sub_distrib, ← mul_sum]
      ring
    have hadd : ∀ u v : ℝ → ℂ, meanN N (u + v) = meanN N u + meanN N v := by
      intro u v
      unfold meanN
      simp only [Pi.add_apply, sum_add_distrib]
      ring
    rw [e, hlin, hadd, ih, ih, ih, hump]
    have h1 : (-1 : ℂ) ≠ 0 := by norm_num
    rw [zpow_sub₀ h1, zpow_add₀ h1]
    push_cast
    norm_num
    ring

/-- The demodulated signal of a function with an alternating series around the highest position `z + 2 A`. -/
theorem Alt.demod {f : ℝ → ℝ} {A : ℝ} {S : Set ℝ} {a : ℕ → ℝ → ℝ} (h : Alt f (2 * A) S a) (hA : 0 ≤ A) {z : ℝ}
    (hz : z + 2 * A ∈ S) (n : ℤ) {N : ℕ} (hN : N ≠ 0) :
    ∃ D : ℝ, HasSum (fun k => a k (z + 2 * A) * A ^ k * hump N k n) D ∧
      demodSum (fun x => (f x : ℂ)) (z + A) A n N = (-1 : ℂ) ^ n * (D : ℂ) := by
  have hθ : ∀ θ, HasSum (fun k => ((a k (z + 2 * A) * A ^ k : ℝ) : ℂ) *
      (mode (-n) θ * ((1 - Real.cos θ : ℝ) : ℂ) ^ k)) (mode (-n) θ * (f (z + A + Real.cos θ * A) : ℂ)) := by
    intro θ
    have c1 := Real.cos_le_one θ
    have c2 := Real.neg_one_le_cos θ
    have hy : |-(A * (1 - Real.cos θ))| ≤ 2 * A := by
      rw [abs_neg, abs_of_nonneg (mul_nonneg hA (by linarith))]
      nlinarith
    have h1 := h.sum _ hz _ hy
    rw [show z + 2 * A + -(A * (1 - Real.cos θ)) = z + A + Real.cos θ * A by ring] at h1
    have h2 := (Complex.hasSum_ofReal.2 h1).mul_left (mode (-n) θ)
    refine h2.congr_fun fun k => ?_
    rw [neg_neg, mul_pow]
    push_cast
    ring
  have hsum : HasSum (fun k => ((a k (z + 2 * A) * A ^ k : ℝ) : ℂ) * ((-1 : ℂ) ^ n * (hump N k n : ℂ)))
      (demodSum (fun x => (f x : ℂ)) (z + A) A n N) := by
    rw [demodSum_mean _ _ _ _ hN]
    unfold meanN
    have := (hasSum_sum (s := range N) fun j _ => hθ (phase N j)).div_const (N : ℂ)
    refine this.congr_fun fun k => ?_
    rw [← meanN_hump hN k n]
    unfold meanN
    rw [← mul_sum, mul_div_assoc]
    rfl
  have hs1 : (-1 : ℂ) ^ n * (-1 : ℂ) ^ n = 1 := by
    rw [← mul_zpow]
    norm_num
  have h3 := hsum.mul_left ((-1 : ℂ) ^ n)
  have h4 : HasSum (fun k => ((a k (z + 2 * A) * A ^ k * hump N k n : ℝ) : ℂ))
      ((-1 : ℂ) ^ n * demodSum (fun x => (f x : ℂ)) (z + A) A n N) := by
    refine h3.congr_fun fun k => ?_
    push_cast
    linear_combination (-(a k (z + 2 * A) * A ^ k * hump N k n : ℂ)) * hs1
  have h5 := Complex.hasSum_re h4
  simp only [Complex.ofReal_re] at h5
  refine ⟨_, h5, ?_⟩
  have h6 : (((-1 : ℂ) ^ n * demodSum (fun x => (f x : ℂ)) (z + A) A n N).re : ℂ) =
      (-1 : ℂ) ^ n * demodSum (fun x => (f x : ℂ)) (z + A) A n N :=
    (Complex.hasSum_ofReal.2 h5).unique h4
  rw [h6, ← mul_assoc, hs1, one_mul]

/-- The harmonics of a function with a strictly alternating series: up to the sign `(-1)^n` they are positive, they decrease
with the distance, and they decrease with the order up to half the number of samples. -/
theorem Alt.harmonics {f : ℝ → ℝ} {A : ℝ} {S : Set ℝ} {a : ℕ → ℝ → ℝ} (h : Alt f (2 * A) S a) (hs : Alt.Strict S a)
    (hA : 0 < A) {N : ℕ} (hN : N ≠ 0) :
    ∃ D : ℝ → ℤ → ℝ, ∀ z, z + 2 * A ∈ S →
      (∀ n : ℤ, demodSum (fun x => (f x : ℂ)) (z + A) A n N = (-1 : ℂ) ^ n * (D z n : ℂ)) ∧
      (∀ n, 0 < D z n) ∧
      (∀ n z', z' + 2 * A ∈ S → z' < z → D z n < D z' n) ∧
      ∀ m : ℕ, 2 * (m + 1) ≤ N → D z ((m : ℤ) + 1) < D z m := by
  choose! D hD using fun (z : ℝ) (n : ℤ) (hz : z + 2 * A ∈ S) => h.demod hA.le hz n hN
  refine ⟨D, fun z hz => ⟨fun n => (hD z n hz).2, fun n => ?_, fun n z' hz' hlt => ?_, fun m hm => ?_⟩⟩
  · refine hasSum_lt (i := n.natAbs) (fun k => ?_) ?_ hasSum_zero (hD z n hz).1
    · exact mul_nonneg (mul_nonneg (h.nonneg k _ hz) (pow_nonneg hA.le k)) (hump_nonneg N k n)
    · exact mul_pos (mul_pos (hs.pos _ _ hz) (pow_pos hA _)) (hump_pos N n)
  · refine hasSum_lt (i := n.natAbs) (fun k => ?_) ?_ (hD z n hz).1 (hD z' n hz').1
    · exact mul_le_mul_of_nonneg_right (mul_le_mul_of_nonneg_right (h.anti k hz' hz (by linarith))
        (pow_nonneg hA.le k)) (hump_nonneg N k n)
    · exact mul_lt_mul_of_pos_right (mul_lt_mul_of_pos_right (hs.anti _ hz' hz (by linarith))
        (pow_pos hA _)) (hump_pos N n)
  · refine hasSum_lt (i := m) (fun k => ?_) ?_ (hD z _ hz).1 (hD z _ hz).1
    · exact mul_le_mul_of_nonneg_left (hump_anti N k m hm)
        (mul_nonneg (h.nonneg k _ hz) (pow_nonneg hA.le k))
    · exact mul_lt_mul_of_pos_left (hump_strict N m hm) (mul_pos (hs.pos _ _ hz) (pow_pos hA _))

/-- The form of the tip models: `F = β f₀ / (1 - β f₁)`. -/
theorem Alt.resonance {f₀ f₁ : ℝ → ℝ} {A : ℝ} {S : Set ℝ} {a₀ a₁ : ℕ → ℝ → ℝ} (h₀ : Alt f₀ A S a₀)
    (s₀ : Alt.Strict S a₀) (h₁ : Alt f₁ A S a₁) (hA : 0 < A) {β : ℝ} (hβ : 0 < β)
    (hf : ∀ R ∈ S, β * f₁ (R + -A) < 1) :
    ∃ b, Alt (fun x => (1 - β * f₁ x)⁻¹ * (β * f₀ x)) A S b ∧ Alt.Strict S b := by
  obtain ⟨b, hb, hb0⟩ := h₁.geom hA hβ.le hf
  exact ⟨_, hb.mul (h₀.smul hβ.le), Alt.Strict.prod hb (h₀.smul hβ.le) hb0 (s₀.smul hβ)⟩

/-- The difference of two such forms with different `β`. -/
theorem Alt.contrast {f₀ f₁ : ℝ → ℝ} {A : ℝ} {S : Set ℝ} {a₀ a₁ : ℕ → ℝ → ℝ} (h₀ : Alt f₀ A S a₀)
    (s₀ : Alt.Strict S a₀) (h₁ : Alt f₁ A S a₁) (hA : 0 < A) {β β' : ℝ} (hβ : 0 ≤ β) (hlt : β < β')
    (hf₁ : ∀ R ∈ S, 0 ≤ f₁ (R + -A)) (hf : ∀ R ∈ S, β' * f₁ (R + -A) < 1) :
    ∃ b, Alt (fun x => (1 - β * f₁ x)⁻¹ * ((1 - β' * f₁ x)⁻¹ * ((β' - β) * f₀ x))) A S b ∧ Alt.Strict S b := by
  have hf' : ∀ R ∈ S, β * f₁ (R + -A) < 1 := fun R hR =>
    lt_of_le_of_lt (mul_le_mul_of_nonneg_right hlt.le (hf₁ R hR)) (hf R hR)
  obtain ⟨b, hb, hb0⟩ := h₁.geom hA hβ hf'
  obtain ⟨b', hb', hb0'⟩ := h₁.geom hA (hβ.trans hlt.le) hf
  have hd : 0 < β' - β := sub_pos.2 hlt
  exact ⟨_, hb.mul (hb'.mul (h₀.smul hd.le)), Alt.Strict.prod hb (hb'.mul (h₀.smul hd.le)) hb0
    (Alt.Strict.prod hb' (h₀.smul hd.le) hb0' (s₀.smul hd))⟩

theorem Alt.congr {f g : ℝ → ℝ} {A : ℝ} {S : Set ℝ} {a : ℕ → ℝ → ℝ} (h : Alt f A S a)
    (e : ∀ R ∈ S, ∀ y, |y| ≤ A → f (R + y) = g (R + y)) : Alt g A S a :=
  ⟨h.nonneg, h.anti, fun R hR y hy => e R hR y hy ▸ h.sum R hR y hy⟩

/-- Harmonics of `F = β f₀ / (1 - β f₁)`, for all `β` up to `b`. -/
theorem Alt.signal {f₀ f₁ : ℝ → ℝ} {A : ℝ} {S : Set ℝ} {a₀ a₁ : ℕ → ℝ → ℝ} (h₀ : Alt f₀ (2 * A) S a₀)
    (s₀ : Alt.Strict S a₀) (h₁ : Alt f₁ (2 * A) S a₁) (hA : 0 < A) {N : ℕ} (hN : N ≠ 0) {b : ℝ}
    (hf : ∀ R ∈ S, b * f₁ (R + -(2 * A)) < 1) :
    ∃ D : ℝ → ℝ → ℤ → ℝ, ∀ β z, 0 < β → β ≤ b → z + 2 * A ∈ S →
      (∀ n : ℤ, demodSum (fun x => (((1 - β * f₁ x)⁻¹ * (β * f₀ x) : ℝ) : ℂ)) (z + A) A n N =
        (-1 : ℂ) ^ n * (D β z n : ℂ)) ∧
      (∀ n, 0 < D β z n) ∧
      (∀ n β' z', 0 < β' → β' ≤ β → z' + 2 * A ∈ S → z ≤ z' → (β' < β ∨ z < z') → D β' z' n < D β z n) ∧
      ∀ m : ℕ, 2 * (m + 1) ≤ N → D β z ((m : ℤ) + 1) < D β z m := by
  have h2A : 0 < 2 * A := by linarith
  have hf₁ : ∀ R ∈ S, 0 ≤ f₁ (R + -(2 * A)) := by
    intro R hR
    have := h₁.val_nonneg hR (y := 2 * A) (by rw [abs_of_pos h2A])
    rwa [abs_of_pos h2A] at this
  have hf' : ∀ β, β ≤ b → ∀ R ∈ S, β * f₁ (R + -(2 * A)) < 1 := fun β hβ R hR =>
    lt_of_le_of_lt (mul_le_mul_of_nonneg_right hβ (hf₁ R hR)) (hf R hR)
  choose! c hc using fun β (hβ : 0 < β ∧ β ≤ b) => h₀.resonance s₀ h₁ h2A hβ.1 (hf' β hβ.2)
  choose! D hD using fun β (hβ : 0 < β ∧ β ≤ b) => (hc β hβ).1.harmonics (hc β hβ).2 hA hN
  have hcon : ∀ n β' β z, 0 < β' → β' < β → β ≤ b → z + 2 * A ∈ S → D β' z n < D β z n := by
    intro n β' β z hβ' hlt hb hz
    obtain ⟨c, hc, sc⟩ := h₀.contrast s₀ h₁ h2A hβ'.le hlt hf₁ (hf' β hb)
    obtain ⟨E, hE⟩ := hc.harmonics sc hA hN
    have e1 := (hD β' ⟨hβ', hlt.le.trans hb⟩ z hz).1 n
    have e2 := (hD β ⟨hβ'.trans hlt, hb⟩ z hz).1 n
    have e3 := (hE z hz).1 n
    have hpos := (hE z hz).2.1 n
    have hsum : demodSum (fun x => (((1 - β * f₁ x)⁻¹ * (β * f₀ x) : ℝ) : ℂ)) (z + A) A n N =
        demodSum (fun x => (((1 - β' * f₁ x)⁻¹ * (β' * f₀ x) : ℝ) : ℂ)) (z + A) A n N +
        demodSum (fun x => (((1 - β' * f₁ x)⁻¹ * ((1 - β * f₁ x)⁻¹ * ((β - β') * f₀ x)) : ℝ) : ℂ)) (z + A) A n N := by
      rw [← demodSum_add]
      refine demodSum_congr hA.le _ N fun x hx1 hx2 => ?_
      have hne : ∀ t, 0 < t → t ≤ b → 1 - t * f₁ x ≠ 0 := by
        intro t ht htb
        have hy : |x - (z + 2 * A)| ≤ 2 * A := by rw [abs_le]; constructor <;> linarith
        have h1 := h₁.abs_val_le hz hy
        rw [add_sub_cancel] at h1
        have h2 := mul_le_mul_of_nonneg_left ((le_abs_self _).trans h1) ht.le
        have h3 := hf' t htb _ hz
        intro h4
        linarith
      have n1 := hne β' hβ' (hlt.le.trans hb)
      have n2 := hne β (hβ'.trans hlt) hb
      rw [← Complex.ofReal_add]
      congr 1
      generalize f₁ x = t at n1 n2
      generalize f₀ x = u
      have key : ∀ p q : ℝ, p ≠ 0 → q ≠ 0 → q⁻¹ * (β * u) =
          p⁻¹ * (β' * u) + p⁻¹ * (q⁻¹ * ((β * p - β' * q) * u)) := by
        intro p q hp hq
        field_simp
        ring
      rw [key _ _ n1 n2]
      ring
    have hs1 : (-1 : ℂ) ^ n ≠ 0 := zpow_ne_zero _ (by norm_num)
    rw [e1, e2, e3, ← mul_add] at hsum
    have h5 : D β z n = D β' z n + E z n := by exact_mod_cast mul_left_cancel₀ hs1 hsum
    linarith
  refine ⟨D, fun β z hβ hb hz => ?_⟩
  obtain ⟨p1, p2, p3, p4⟩ := hD β ⟨hβ, hb⟩ z hz
  refine ⟨p1, p2, fun n β' z' hβ' hle hz' hzz hor => ?_, p4⟩
  have q3 : z < z' → D β' z' n < D β' z n := fun hlt => (hD β' ⟨hβ', hle.trans hb⟩ z' hz').2.2.1 n z hz hlt
  rcases hle.eq_or_lt with e | e
  · subst e
    exact q3 (hor.resolve_left (lt_irrefl _))
  · refine lt_of_le_of_lt ?_ (hcon n β' β z hβ' e hb hz)
    rcases hzz.eq_or_lt with e | e
    · rw [e]
    · exact (q3 e).le

theorem Alt.lead {f : ℝ → ℝ} {A : ℝ} {S : Set ℝ} {a : ℕ → ℝ → ℝ} (h : Alt f A S a) (hA : 0 ≤ A) {R : ℝ} (hR : R ∈ S) :
    a 0 R = f R := by
  have h1 := h.sum R hR 0 (by rwa [abs_zero])
  have h2 := hasSum_single (f := fun k : ℕ => a k R * (-0 : ℝ) ^ k) 0 (by intro k hk; simp [hk])
  have h3 := h1.unique h2
  simpa using h3.symm

/-- Harmonics of the terms `f₀ f₁^j` of the Taylor series of `F`. -/
theorem Alt.terms {f₀ f₁ : ℝ → ℝ} {A : ℝ} {S : Set ℝ} {a₀ a₁ : ℕ → ℝ → ℝ} (h₀ : Alt f₀ (2 * A) S a₀)
    (s₀ : Alt.Strict S a₀) (h₁ : Alt f₁ (2 * A) S a₁) (hp : ∀ R ∈ S, 0 < f₁ R) (hA : 0 < A) {N : ℕ} (hN : N ≠ 0) :
    ∃ D : ℕ → ℝ → ℤ → ℝ, ∀ j z, z + 2 * A ∈ S →
      (∀ n : ℤ, demodSum (fun x => ((f₁ x ^ j * f₀ x : ℝ) : ℂ)) (z + A) A n N = (-1 : ℂ) ^ n * (D j z n : ℂ)) ∧
      (∀ n, 0 < D j z n) ∧
      (∀ n z', z' + 2 * A ∈ S → z' < z → D j z n < D j z' n) ∧
      ∀ m : ℕ, 2 * (m + 1) ≤ N → D j z ((m : ℤ) + 1) < D j z m := by
  have key : ∀ j, ∃ c, Alt (fun x => f₁ x ^ j * f₀ x) (2 * A) S c ∧ Alt.Strict S c := fun j => by
    obtain ⟨b, hb⟩ := h₁.pow j
    refine ⟨_, hb.mul h₀, Alt.Strict.prod hb h₀ (fun R hR => ?_) s₀⟩
    rw [hb.lead (by linarith) hR]
    exact pow_pos (hp R hR) j
  choose c hc using key
  choose D hD using fun j => (hc j).1.harmonics (hc j).2 hA hN
  exact ⟨D, hD⟩

end Snompy
