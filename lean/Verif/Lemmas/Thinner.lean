import Verif.Lemmas.Raised
import Mathlib.Analysis.Convex.Deriv

/-!
# Samples whose permittivity decreases with depth
-/

namespace Snompy

/-! ## The hyperbolic tangent -/

theorem convexOn_sinh : ConvexOn ℝ (Set.Ici 0) Real.sinh := by
  refine MonotoneOn.convexOn_of_deriv (convex_Ici 0) Real.continuous_sinh.continuousOn Real.differentiable_sinh.differentiableOn ?_
  rw [Real.deriv_sinh, interior_Ici]
  exact fun x hx y hy h => (Real.cosh_le_cosh).2 (by rwa [abs_of_pos hx, abs_of_pos hy])

theorem sinh_chord {a b : ℝ} (ha : 0 ≤ a) (hab : a ≤ b) : b * Real.sinh a ≤ a * Real.sinh b := by
  rcases ha.eq_or_lt with rfl | ha'
  · simp
  have hb : 0 < b := by linarith
  have h := convexOn_sinh.2 (Set.mem_Ici.2 le_rfl) (Set.mem_Ici.2 hb.le)
    (show 0 ≤ 1 - a / b by rw [sub_nonneg, div_le_one hb]; exact hab) (show 0 ≤ a / b by positivity) (by ring)
  simp only [smul_eq_mul, mul_zero, Real.sinh_zero, zero_add, div_mul_cancel₀ a hb.ne'] at h
  rw [div_mul_eq_mul_div, le_div_iff₀ hb] at h
  linarith

/-- `tanh x / x` decreases. -/
theorem tanh_chord {x y : ℝ} (hx : 0 ≤ x) (hxy : x ≤ y) : x * Real.tanh y ≤ y * Real.tanh x := by
  have h := sinh_chord (a := y - x) (b := y + x) (by linarith) (by linarith)
  rw [Real.sinh_sub, Real.sinh_add] at h
  rw [Real.tanh_eq_sinh_div_cosh, Real.tanh_eq_sinh_div_cosh, ← mul_div_assoc, ← mul_div_assoc,
    div_le_div_iff₀ (Real.cosh_pos y) (Real.cosh_pos x)]
  nlinarith

theorem tanh_nonneg {x : ℝ} (hx : 0 ≤ x) : 0 ≤ Real.tanh x := by
  rw [Real.tanh_eq_sinh_div_cosh]
  exact div_nonneg (Real.sinh_nonneg_iff.2 hx) (Real.cosh_pos x).le

theorem tanh_mono {x y : ℝ} (h : x ≤ y) : Real.tanh x ≤ Real.tanh y := by
  rw [Real.tanh_eq_sinh_div_cosh, Real.tanh_eq_sinh_div_cosh, div_le_div_iff₀ (Real.cosh_pos x) (Real.cosh_pos y)]
  have : 0 ≤ Real.sinh (y - x) := Real.sinh_nonneg_iff.2 (by linarith)
  rw [Real.sinh_sub] at this
  linarith

/-- The same with clipping. -/
theorem tanh_clipped_chord {p q t : ℝ} (hp : 0 < p) (hpq : p ≤ q) (ht : 0 ≤ t) :
    p * Real.tanh (clipped (q * t)) ≤ q * Real.tanh (clipped (p * t)) := by
  have hq : 0 < q := by linarith
  rcases ht.eq_or_lt with rfl | ht'
  · simp
  have x0 : 0 < clipped (p * t) := by
    rw [clipped_of_nonneg (by positivity)]
    exact lt_min (by positivity) maxExpArg_pos
  have hxy : clipped (p * t) ≤ clipped (q * t) := clipped_mono (mul_le_mul_of_nonneg_right hpq ht)
  have h := tanh_chord x0.le hxy
  have hT := tanh_nonneg x0.le
  have hscale : p * clipped (q * t) ≤ q * clipped (p * t) := by
    rw [clipped_of_nonneg (by positivity : 0 ≤ q * t), clipped_of_nonneg (by positivity : 0 ≤ p * t)]
    rcases le_total (p * t) maxExpArg with hm | hm
    · rw [min_eq_left hm]
      calc p * min (q * t) maxExpArg ≤ p * (q * t) := mul_le_mul_of_nonneg_left (min_le_left _ _) hp.le
        _ = _ := by ring
    · rw [min_eq_right hm]
      exact mul_le_mul hpq (min_le_right _ _) (le_min (by positivity) maxExpArg_pos.le) hq.le
  refine le_of_mul_le_mul_left ?_ x0
  calc clipped (p * t) * (p * Real.tanh (clipped (q * t))) = p * (clipped (p * t) * Real.tanh (clipped (q * t))) := by ring
    _ ≤ p * (clipped (q * t) * Real.tanh (clipped (p * t))) := mul_le_mul_of_nonneg_left h hp.le
    _ = p * clipped (q * t) * Real.tanh (clipped (p * t)) := by ring
    _ ≤ q * clipped (p * t) * Real.tanh (clipped (p * t)) := mul_le_mul_of_nonneg_right hscale hT
    _ = _ := by ring

/-! ## Layers -/

theorem effStep_tanh (x f y : ℝ) :
    effStep (Real.sinh x) (Real.cosh x) f y = f * (f * Real.tanh x + y) / (f + y * Real.tanh x) := by
  have hc := (Real.cosh_pos x).ne'
  unfold effStep
  rw [Real.tanh_eq_sinh_div_cosh, show f * (f * (Real.sinh x / Real.cosh x) + y) = f * (f * Real.sinh x + y * Real.cosh x) / Real.cosh x by
    field_simp, show f + y * (Real.sinh x / Real.cosh x) = (f * Real.cosh x + y * Real.sinh x) / Real.cosh x by field_simp,
    div_div_div_cancel_right₀ hc]

theorem realEff_cons (q : ℝ) (l : ℝ × ℝ) (L : List (ℝ × ℝ)) (sub : ℝ) : realEff q (l :: L) sub =
    l.1 * (l.1 * Real.tanh (clipped (q * l.2)) + realEff q L sub) / (l.1 + realEff q L sub * Real.tanh (clipped (q * l.2))) :=
  effStep_tanh _ _ _

variable {sub : ℝ}

/-- Permittivities that decrease with depth. -/
def Thins (L : List (ℝ × ℝ)) (sub : ℝ) : Prop := (L.map Prod.fst ++ [sub]).Pairwise (· ≥ ·) ∧ ∀ l ∈ L, 0 ≤ l.2

theorem Thins.tail {l : ℝ × ℝ} {L : List (ℝ × ℝ)} (h : Thins (l :: L) sub) :
    Thins L sub ∧ sub ≤ l.1 ∧ 0 ≤ l.2 ∧ ∀ x ∈ L, x.1 ≤ l.1 := by
  obtain ⟨h1, h2⟩ := h
  rw [List.map_cons, List.cons_append, List.pairwise_cons] at h1
  exact ⟨⟨h1.2, fun x hx => h2 x (List.mem_cons_of_mem _ hx)⟩, h1.1 sub (by simp), h2 l List.mem_cons_self,
    fun x hx => h1.1 x.1 (List.mem_append_left _ (List.mem_map_of_mem hx))⟩

theorem Thins.ge {L : List (ℝ × ℝ)} (h : Thins L sub) : ∀ l ∈ L, sub ≤ l.1 := by
  induction L with
  | nil => simp
  | cons l L ih =>
    obtain ⟨h1, h2, -, -⟩ := h.tail
    intro x hx
    rcases List.mem_cons.1 hx with rfl | hx
    · exact h2
    · exact ih h1 x hx

theorem Thins.bounds {L : List (ℝ × ℝ)} (h : Thins L sub) {M q : ℝ} (hq : 0 ≤ q) (h0 : 0 < sub) (hM : sub ≤ M) (hL : ∀ l ∈ L, l.1 ≤ M) :
    sub ≤ realEff q L sub ∧ realEff q L sub ≤ M :=
  realEff_between hq h0 ⟨le_rfl, hM⟩ fun l hl => ⟨h.ge l hl, hL l hl, h.2 l hl⟩

theorem Thins.mono {L : List (ℝ × ℝ)} (h : Thins L sub) (h0 : 0 < sub) {p q : ℝ} (hp : 0 ≤ p) (hpq : p ≤ q) :
    realEff p L sub ≤ realEff q L sub := by
  induction L with
  | nil => exact le_rfl
  | cons l L ih =>
    obtain ⟨h1, h2, h3, h4⟩ := h.tail
    have i := ih h1
    obtain ⟨a1, a2⟩ := h1.bounds hp h0 h2 h4
    have hf : 0 < l.1 := by linarith
    have hT := tanh_mono (clipped_mono (mul_le_mul_of_nonneg_right hpq h3))
    have hT0 : 0 ≤ Real.tanh (clipped (p * l.2)) := tanh_nonneg (clipped_nonneg (mul_nonneg hp h3))
    have hs := sinh_clipped_nonneg (hp.trans hpq) h3
    have hstep := (effStep_mono_inner hs (Real.cosh_pos (clipped (q * l.2))) (by linarith [Real.cosh_sq (clipped (q * l.2))]) hf
      (by linarith) i).1
    refine le_trans ?_ hstep
    rw [effStep_tanh, realEff_cons]
    set y := realEff p L sub
    set T := Real.tanh (clipped (p * l.2))
    set T' := Real.tanh (clipped (q * l.2))
    have hy : 0 < y := by linarith
    have hT0' : 0 ≤ T' := hT0.trans hT
    have d1 : 0 < l.1 + y * T := by positivity
    have d2 : 0 < l.1 + y * T' := by positivity
    rw [div_le_div_iff₀ d1 d2]
    have e : l.1 * (l.1 * T' + y) * (l.1 + y * T) - l.1 * (l.1 * T + y) * (l.1 + y * T') = l.1 * ((l.1 - y) * (l.1 + y)) * (T' - T) := by ring
    have : 0 ≤ l.1 * ((l.1 - y) * (l.1 + y)) * (T' - T) :=
      mul_nonneg (mul_nonneg hf.le (mul_nonneg (by linarith) (by linarith))) (by linarith)
    linarith

/-- `(Y - sub)/q` decreases. -/
theorem Thins.chord {L : List (ℝ × ℝ)} (h : Thins L sub) (h0 : 0 < sub) {p q : ℝ} (hp : 0 < p) (hpq : p ≤ q) :
    p * (realEff q L sub - sub) ≤ q * (realEff p L sub - sub) := by
  have hq : 0 < q := by linarith
  induction L with
  | nil => simp [realEff]
  | cons l L ih =>
    obtain ⟨h1, h2, h3, h4⟩ := h.tail
    have i := ih h1
    have hm := h1.mono h0 hp.le hpq
    obtain ⟨a1, a2⟩ := h1.bounds hp.le h0 h2 h4
    obtain ⟨b1, b2⟩ := h1.bounds hq.le h0 h2 h4
    have hf : 0 < l.1 := by linarith
    have hT := tanh_mono (clipped_mono (mul_le_mul_of_nonneg_right hpq h3))
    have hT0 : 0 ≤ Real.tanh (clipped (p * l.2)) := tanh_nonneg (clipped_nonneg (mul_nonneg hp.le h3))
    have hc := tanh_clipped_chord hp hpq h3
    rw [realEff_cons, realEff_cons]
    set y := realEff p L sub
    set y' := realEff q L sub
    set T := Real.tanh (clipped (p * l.2))
    set T' := Real.tanh (clipped (q * l.2))
    have hy : 0 < y := by linarith
    have hy' : 0 < y' := by linarith
    have hT0' : 0 ≤ T' := hT0.trans hT
    have d1 : 0 < l.1 + y * T := by positivity
    have d2 : 0 < l.1 + y' * T' := by positivity
    have e : ∀ k y T : ℝ, 0 < l.1 + y * T → k * (l.1 * (l.1 * T + y) / (l.1 + y * T) - sub) =
        (l.1 * (k * (y - sub)) + k * T * (l.1 ^ 2 - sub * y)) / (l.1 + y * T) := fun k y T hd => by
      rw [eq_div_iff hd.ne', mul_assoc, sub_mul, div_mul_cancel₀ _ hd.ne']
      ring
    rw [e p y' T' d2, e q y T d1]
    have n1 : 0 ≤ l.1 ^ 2 - sub * y := by nlinarith
    have n2 : 0 ≤ l.1 ^ 2 - sub * y' := by nlinarith
    have n3 : l.1 ^ 2 - sub * y' ≤ l.1 ^ 2 - sub * y := by nlinarith
    have c1 : l.1 * (p * (y' - sub)) ≤ l.1 * (q * (y - sub)) := mul_le_mul_of_nonneg_left i hf.le
    have c2 : p * T' * (l.1 ^ 2 - sub * y') ≤ q * T * (l.1 ^ 2 - sub * y) := mul_le_mul hc n3 n2 (by positivity)
    refine div_le_div₀ ?_ (by linarith) d1 ?_
    · exact add_nonneg (mul_nonneg hf.le (mul_nonneg hq.le (by linarith))) (mul_nonneg (by positivity) n1)
    · have : y * T ≤ y' * T' := mul_le_mul hm hT hT0 hy'.le
      linarith

/-! ## Sums over the rule -/

variable {n : ℕ} {rule : List (ℝ × ℝ)}

/-- Increasing functions have a smaller mean without the factor `x`. -/
theorem rule_chebyshev_mono (hn : n ≠ 0) (hr : GaussLaguerre n rule) {b : ℝ → ℝ} (hb : ∀ x y, 0 < x → x ≤ y → b x ≤ b y) :
    (rule.map fun xw => xw.2 * b xw.1).sum ≤ (rule.map fun xw => xw.2 * xw.1 * b xw.1).sum := by
  have h := rule_chebyshev hn hr (b := fun x => -b x) fun x y hx hxy => neg_le_neg (hb x y hx hxy)
  have e : ∀ f : ℝ × ℝ → ℝ, (rule.map fun xw => -f xw).sum = -(rule.map f).sum := fun f => by
    clear h hr
    induction rule with
    | nil => simp
    | cons a l ih => simp only [List.map_cons, List.sum_cons, ih, neg_add]
  simp only [mul_neg] at h
  rw [e, e] at h
  linarith

/-- Functions with decreasing `b x / x` have at least half the mean without the factor `x`. -/
theorem rule_chebyshev_half (hn : n ≠ 0) (hr : GaussLaguerre n rule) {b : ℝ → ℝ} (h0 : ∀ x, 0 < x → 0 ≤ b x)
    (hb : ∀ x y, 0 < x → x ≤ y → x * b y ≤ y * b x) :
    (rule.map fun xw => xw.2 * xw.1 * b xw.1).sum ≤ 2 * (rule.map fun xw => xw.2 * b xw.1).sum := by
  obtain ⟨m0, m1⟩ := rule_moments hn hr
  have m2 : (rule.map fun xw => xw.2 * xw.1 ^ 2).sum ≤ 2 := by
    rcases Nat.lt_or_ge 1 n with h | h
    · rw [hr.exact 2 (by omega)]
      norm_num [Nat.factorial]
    · have : n = 1 := by omega
      subst this
      obtain ⟨a, rfl⟩ := List.length_eq_one_iff.1 hr.length
      simp only [List.map_cons, List.map_nil, List.sum_cons, List.sum_nil, add_zero] at m0 m1 ⊢
      rw [m0, one_mul] at m1 ⊢
      rw [m1]
      norm_num
  have h : ∀ xw ∈ rule, xw.2 * xw.1 * b xw.1 + xw.2 * xw.1 * (b 2 / 2 * 2) ≤ 2 * (xw.2 * b xw.1) + xw.2 * xw.1 ^ 2 * (b 2 / 2) :=
      fun xw hxw => by
    have hw := hr.weight_pos xw hxw
    have hx := hr.node_pos xw hxw
    have : (xw.1 - 2) * (2 * b xw.1 - xw.1 * b 2) ≤ 0 := by
      rcases le_total xw.1 2 with h | h
      · exact mul_nonpos_of_nonpos_of_nonneg (by linarith) (by linarith [hb _ _ hx h])
      · exact mul_nonpos_of_nonneg_of_nonpos (by linarith) (by linarith [hb _ _ two_pos h])
    nlinarith
  have hs := rule_sum_mono h
  rw [List.sum_map_add, List.sum_map_add, List.sum_map_mul_right, List.sum_map_mul_right, List.sum_map_mul_left, m1] at hs
  have := mul_le_mul_of_nonneg_right m2 (div_nonneg (h0 2 two_pos) two_pos.le)
  linarith

end Snompy
