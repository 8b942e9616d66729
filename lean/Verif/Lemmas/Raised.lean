import Verif.Lemmas.Denser
import Verif.Lemmas.EffEps

/-!
# The effective permittivity of dielectric layers increases with every permittivity
-/

namespace Snompy

/-- Effective permittivity of layers with real permittivities. -/
noncomputable def realEff (q : ℝ) : List (ℝ × ℝ) → ℝ → ℝ
  | [], sub => sub
  | l :: L, sub =>
    l.1 * (l.1 * Real.sinh (clipped (q * l.2)) + realEff q L sub * Real.cosh (clipped (q * l.2))) /
      (l.1 * Real.cosh (clipped (q * l.2)) + realEff q L sub * Real.sinh (clipped (q * l.2)))

theorem effEps_real (q : ℝ) (L : List (ℝ × ℝ)) (sub : ℝ) :
    effEps ((L.map fun l => ((l.1 : ℂ), l.2)).map fun l => (l.1, clipped (q * l.2))) sub = (realEff q L sub : ℂ) := by
  induction L with
  | nil => rfl
  | cons l L ih =>
    simp only [List.map_cons, effEps, realEff, ih]
    push_cast
    rfl

/-- One layer. -/
noncomputable def effStep (s c f y : ℝ) : ℝ := f * (f * s + y * c) / (f * c + y * s)

section

variable {s c f f' y y' : ℝ}

theorem effStep_pos (hs : 0 ≤ s) (hc : 0 < c) (hf : 0 < f) (hy : 0 < y) : 0 < effStep s c f y := by
  unfold effStep
  positivity

theorem effStep_mono_inner (hs : 0 ≤ s) (hc : 0 < c) (h1 : c ^ 2 - s ^ 2 = 1) (hf : 0 < f) (hy : 0 < y) (h : y ≤ y') :
    effStep s c f y ≤ effStep s c f y' ∧ (y < y' → effStep s c f y < effStep s c f y') := by
  have hy' : 0 < y' := by linarith
  have d1 : 0 < f * c + y * s := by positivity
  have d2 : 0 < f * c + y' * s := by positivity
  have e : f * (f * s + y' * c) * (f * c + y * s) - f * (f * s + y * c) * (f * c + y' * s) = f ^ 2 * (y' - y) := by
    linear_combination f ^ 2 * (y' - y) * h1
  have hf2 : 0 < f ^ 2 := by positivity
  unfold effStep
  rw [div_le_div_iff₀ d1 d2, div_lt_div_iff₀ d1 d2]
  refine ⟨?_, fun hlt => ?_⟩
  · have := mul_nonneg hf2.le (sub_nonneg.2 h)
    linarith
  · have := mul_pos hf2 (sub_pos.2 hlt)
    linarith

theorem effStep_mono_outer (hs : 0 ≤ s) (hc : 0 < c) (hf : 0 < f) (hy : 0 < y) (h : f ≤ f') :
    effStep s c f y ≤ effStep s c f' y ∧ (f < f' → 0 < s → effStep s c f y < effStep s c f' y) := by
  have hf' : 0 < f' := by linarith
  have d1 : 0 < f * c + y * s := by positivity
  have d2 : 0 < f' * c + y * s := by positivity
  have e : f' * (f' * s + y * c) * (f * c + y * s) - f * (f * s + y * c) * (f' * c + y * s) =
      (f' - f) * (s * (f * f' * c + y * s * (f + f') + y ^ 2 * c)) := by ring
  have hk : 0 < f * f' * c + y * s * (f + f') + y ^ 2 * c := by positivity
  unfold effStep
  rw [div_le_div_iff₀ d1 d2, div_lt_div_iff₀ d1 d2]
  refine ⟨?_, fun hlt hs' => ?_⟩
  · have := mul_nonneg (sub_nonneg.2 h) (mul_nonneg hs hk.le)
    linarith
  · have := mul_pos (sub_pos.2 hlt) (mul_pos hs' hk)
    linarith

end

/-- The same thicknesses, and permittivities that are positive and at least as large. -/
def Raised (l l' : ℝ × ℝ) : Prop := 0 < l.1 ∧ l.1 ≤ l'.1 ∧ 0 ≤ l.2 ∧ l'.2 = l.2

theorem sinh_clipped_nonneg {q t : ℝ} (hq : 0 ≤ q) (ht : 0 ≤ t) : 0 ≤ Real.sinh (clipped (q * t)) :=
  Real.sinh_nonneg_iff.2 (clipped_nonneg (mul_nonneg hq ht))

theorem sinh_clipped_pos {q t : ℝ} (hq : 0 < q) (ht : 0 < t) : 0 < Real.sinh (clipped (q * t)) := by
  refine Real.sinh_pos_iff.2 ?_
  rw [clipped_of_nonneg (mul_pos hq ht).le]
  exact lt_min (mul_pos hq ht) maxExpArg_pos

theorem realEff_pos {q sub : ℝ} (hq : 0 ≤ q) (hs : 0 < sub) {L : List (ℝ × ℝ)} (hL : ∀ l ∈ L, 0 < l.1 ∧ 0 ≤ l.2) : 0 < realEff q L sub := by
  induction L with
  | nil => exact hs
  | cons l L ih =>
    obtain ⟨h1, h2⟩ := hL l List.mem_cons_self
    exact effStep_pos (sinh_clipped_nonneg hq h2) (Real.cosh_pos _) h1 (ih fun x hx => hL x (List.mem_cons_of_mem _ hx))

theorem Raised.left {L L' : List (ℝ × ℝ)} (h : List.Forall₂ Raised L L') : ∀ l ∈ L, 0 < l.1 ∧ 0 ≤ l.2 := by
  induction h with
  | nil => simp
  | cons h _ ih =>
    intro x hx
    rcases List.mem_cons.1 hx with rfl | hx
    · exact ⟨h.1, h.2.2.1⟩
    · exact ih x hx

theorem Raised.right {L L' : List (ℝ × ℝ)} (h : List.Forall₂ Raised L L') : ∀ l ∈ L', 0 < l.1 ∧ 0 ≤ l.2 := by
  induction h with
  | nil => simp
  | cons h _ ih =>
    intro x hx
    rcases List.mem_cons.1 hx with rfl | hx
    · obtain ⟨h1, h2, h3, h4⟩ := h
      exact ⟨by linarith, by linarith⟩
    · exact ih x hx

theorem realEff_mono {q sub sub' : ℝ} (hq : 0 ≤ q) (hs : 0 < sub) (hss : sub ≤ sub') {L L' : List (ℝ × ℝ)} (h : List.Forall₂ Raised L L') :
    realEff q L sub ≤ realEff q L' sub' ∧
      (0 < q → (∀ l ∈ L, 0 < l.2) → (L, sub) ≠ (L', sub') → realEff q L sub < realEff q L' sub') := by
  induction h with
  | nil =>
    refine ⟨hss, fun _ _ hne => lt_of_le_of_ne hss fun h => hne (Prod.ext rfl h)⟩
  | @cons l l' L L' h hL ih =>
    obtain ⟨h1, h2, h3, h4⟩ := h
    obtain ⟨i1, i2⟩ := ih
    have hsn := sinh_clipped_nonneg hq h3
    have hc := Real.cosh_pos (clipped (q * l.2))
    have h1' : 0 < l'.1 := by linarith
    have p : 0 < realEff q L sub := realEff_pos hq hs (Raised.left hL)
    have sq := Real.cosh_sq (clipped (q * l.2))
    obtain ⟨a1, a2⟩ := effStep_mono_inner hsn hc (by linarith) h1' p i1
    obtain ⟨b1, b2⟩ := effStep_mono_outer hsn hc h1 p h2
    have e : realEff q (l' :: L') sub' = effStep (Real.sinh (clipped (q * l.2))) (Real.cosh (clipped (q * l.2))) l'.1 (realEff q L' sub') := by
      rw [realEff, h4]
      rfl
    rw [e]
    refine ⟨b1.trans a1, fun hq' ht hne => ?_⟩
    have ht' : ∀ x ∈ L, 0 < x.2 := fun x hx => ht x (List.mem_cons_of_mem _ hx)
    rcases h2.lt_or_eq with hlt | heq
    · exact (b2 hlt (sinh_clipped_pos hq' (ht l List.mem_cons_self))).trans_le a1
    · refine b1.trans_lt (a2 (i2 hq' ht' fun heq' => hne ?_))
      obtain ⟨g1, g2⟩ := Prod.mk.inj heq'
      rw [g1, g2, show l = l' from Prod.ext heq h4.symm]

theorem realEff_between {q sub m M : ℝ} (hq : 0 ≤ q) (hm : 0 < m) (hs : m ≤ sub ∧ sub ≤ M) {L : List (ℝ × ℝ)}
    (hL : ∀ l ∈ L, m ≤ l.1 ∧ l.1 ≤ M ∧ 0 ≤ l.2) : m ≤ realEff q L sub ∧ realEff q L sub ≤ M := by
  have const : ∀ s c a : ℝ, 0 ≤ s → 0 < c → 0 < a → effStep s c a a = a := fun s c a hs hc ha => by
    have : a * c + a * s ≠ 0 := by positivity
    unfold effStep
    rw [div_eq_iff this]
    ring
  induction L with
  | nil => exact hs
  | cons l L ih =>
    obtain ⟨h1, h2, h3⟩ := hL l List.mem_cons_self
    obtain ⟨i1, i2⟩ := ih fun x hx => hL x (List.mem_cons_of_mem _ hx)
    have hsn := sinh_clipped_nonneg hq h3
    have hc := Real.cosh_pos (clipped (q * l.2))
    have sq := Real.cosh_sq (clipped (q * l.2))
    have hl : 0 < l.1 := by linarith
    have hM : 0 < M := by linarith
    have hy : 0 < realEff q L sub := by linarith
    constructor
    · have a := (effStep_mono_outer hsn hc hm hm h1).1
      have b := (effStep_mono_inner hsn hc (by linarith) hl hm i1).1
      rw [const _ _ _ hsn hc hm] at a
      exact a.trans b
    · have a := (effStep_mono_outer hsn hc hl hM h2).1
      have b := (effStep_mono_inner hsn hc (by linarith) hl hy i2).1
      rw [const _ _ _ hsn hc hM] at a
      exact b.trans a

/-- Contrast between the effective permittivity and the environment. -/
theorem contrast_mono {e e' y y' : ℝ} (he' : 0 < e') (he : e' ≤ e) (hy : 0 < y) (h : y ≤ y') :
    (y - e) / (y + e) ≤ (y' - e') / (y' + e') ∧ (e' < e ∨ y < y' → (y - e) / (y + e) < (y' - e') / (y' + e')) := by
  have hy' : 0 < y' := by linarith
  have he0 : 0 < e := by linarith
  have d1 : 0 < y + e := by positivity
  have d2 : 0 < y' + e' := by positivity
  rw [div_le_div_iff₀ d1 d2, div_lt_div_iff₀ d1 d2]
  refine ⟨by nlinarith, ?_⟩
  rintro (h' | h')
  · have : y * e' < y' * e := by nlinarith
    nlinarith
  · have : y * e' < y' * e := by nlinarith
    nlinarith

/-! ## Thicknesses -/

/-- The same permittivities, and thicknesses that are at least as large. -/
def Thicker (l l' : ℝ × ℝ) : Prop := l'.1 = l.1 ∧ 0 ≤ l.2 ∧ l.2 ≤ l'.2

theorem Thicker.perms {L L' : List (ℝ × ℝ)} (h : List.Forall₂ Thicker L L') : L'.map Prod.fst = L.map Prod.fst := by
  induction h with
  | nil => rfl
  | cons h _ ih => rw [List.map_cons, List.map_cons, h.1, ih]

theorem Thicker.right {L L' : List (ℝ × ℝ)} (h : List.Forall₂ Thicker L L') : ∀ l ∈ L', 0 ≤ l.2 := by
  induction h with
  | nil => simp
  | cons h _ ih =>
    intro x hx
    rcases List.mem_cons.1 hx with rfl | hx
    · exact h.2.1.trans h.2.2
    · exact ih x hx

theorem deepRefl_thicker {q sub : ℝ} (hq : 0 ≤ q) {L L' : List (ℝ × ℝ)} (hL : List.Forall₂ Thicker L L') : ∀ env : ℝ, 0 < env →
    (env :: (L.map Prod.fst ++ [sub])).Pairwise (· ≤ ·) → deepRefl q env L' sub ≤ deepRefl q env L sub := by
  induction hL with
  | nil => intro env _ _; exact le_rfl
  | @cons l l' L L' h hL ih =>
    intro env h0 hinc
    obtain ⟨h1, h2, h3⟩ := pairwise_tail h0 hinc
    have i := ih l.1 h2 h3
    obtain ⟨m1, -⟩ := deepRefl_mem (q := q) (sub := sub) L' l.1 h2 (by rw [Thicker.perms hL]; exact h3)
    obtain ⟨hr, hr'⟩ := contrast_mem h0 h1
    have hw : Real.exp (-(2 * clipped (q * l'.2))) ≤ Real.exp (-(2 * clipped (q * l.2))) := by
      rw [Real.exp_le_exp]
      have := clipped_mono (mul_le_mul_of_nonneg_left h.2.2 hq)
      linarith
    have := tanh_add_mono hr hr' (mul_nonneg m1 (Real.exp_pos _).le) (mul_le_mul i hw (Real.exp_pos _).le (m1.trans i))
    simpa only [deepRefl, mul_assoc, h.1] using this

/-! ## Sums over the rule -/

variable {n : ℕ} {rule : List (ℝ × ℝ)}

theorem rule_sum_lt (hn : n ≠ 0) (hr : GaussLaguerre n rule) {f g : ℝ × ℝ → ℝ} (h : ∀ xw ∈ rule, f xw < g xw) :
    (rule.map f).sum < (rule.map g).sum := by
  refine List.sum_lt_sum _ _ (fun x hx => (h x hx).le) ?_
  obtain ⟨x, hx⟩ := List.exists_mem_of_ne_nil rule fun h0 => by
    have := hr.length
    rw [h0] at this
    exact hn this.symm
  exact ⟨x, hx, h x hx⟩

end Snompy
