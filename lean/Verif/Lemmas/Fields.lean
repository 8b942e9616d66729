import Verif.Spec.Fields
import Verif.Lemmas.GenProps
import Mathlib.Analysis.SpecialFunctions.ExpDeriv
import Mathlib.Analysis.Calculus.MeanValue
import Mathlib.Topology.Order.DenselyOrdered

/-!
# Waves in layered media

`u' = v / w` and `v' = w κ² u`, with the waves `exp(-κ y)` and `exp(κ y)`.
-/

namespace Snompy

open Set Matrix

def Wave (w κ : ℂ) (u v : ℝ → ℂ) (S : Set ℝ) : Prop :=
  ∀ y ∈ S, HasDerivAt u (v y / w) y ∧ HasDerivAt v (w * κ ^ 2 * u y) y

/-- Amplitudes of the two waves at depth `y`. -/
noncomputable def amp (w κ : ℂ) (u v : ℝ → ℂ) (y : ℝ) : Fin 2 → ℂ :=
  ![(u y - v y / (w * κ)) / 2, (u y + v y / (w * κ)) / 2]

theorem amp_sum (w κ : ℂ) (u v : ℝ → ℂ) (y : ℝ) : amp w κ u v y 0 + amp w κ u v y 1 = u y := by
  simp only [amp, cons_val_zero, cons_val_one]
  ring

theorem amp_diff {w κ : ℂ} (hw : w ≠ 0) (hκ : κ ≠ 0) (u v : ℝ → ℂ) (y : ℝ) :
    w * κ * (amp w κ u v y 1 - amp w κ u v y 0) = v y := by
  simp only [amp, cons_val_zero, cons_val_one]
  field_simp
  ring

theorem const_closure {F : ℝ → ℂ} (hF : Continuous F) {S : Set ℝ} (ho : IsOpen S) (hp : IsPreconnected S)
    (h : ∀ y ∈ S, HasDerivAt F 0 y) {a b : ℝ} (ha : a ∈ closure S) (hb : b ∈ closure S) : F a = F b := by
  by_cases hne : S.Nonempty
  · obtain ⟨c, hc⟩ := hne
    have hS : EqOn F (fun _ => F c) S := fun y hy =>
      ho.is_const_of_deriv_eq_zero hp (fun z hz => (h z hz).differentiableAt.differentiableWithinAt)
        (fun z hz => (h z hz).deriv) hy hc
    have := hS.closure hF continuous_const
    exact (this ha).trans (this hb).symm
  · rw [not_nonempty_iff_eq_empty.1 hne, closure_empty] at ha
    exact ha.elim

theorem hasDerivAt_cexp (κ : ℂ) (y : ℝ) : HasDerivAt (fun y : ℝ => Complex.exp (κ * y)) (κ * Complex.exp (κ * y)) y := by
  have h : HasDerivAt (fun y : ℝ => κ * (y : ℂ)) κ y := by
    simpa using (hasDerivAt_id y).ofReal_comp.const_mul κ
  simpa [mul_comm] using h.cexp

theorem wave_amp {w κ : ℂ} (hw : w ≠ 0) (hκ : κ ≠ 0) {u v : ℝ → ℂ} (hu : Continuous u) (hv : Continuous v) {S : Set ℝ}
    (ho : IsOpen S) (hp : IsPreconnected S) (h : Wave w κ u v S) {a b : ℝ} (ha : a ∈ closure S) (hb : b ∈ closure S) :
    amp w κ u v a = PM (κ * (b - a)) *ᵥ amp w κ u v b := by
  have key : ∀ s : ℂ, s ^ 2 = 1 →
      (u a - s * (v a / (w * κ))) * Complex.exp (s * κ * a) = (u b - s * (v b / (w * κ))) * Complex.exp (s * κ * b) := by
    intro s hs
    refine const_closure (F := fun y => (u y - s * (v y / (w * κ))) * Complex.exp (s * κ * y)) (by fun_prop) ho hp ?_ ha hb
    intro y hy
    obtain ⟨h1, h2⟩ := h y hy
    refine ((h1.sub ((h2.div_const (w * κ)).const_mul s)).mul (hasDerivAt_cexp (s * κ) y)).congr_deriv ?_
    simp only [Pi.sub_apply]
    field_simp
    linear_combination (-(Complex.exp (s * κ * y) * v y)) * hs
  have k1 := key 1 (by norm_num)
  have k2 := key (-1) (by norm_num)
  have solve : ∀ {x y : ℂ} (c : ℂ), x * Complex.exp (c * a) = y * Complex.exp (c * b) → x = Complex.exp (c * (b - a)) * y := by
    intro x y c hxy
    have : x = y * Complex.exp (c * b) * Complex.exp (-(c * a)) := by
      rw [← hxy, mul_assoc, ← Complex.exp_add]
      simp
    rw [this, mul_assoc, ← Complex.exp_add, mul_comm]
    congr 2
    ring
  have e1 := solve _ k1
  have e2 := solve _ k2
  ext i
  fin_cases i
  · simp only [amp, PM, mulVec, dotProduct, Fin.sum_univ_two, of_apply, cons_val', cons_val_zero, cons_val_one,
      cons_val_fin_one, Fin.zero_eta, Fin.isValue, zero_mul, add_zero]
    simp only [one_mul] at e1
    rw [e1]
    ring
  · simp only [amp, PM, mulVec, dotProduct, Fin.sum_univ_two, of_apply, cons_val', cons_val_zero, cons_val_one,
      cons_val_fin_one, Fin.mk_one, Fin.isValue, zero_mul, zero_add]
    simp only [neg_mul, one_mul, sub_neg_eq_add] at e2
    rw [e2]
    ring

theorem amp_interface {w κ w' κ' : ℂ} (hw : w' ≠ 0) (hκ : κ' ≠ 0) (u v : ℝ → ℂ) (y : ℝ) :
    amp w κ u v y = TM ((w * κ)⁻¹ / (w' * κ')⁻¹) *ᵥ amp w' κ' u v y := by
  have h : v y / (w * κ) = (w * κ)⁻¹ / (w' * κ')⁻¹ * (v y / (w' * κ')) := by
    field_simp
  ext i
  fin_cases i
  · simp only [amp, TM, mulVec, dotProduct, Fin.sum_univ_two, of_apply, cons_val', cons_val_zero, cons_val_one,
      cons_val_fin_one, Fin.zero_eta, Fin.isValue]
    rw [h]
    ring
  · simp only [amp, TM, mulVec, dotProduct, Fin.sum_univ_two, of_apply, cons_val', cons_val_zero, cons_val_one,
      cons_val_fin_one, Fin.mk_one, Fin.isValue]
    rw [h]
    ring

theorem thickness_cons (l : ℂ × ℝ) (L : List (ℂ × ℝ)) : thickness (l :: L) = l.2 + thickness L := by
  simp [thickness]

theorem thickness_nonneg {L : List (ℂ × ℝ)} (hL : ∀ l ∈ L, 0 ≤ l.2) : 0 ≤ thickness L :=
  List.sum_nonneg (by simpa using fun b a h => hL (a, b) h)

/-- Matrix of a stack for the weights `w` and wave numbers `κ`. -/
noncomputable def fieldMat (w κ : ℂ → ℂ) (env : ℂ) (L : List (ℂ × ℝ)) (sub : ℂ) : CMat :=
  gen (w env * κ env)⁻¹ (L.map fun l => ((w l.1 * κ l.1)⁻¹, κ l.1 * l.2)) (w sub * κ sub)⁻¹

theorem layer_amp {w κ : ℂ} (hw : w ≠ 0) (hκ : κ ≠ 0) {u v : ℝ → ℂ} (hu : Continuous u) (hv : Continuous v) {y t : ℝ}
    (ht : 0 ≤ t) (h : Wave w κ u v (Ioo y (y + t))) {z : ℝ} (h1 : y ≤ z) (h2 : z ≤ y + t) :
    amp w κ u v z = PM (κ * ((y + t : ℝ) - z)) *ᵥ amp w κ u v (y + t) := by
  rcases ht.eq_or_lt with rfl | ht
  · have : z = y + 0 := le_antisymm h2 (by linarith)
    rw [this]
    simp
  · have hc : closure (Ioo y (y + t)) = Icc y (y + t) := closure_Ioo (by linarith)
    exact wave_amp hw hκ hu hv isOpen_Ioo isPreconnected_Ioo h (by rw [hc]; exact ⟨h1, h2⟩) (by rw [hc]; constructor <;> linarith)

theorem layers_amp (w κ : ℂ → ℂ) {u v : ℝ → ℂ} (hu : Continuous u) (hv : Continuous v) (env : ℂ) (L : List (ℂ × ℝ)) (sub : ℂ)
    (hw : ∀ l ∈ L, w l.1 ≠ 0) (hκ : ∀ l ∈ L, κ l.1 ≠ 0) (hws : w sub ≠ 0) (hκs : κ sub ≠ 0) (ht : ∀ l ∈ L, 0 ≤ l.2) (y : ℝ)
    (h : LayersFill (fun e S => Wave (w e) (κ e) u v S) y L sub) :
    amp (w env) (κ env) u v y = fieldMat w κ env L sub *ᵥ amp (w sub) (κ sub) u v (y + thickness L) := by
  induction L generalizing env y with
  | nil =>
    simp only [fieldMat, List.map_nil, gen, thickness, List.sum_nil, add_zero]
    exact amp_interface hws hκs u v y
  | cons l L ih =>
    obtain ⟨e, t⟩ := l
    have he := hw _ List.mem_cons_self
    have hk := hκ _ List.mem_cons_self
    have ih := ih e (fun l hl => hw l (List.mem_cons_of_mem _ hl)) (fun l hl => hκ l (List.mem_cons_of_mem _ hl))
      (fun l hl => ht l (List.mem_cons_of_mem _ hl)) (y + t) h.2
    have ht0 : 0 ≤ t := ht _ List.mem_cons_self
    have e1 : κ e * (((y + t : ℝ) : ℂ) - y) = κ e * t := by
      push_cast
      ring
    rw [amp_interface he hk u v y, layer_amp he hk hu hv ht0 h.1 le_rfl (by linarith), ih, thickness_cons, mulVec_mulVec,
      mulVec_mulVec, e1, ← add_assoc]
    simp only [fieldMat, List.map_cons, gen]
    rw [Matrix.mul_assoc]

/-- Without waves in the substrate there are none in the layers. -/
theorem layers_zero (w κ : ℂ → ℂ) {u v : ℝ → ℂ} (hu : Continuous u) (hv : Continuous v) (L : List (ℂ × ℝ)) (sub : ℂ)
    (hw : ∀ l ∈ L, w l.1 ≠ 0) (hκ : ∀ l ∈ L, κ l.1 ≠ 0) (hws : w sub ≠ 0) (hκs : κ sub ≠ 0) (ht : ∀ l ∈ L, 0 ≤ l.2) (y : ℝ)
    (h : LayersFill (fun e S => Wave (w e) (κ e) u v S) y L sub) (h0 : u (y + thickness L) = 0) (h1 : v (y + thickness L) = 0)
    {z : ℝ} (hz : y ≤ z) : u z = 0 ∧ v z = 0 := by
  have done : ∀ {w κ : ℂ}, w ≠ 0 → κ ≠ 0 → ∀ {x : ℂ} {a b : ℝ}, amp w κ u v a = PM x *ᵥ amp w κ u v b → u b = 0 → v b = 0 →
      u a = 0 ∧ v a = 0 := by
    intro w κ hw hκ x a b h hu0 hv0
    have : amp w κ u v b = 0 := by
      ext i
      fin_cases i <;> simp [amp, hu0, hv0]
    rw [this, mulVec_zero] at h
    rw [← amp_sum w κ u v a, ← amp_diff hw hκ u v a, h]
    simp
  induction L generalizing y z with
  | nil =>
    simp only [thickness, List.map_nil, List.sum_nil, add_zero] at h0 h1
    have hc : closure (Ioi y) = Ici y := closure_Ioi y
    exact done hws hκs (wave_amp hws hκs hu hv isOpen_Ioi isPreconnected_Ioi h (a := z) (b := y) (by rw [hc]; exact hz)
      (by rw [hc]; exact self_mem_Ici)) h0 h1
  | cons l L ih =>
    obtain ⟨e, t⟩ := l
    have ht0 : 0 ≤ t := ht _ List.mem_cons_self
    have e1 : y + thickness ((e, t) :: L) = y + t + thickness L := by rw [thickness_cons, add_assoc]
    rw [e1] at h0 h1
    have ih : ∀ {z : ℝ}, y + t ≤ z → u z = 0 ∧ v z = 0 := fun {z} hz => ih (fun l hl => hw l (List.mem_cons_of_mem _ hl))
      (fun l hl => hκ l (List.mem_cons_of_mem _ hl)) (fun l hl => ht l (List.mem_cons_of_mem _ hl)) (y + t) h.2 h0 h1 hz
    rcases le_total (y + t) z with hz' | hz'
    · exact ih hz'
    · obtain ⟨i0, i1⟩ := ih le_rfl
      exact done (hw _ List.mem_cons_self) (hκ _ List.mem_cons_self)
        (layer_amp (hw _ List.mem_cons_self) (hκ _ List.mem_cons_self) hu hv ht0 h.1 hz hz') i0 i1

/-! ## Existence -/

theorem Wave.congr {w κ : ℂ} {u v u' v' : ℝ → ℂ} {S : Set ℝ} (ho : IsOpen S) (h : Wave w κ u v S) (hu : EqOn u' u S)
    (hv : EqOn v' v S) : Wave w κ u' v' S := fun y hy => by
  have hn := ho.mem_nhds hy
  obtain ⟨h1, h2⟩ := h y hy
  rw [hu hy, hv hy]
  exact ⟨h1.congr_of_eventuallyEq (hu.eventuallyEq_of_mem hn), h2.congr_of_eventuallyEq (hv.eventuallyEq_of_mem hn)⟩

theorem LayersFill.congr {w κ : ℂ → ℂ} {u v u' v' : ℝ → ℂ} {L : List (ℂ × ℝ)} {sub : ℂ} (ht : ∀ l ∈ L, 0 ≤ l.2) {y : ℝ}
    (h : LayersFill (fun e S => Wave (w e) (κ e) u v S) y L sub) (hu : EqOn u' u (Ioi y)) (hv : EqOn v' v (Ioi y)) :
    LayersFill (fun e S => Wave (w e) (κ e) u' v' S) y L sub := by
  induction L generalizing y with
  | nil => exact Wave.congr isOpen_Ioi h hu hv
  | cons l L ih =>
    obtain ⟨e, t⟩ := l
    have ht0 : 0 ≤ t := ht _ List.mem_cons_self
    refine ⟨h.1.congr isOpen_Ioo (hu.mono Ioo_subset_Ioi_self) (hv.mono Ioo_subset_Ioi_self), ?_⟩
    have hs : Ioi (y + t) ⊆ Ioi y := Ioi_subset_Ioi (by linarith)
    exact ih (fun l hl => ht l (List.mem_cons_of_mem _ hl)) h.2 (hu.mono hs) (hv.mono hs)

/-- Waves with given amplitudes at depth `y`. -/
theorem wave_exists {w κ : ℂ} (hw : w ≠ 0) (hκ : κ ≠ 0) (y : ℝ) (a b : ℂ) :
    ∃ u v : ℝ → ℂ, Continuous u ∧ Continuous v ∧ Wave w κ u v univ ∧ u y = a ∧ v y = b := by
  set A := (a - b / (w * κ)) / 2
  set B := (a + b / (w * κ)) / 2
  refine ⟨fun x => A * Complex.exp (-κ * x) * Complex.exp (κ * y) + B * Complex.exp (κ * x) * Complex.exp (-κ * y),
    fun x => w * κ * (B * Complex.exp (κ * x) * Complex.exp (-κ * y) - A * Complex.exp (-κ * x) * Complex.exp (κ * y)),
    by fun_prop, by fun_prop, fun x _ => ?_, ?_, ?_⟩
  · have h1 := ((hasDerivAt_cexp (-κ) x).const_mul A).mul_const (Complex.exp (κ * y))
    have h2 := ((hasDerivAt_cexp κ x).const_mul B).mul_const (Complex.exp (-κ * y))
    constructor
    · refine (h1.add h2).congr_deriv ?_
      field_simp
      ring
    · refine ((h2.sub h1).const_mul (w * κ)).congr_deriv ?_
      ring
  · have : Complex.exp (-κ * y) * Complex.exp (κ * y) = 1 := by
      rw [← Complex.exp_add]
      simp
    calc _ = (A + B) * (Complex.exp (-κ * y) * Complex.exp (κ * y)) := by ring
      _ = a := by rw [this]; simp only [A, B]; ring
  · have : Complex.exp (-κ * y) * Complex.exp (κ * y) = 1 := by
      rw [← Complex.exp_add]
      simp
    calc _ = w * κ * (B - A) * (Complex.exp (-κ * y) * Complex.exp (κ * y)) := by ring
      _ = b := by rw [this]; simp only [A, B]; field_simp; ring

/-- Put one solution on top of another. -/
theorem glue {u v u₁ v₁ : ℝ → ℂ} (hu : Continuous u) (hv : Continuous v) (hu₁ : Continuous u₁) (hv₁ : Continuous v₁) {y : ℝ}
    (h1 : u y = u₁ y) (h2 : v y = v₁ y) :
    ∃ U V : ℝ → ℂ, Continuous U ∧ Continuous V ∧ EqOn U u (Iic y) ∧ EqOn V v (Iic y) ∧ EqOn U u₁ (Ici y) ∧ EqOn V v₁ (Ici y) := by
  classical
  refine ⟨fun x => if x ≤ y then u x else u₁ x, fun x => if x ≤ y then v x else v₁ x, ?_, ?_, ?_, ?_, ?_, ?_⟩
  · exact hu.if_le hu₁ continuous_id continuous_const fun x hx => by rw [show x = y from hx]; exact h1
  · exact hv.if_le hv₁ continuous_id continuous_const fun x hx => by rw [show x = y from hx]; exact h2
  · exact fun x hx => if_pos hx
  · exact fun x hx => if_pos hx
  · intro x hx
    rcases (show y ≤ x from hx).eq_or_lt with rfl | h
    · simp [h1]
    · exact if_neg (not_le.2 h)
  · intro x hx
    rcases (show y ≤ x from hx).eq_or_lt with rfl | h
    · simp [h2]
    · exact if_neg (not_le.2 h)

theorem layers_exist (w κ : ℂ → ℂ) (L : List (ℂ × ℝ)) (sub : ℂ) (hw : ∀ l ∈ L, w l.1 ≠ 0) (hκ : ∀ l ∈ L, κ l.1 ≠ 0)
    (hws : w sub ≠ 0) (hκs : κ sub ≠ 0) (ht : ∀ l ∈ L, 0 ≤ l.2) (y : ℝ) (a b : ℂ) :
    ∃ u v : ℝ → ℂ, Continuous u ∧ Continuous v ∧ LayersFill (fun e S => Wave (w e) (κ e) u v S) y L sub ∧
      u (y + thickness L) = a ∧ v (y + thickness L) = b := by
  induction L generalizing y with
  | nil =>
    obtain ⟨u, v, hu, hv, h, h1, h2⟩ := wave_exists hws hκs y a b
    exact ⟨u, v, hu, hv, fun x _ => h x (mem_univ x), by simpa [thickness] using h1, by simpa [thickness] using h2⟩
  | cons l L ih =>
    obtain ⟨e, t⟩ := l
    have ht0 : 0 ≤ t := ht _ List.mem_cons_self
    have ht' : ∀ l ∈ L, 0 ≤ l.2 := fun l hl => ht l (List.mem_cons_of_mem _ hl)
    obtain ⟨u₁, v₁, hu₁, hv₁, h₁, ha, hb⟩ := ih (fun l hl => hw l (List.mem_cons_of_mem _ hl))
      (fun l hl => hκ l (List.mem_cons_of_mem _ hl)) ht' (y + t)
    obtain ⟨u, v, hu, hv, h, h1, h2⟩ := wave_exists (hw _ List.mem_cons_self) (hκ _ List.mem_cons_self) (y + t)
      (u₁ (y + t)) (v₁ (y + t))
    obtain ⟨U, V, hU, hV, e1, e2, e3, e4⟩ := glue hu hv hu₁ hv₁ h1 h2
    have e0 : y + thickness ((e, t) :: L) = y + t + thickness L := by rw [thickness_cons, add_assoc]
    have hm : y + t + thickness L ∈ Ici (y + t) := by
      have := thickness_nonneg ht'
      simpa using this
    have s : Ioo y (y + t) ⊆ Iic (y + t) := fun x hx => hx.2.le
    refine ⟨U, V, hU, hV, ⟨?_, ?_⟩, by rw [e0, e3 hm, ha], by rw [e0, e4 hm, hb]⟩
    · exact Wave.congr isOpen_Ioo (fun x _ => h x (mem_univ x)) (e1.mono s) (e2.mono s)
    · exact h₁.congr ht' (e3.mono Ioi_subset_Ici_self) (e4.mono Ioi_subset_Ici_self)

theorem media_exist (w κ : ℂ → ℂ) (env : ℂ) (L : List (ℂ × ℝ)) (sub : ℂ) (hwe : w env ≠ 0) (hκe : κ env ≠ 0)
    (hw : ∀ l ∈ L, w l.1 ≠ 0) (hκ : ∀ l ∈ L, κ l.1 ≠ 0) (hws : w sub ≠ 0) (hκs : κ sub ≠ 0) (ht : ∀ l ∈ L, 0 ≤ l.2) (a b : ℂ) :
    ∃ u v : ℝ → ℂ, Continuous u ∧ Continuous v ∧ MediaFill (fun e S => Wave (w e) (κ e) u v S) env L sub ∧
      u (thickness L) = a ∧ v (thickness L) = b := by
  obtain ⟨u₁, v₁, hu₁, hv₁, h₁, ha, hb⟩ := layers_exist w κ L sub hw hκ hws hκs ht 0 a b
  obtain ⟨u, v, hu, hv, h, h1, h2⟩ := wave_exists hwe hκe 0 (u₁ 0) (v₁ 0)
  obtain ⟨U, V, hU, hV, e1, e2, e3, e4⟩ := glue hu hv hu₁ hv₁ h1 h2
  rw [zero_add] at ha hb
  have hm : thickness L ∈ Ici (0 : ℝ) := thickness_nonneg ht
  refine ⟨U, V, hU, hV, ⟨?_, ?_⟩, by rw [e3 hm, ha], by rw [e4 hm, hb]⟩
  · exact Wave.congr isOpen_Iio (fun x _ => h x (mem_univ x)) (e1.mono Iio_subset_Iic_self) (e2.mono Iio_subset_Iic_self)
  · exact h₁.congr ht (e3.mono Ioi_subset_Ici_self) (e4.mono Ioi_subset_Ici_self)

/-! ## Above and below the layers -/

theorem wave_form {w κ : ℂ} (hw : w ≠ 0) (hκ : κ ≠ 0) {u v : ℝ → ℂ} (hu : Continuous u) (hv : Continuous v) {S : Set ℝ}
    (ho : IsOpen S) (hp : IsPreconnected S) (h : Wave w κ u v S) {a b : ℝ} (ha : a ∈ closure S) (hb : b ∈ closure S) :
    u a = amp w κ u v b 0 * Complex.exp (-κ * (a - b)) + amp w κ u v b 1 * Complex.exp (κ * (a - b)) ∧
    v a = w * κ * (amp w κ u v b 1 * Complex.exp (κ * (a - b)) - amp w κ u v b 0 * Complex.exp (-κ * (a - b))) := by
  have h := wave_amp hw hκ hu hv ho hp h ha hb
  have h0 := congrFun h 0
  have h1 := congrFun h 1
  simp only [PM, mulVec, dotProduct, Fin.sum_univ_two, of_apply, cons_val', cons_val_zero, cons_val_one, cons_val_fin_one,
    zero_mul, add_zero, zero_add] at h0 h1
  have e0 : κ * ((b : ℂ) - a) = -κ * (a - b) := by ring
  have e1 : -(κ * ((b : ℂ) - a)) = κ * (a - b) := by ring
  rw [e0] at h0
  rw [e1] at h1
  rw [← amp_sum w κ u v a, ← amp_diff hw hκ u v a, h0, h1]
  constructor <;> ring

/-- Amplitudes from the form of the wave. -/
theorem form_amp {w κ : ℂ} (hw : w ≠ 0) (hκ : κ ≠ 0) {u v : ℝ → ℂ} (hu : Continuous u) (hv : Continuous v) {S : Set ℝ}
    (ho : IsOpen S) (h : Wave w κ u v S) {y₀ : ℝ} (h0 : y₀ ∈ closure S) {a b : ℂ}
    (hf : ∀ y ∈ S, u y = a * Complex.exp (-κ * (y - y₀)) + b * Complex.exp (κ * (y - y₀))) : amp w κ u v y₀ = ![a, b] := by
  have hd : ∀ (c : ℂ) (y : ℝ), HasDerivAt (fun y : ℝ => Complex.exp (c * ((y : ℂ) - y₀))) (c * Complex.exp (c * (y - y₀))) y := by
    intro c y
    have h1 : HasDerivAt (fun y : ℝ => c * ((y : ℂ) - y₀)) c y := by
      simpa using ((hasDerivAt_id y).ofReal_comp.sub_const (y₀ : ℂ)).const_mul c
    simpa [mul_comm] using h1.cexp
  have hv' : EqOn v (fun y => w * κ * (b * Complex.exp (κ * (y - y₀)) - a * Complex.exp (-κ * (y - y₀)))) S := by
    intro y hy
    have d1 : HasDerivAt u (a * (-κ * Complex.exp (-κ * (y - y₀))) + b * (κ * Complex.exp (κ * (y - y₀)))) y :=
      (((hd (-κ) y).const_mul a).add ((hd κ y).const_mul b)).congr_of_eventuallyEq
        ((show EqOn u _ S from hf).eventuallyEq_of_mem (ho.mem_nhds hy))
    have := (h y hy).1.unique d1
    rw [div_eq_iff hw] at this
    simp only [this]
    ring
  have u0 : u y₀ = a + b := by
    have := (show EqOn u _ S from hf).closure hu (by fun_prop) h0
    simpa using this
  have v0 : v y₀ = w * κ * (b - a) := by
    have := hv'.closure hv (by fun_prop) h0
    simpa using this
  ext i
  fin_cases i
  · simp only [amp, u0, v0, Fin.zero_eta, Fin.isValue, cons_val_zero]
    field_simp
    ring
  · simp only [amp, u0, v0, Fin.mk_one, Fin.isValue, cons_val_one, cons_val_zero]
    field_simp
    ring

section Media

variable {w κ : ℂ → ℂ} {env : ℂ} {L : List (ℂ × ℝ)} {sub : ℂ}

/-- Weights and wave numbers do not vanish, and thicknesses are not negative. -/
structure MediaOk (w κ : ℂ → ℂ) (env : ℂ) (L : List (ℂ × ℝ)) (sub : ℂ) : Prop where
  we : w env ≠ 0
  ke : κ env ≠ 0
  wl : ∀ l ∈ L, w l.1 ≠ 0
  kl : ∀ l ∈ L, κ l.1 ≠ 0
  ws : w sub ≠ 0
  ks : κ sub ≠ 0
  t : ∀ l ∈ L, 0 ≤ l.2

theorem MediaOk.amp (h : MediaOk w κ env L sub) {u v : ℝ → ℂ} (hu : Continuous u) (hv : Continuous v)
    (hf : MediaFill (fun e S => Wave (w e) (κ e) u v S) env L sub) :
    amp (w env) (κ env) u v 0 = fieldMat w κ env L sub *ᵥ Snompy.amp (w sub) (κ sub) u v (thickness L) := by
  have := layers_amp w κ hu hv env L sub h.wl h.kl h.ws h.ks h.t 0 hf.2
  rwa [zero_add] at this

theorem layers_last {P : ℂ → Set ℝ → Prop} {L : List (ℂ × ℝ)} {sub : ℂ} {y : ℝ} (h : LayersFill P y L sub) :
    P sub (Ioi (y + thickness L)) := by
  induction L generalizing y with
  | nil =>
    have e : y + thickness [] = y := by simp [thickness]
    rw [e]
    exact h
  | cons l L ih =>
    rw [thickness_cons, ← add_assoc]
    exact ih h.2

theorem media_last {P : ℂ → Set ℝ → Prop} (h : MediaFill P env L sub) : P sub (Ioi (thickness L)) := by
  simpa using layers_last h.2

theorem MediaOk.above (h : MediaOk w κ env L sub) {u v : ℝ → ℂ} (hu : Continuous u) (hv : Continuous v)
    (hf : MediaFill (fun e S => Wave (w e) (κ e) u v S) env L sub) {y : ℝ} (hy : y ≤ 0) :
    u y = Snompy.amp (w env) (κ env) u v 0 0 * Complex.exp (-κ env * y) +
      Snompy.amp (w env) (κ env) u v 0 1 * Complex.exp (κ env * y) ∧
    v y = w env * κ env * (Snompy.amp (w env) (κ env) u v 0 1 * Complex.exp (κ env * y) -
      Snompy.amp (w env) (κ env) u v 0 0 * Complex.exp (-κ env * y)) := by
  have hc : closure (Iio (0 : ℝ)) = Iic 0 := closure_Iio 0
  have := wave_form h.we h.ke hu hv isOpen_Iio isPreconnected_Iio hf.1 (a := y) (b := 0) (by rw [hc]; exact hy)
    (by rw [hc]; exact self_mem_Iic)
  simpa using this

theorem MediaOk.below (h : MediaOk w κ env L sub) {u v : ℝ → ℂ} (hu : Continuous u) (hv : Continuous v)
    (hf : MediaFill (fun e S => Wave (w e) (κ e) u v S) env L sub) {y : ℝ} (hy : thickness L ≤ y) :
    u y = Snompy.amp (w sub) (κ sub) u v (thickness L) 0 * Complex.exp (-κ sub * (y - thickness L)) +
      Snompy.amp (w sub) (κ sub) u v (thickness L) 1 * Complex.exp (κ sub * (y - thickness L)) ∧
    v y = w sub * κ sub * (Snompy.amp (w sub) (κ sub) u v (thickness L) 1 * Complex.exp (κ sub * (y - thickness L)) -
      Snompy.amp (w sub) (κ sub) u v (thickness L) 0 * Complex.exp (-κ sub * (y - thickness L))) := by
  have hc : closure (Ioi (thickness L)) = Ici (thickness L) := closure_Ioi _
  exact wave_form h.ws h.ks hu hv isOpen_Ioi isPreconnected_Ioi (media_last hf) (by rw [hc]; exact hy)
    (by rw [hc]; exact self_mem_Ici)

/-- Amplitudes above from those below. -/
theorem MediaOk.amps (h : MediaOk w κ env L sub) {u v : ℝ → ℂ} (hu : Continuous u) (hv : Continuous v)
    (hf : MediaFill (fun e S => Wave (w e) (κ e) u v S) env L sub)
    (h1 : Snompy.amp (w sub) (κ sub) u v (thickness L) 1 = 0) :
    Snompy.amp (w env) (κ env) u v 0 0 = fieldMat w κ env L sub 0 0 * Snompy.amp (w sub) (κ sub) u v (thickness L) 0 ∧
    Snompy.amp (w env) (κ env) u v 0 1 = fieldMat w κ env L sub 1 0 * Snompy.amp (w sub) (κ sub) u v (thickness L) 0 := by
  rw [h.amp hu hv hf]
  simp only [mulVec, dotProduct, Fin.sum_univ_two, h1, mul_zero, add_zero, and_self]

theorem MediaOk.amp_above (h : MediaOk w κ env L sub) {u v : ℝ → ℂ} (hu : Continuous u) (hv : Continuous v)
    (hf : MediaFill (fun e S => Wave (w e) (κ e) u v S) env L sub) {a b : ℂ}
    (ha : ∀ y < 0, u y = a * Complex.exp (-κ env * y) + b * Complex.exp (κ env * y)) :
    Snompy.amp (w env) (κ env) u v 0 = ![a, b] := by
  refine form_amp h.we h.ke hu hv isOpen_Iio hf.1 (by rw [closure_Iio]; exact self_mem_Iic) fun y hy => ?_
  simpa using ha y hy

theorem MediaOk.amp_below (h : MediaOk w κ env L sub) {u v : ℝ → ℂ} (hu : Continuous u) (hv : Continuous v)
    (hf : MediaFill (fun e S => Wave (w e) (κ e) u v S) env L sub) {c : ℂ}
    (hc : ∀ y > thickness L, u y = c * Complex.exp (-κ sub * (y - thickness L))) :
    Snompy.amp (w sub) (κ sub) u v (thickness L) = ![c, 0] := by
  refine form_amp h.ws h.ks hu hv isOpen_Ioi (media_last hf) (by rw [closure_Ioi]; exact self_mem_Ici) fun y hy => ?_
  rw [hc y hy, zero_mul, add_zero]

/-- A solution with a given wave in the substrate. -/
theorem MediaOk.exists (h : MediaOk w κ env L sub) (c : ℂ) :
    ∃ u v : ℝ → ℂ, Continuous u ∧ Continuous v ∧ MediaFill (fun e S => Wave (w e) (κ e) u v S) env L sub ∧
      Snompy.amp (w sub) (κ sub) u v (thickness L) = ![c, 0] := by
  obtain ⟨u, v, hu, hv, hf, h1, h2⟩ := media_exist w κ env L sub h.we h.ke h.wl h.kl h.ws h.ks h.t c (-(w sub * κ sub * c))
  have h3 := h.ws
  have h4 := h.ks
  refine ⟨u, v, hu, hv, hf, ?_⟩
  ext i
  fin_cases i
  · simp only [Snompy.amp, h1, h2, Fin.zero_eta, Fin.isValue, cons_val_zero]
    field_simp
    ring
  · simp only [Snompy.amp, h1, h2, Fin.mk_one, Fin.isValue, cons_val_one, cons_val_zero]
    field_simp
    ring

/-- No wave in the substrate, no field. -/
theorem MediaOk.zero (h : MediaOk w κ env L sub) {u v : ℝ → ℂ} (hu : Continuous u) (hv : Continuous v)
    (hf : MediaFill (fun e S => Wave (w e) (κ e) u v S) env L sub)
    (h0 : Snompy.amp (w sub) (κ sub) u v (thickness L) = 0) (y : ℝ) : u y = 0 ∧ v y = 0 := by
  have u0 : u (thickness L) = 0 := by rw [← amp_sum (w sub) (κ sub) u v, h0]; simp
  have v0 : v (thickness L) = 0 := by rw [← amp_diff h.ws h.ks u v, h0]; simp
  rcases le_total 0 y with hy | hy
  · exact layers_zero w κ hu hv L sub h.wl h.kl h.ws h.ks h.t 0 hf.2 (by simpa using u0) (by simpa using v0) hy
  · have := h.above hu hv hf hy
    rw [h.amp hu hv hf, h0, mulVec_zero] at this
    simpa using this

theorem MediaOk.coefs (h : MediaOk w κ env L sub) (hM : fieldMat w κ env L sub 0 0 ≠ 0) {u v : ℝ → ℂ} (hu : Continuous u)
    (hv : Continuous v) (hf : MediaFill (fun e S => Wave (w e) (κ e) u v S) env L sub) {a b c : ℂ}
    (ha : ∀ y < 0, u y = a * Complex.exp (-κ env * y) + b * Complex.exp (κ env * y))
    (hc : ∀ y > thickness L, u y = c * Complex.exp (-κ sub * (y - thickness L))) :
    b = fieldMat w κ env L sub 1 0 / fieldMat w κ env L sub 0 0 * a ∧ c = 1 / fieldMat w κ env L sub 0 0 * a := by
  have hb := h.amp_below hu hv hf hc
  have := h.amps hu hv hf (by rw [hb]; simp)
  rw [h.amp_above hu hv hf ha, hb] at this
  simp only [cons_val_zero, cons_val_one] at this
  rw [this.1, this.2]
  constructor <;> field_simp

theorem MediaOk.exists_coefs (h : MediaOk w κ env L sub) (hM : fieldMat w κ env L sub 0 0 ≠ 0) :
    ∃ u v : ℝ → ℂ, Continuous u ∧ Continuous v ∧ MediaFill (fun e S => Wave (w e) (κ e) u v S) env L sub ∧
      (∀ y ≤ 0, u y = Complex.exp (-κ env * y) +
        fieldMat w κ env L sub 1 0 / fieldMat w κ env L sub 0 0 * Complex.exp (κ env * y)) ∧
      ∀ y ≥ thickness L, u y = 1 / fieldMat w κ env L sub 0 0 * Complex.exp (-κ sub * (y - thickness L)) := by
  obtain ⟨u, v, hu, hv, hf, hb⟩ := h.exists (1 / fieldMat w κ env L sub 0 0)
  have := h.amps hu hv hf (by rw [hb]; simp)
  rw [hb] at this
  simp only [cons_val_zero] at this
  refine ⟨u, v, hu, hv, hf, fun y hy => ?_, fun y hy => ?_⟩
  · rw [(h.above hu hv hf hy).1, this.1, this.2, mul_one_div_cancel hM, one_mul, mul_one_div]
  · rw [(h.below hu hv hf hy).1, hb]
    simp

/-- Fields without a source. -/
theorem MediaOk.mode (h : MediaOk w κ env L sub) :
    fieldMat w κ env L sub 0 0 = 0 ↔
      ∃ u v : ℝ → ℂ, Continuous u ∧ Continuous v ∧ MediaFill (fun e S => Wave (w e) (κ e) u v S) env L sub ∧
        (∃ b, ∀ y < 0, u y = b * Complex.exp (κ env * y)) ∧
        (∃ c, ∀ y > thickness L, u y = c * Complex.exp (-κ sub * (y - thickness L))) ∧ ∃ y, u y ≠ 0 := by
  constructor
  · intro h0
    obtain ⟨u, v, hu, hv, hf, hb⟩ := h.exists 1
    have := h.amps hu hv hf (by rw [hb]; simp)
    refine ⟨u, v, hu, hv, hf, ⟨Snompy.amp (w env) (κ env) u v 0 1, fun y hy => ?_⟩, ⟨1, fun y hy => ?_⟩,
      thickness L, ?_⟩
    · rw [(h.above hu hv hf hy.le).1, this.1, h0, zero_mul, zero_mul, zero_add]
    · rw [(h.below hu hv hf hy.le).1, hb]
      simp
    · rw [(h.below hu hv hf le_rfl).1, hb]
      simp
  · rintro ⟨u, v, hu, hv, hf, ⟨b, ha⟩, ⟨c, hc⟩, y, hy⟩
    have hb := h.amp_below hu hv hf hc
    have := h.amps hu hv hf (by rw [hb]; simp)
    rw [h.amp_above hu hv hf (a := 0) (b := b) (by simpa using ha), hb] at this
    simp only [cons_val_zero, cons_val_one] at this
    rcases mul_eq_zero.1 this.1.symm with h0 | h0
    · exact h0
    · refine absurd (h.zero hu hv hf ?_ y).1 hy
      rw [hb, h0]
      ext i
      fin_cases i <;> simp

end Media

end Snompy
