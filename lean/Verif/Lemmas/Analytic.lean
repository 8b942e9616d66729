import Verif.Lemmas.Continuity
import Verif.Spec.Analytic
import Mathlib.Analysis.Analytic.Constructions
import Mathlib.Analysis.SpecialFunctions.Complex.Analytic

/-!
# Analytic dependence of numbers and computations

Arithmetic that returns `nan` whenever it is not defined is analytic wherever it returns a number.  `FPA` says so in the form that the
lemmas of `Lemmas/Continuity.lean` on lists and computations expect.
-/

namespace Snompy

open Filter Topology

variable {𝕜 : Type} [NontriviallyNormedField 𝕜] [NormedAlgebra 𝕜 ℂ] {E : Type} [NormedAddCommGroup E] [NormedSpace 𝕜 E] {w : E}
variable {β γ δ : Type} [ToC β] [ToC γ] [ToC δ]

/-- If the value at `w` is a number then so are the values near `w`, and they are an analytic function. -/
def FPA (𝕜 : Type) [NontriviallyNormedField 𝕜] [NormedAlgebra 𝕜 ℂ] {E : Type} [NormedAddCommGroup E] [NormedSpace 𝕜 E] (w : E)
    (x : E → FP β) (x0 : FP β) : Prop :=
  ∀ v0, x0 = .num v0 → ∃ v : E → β, (∀ᶠ a in 𝓝 w, x a = .num (v a)) ∧ v w = v0 ∧ AnalyticAt 𝕜 (fun a => ToC.toC (v a)) w

theorem toC_real (x : ℝ) : ToC.toC x = (x : ℂ) := rfl

theorem toC_cplx (x : ℂ) : ToC.toC x = x := rfl

theorem continuous_of_toC {v : E → ℝ} (h : AnalyticAt 𝕜 (fun a => ToC.toC (v a)) w) : ContinuousAt v w := by
  have := Complex.continuous_re.continuousAt.comp h.continuousAt
  simpa [Function.comp_def, toC_real] using this

namespace FPA

theorem num {v : E → β} (h : AnalyticAt 𝕜 (fun a => ToC.toC (v a)) w) : FPA 𝕜 w (fun a => .num (v a)) (.num (v w)) := by
  intro u hu
  obtain rfl := FP.num.inj hu
  exact ⟨v, Eventually.of_forall fun _ => rfl, rfl, h⟩

theorem const (x : FP β) : FPA 𝕜 w (fun _ => x) x := by
  intro u hu
  subst hu
  exact ⟨fun _ => u, Eventually.of_forall fun _ => rfl, rfl, analyticAt_const⟩

theorem congr {x y : E → FP β} {x0 : FP β} (h : FPA 𝕜 w x x0) (e : ∀ᶠ a in 𝓝 w, y a = x a) : FPA 𝕜 w y x0 := by
  intro u hu
  obtain ⟨v, h1, h2⟩ := h u hu
  exact ⟨v, by filter_upwards [h1, e] with a ha hb; rw [hb, ha], h2⟩

theorem map {x : E → FP β} {x0 : FP β} {f : β → γ} (g : ℂ → ℂ) (hg : ∀ b, ToC.toC (f b) = g (ToC.toC b))
    (ha : ∀ z, AnalyticAt 𝕜 g z) (h : FPA 𝕜 w x x0) : FPA 𝕜 w (fun a => (x a).map f) (x0.map f) := by
  intro u hu
  cases x0 with
  | nan => cases hu
  | num b =>
    obtain rfl := FP.num.inj hu
    obtain ⟨v, h1, rfl, h3⟩ := h b rfl
    refine ⟨fun a => f (v a), by filter_upwards [h1] with a ha; rw [ha]; rfl, rfl, ?_⟩
    simp only [hg]
    exact (ha _).comp h3

theorem op2 {x : E → FP β} {x0 : FP β} {y : E → FP γ} {y0 : FP γ} {op : FP β → FP γ → FP δ} {f : β → γ → δ} (g : ℂ → ℂ → ℂ)
    (hop : ∀ a b, op (.num a) (.num b) = .num (f a b)) (hn1 : ∀ b, op .nan b = .nan) (hn2 : ∀ a, op a .nan = .nan)
    (hg : ∀ b c, ToC.toC (f b c) = g (ToC.toC b) (ToC.toC c))
    (ha : ∀ u v : E → ℂ, AnalyticAt 𝕜 u w → AnalyticAt 𝕜 v w → AnalyticAt 𝕜 (fun a => g (u a) (v a)) w)
    (hx : FPA 𝕜 w x x0) (hy : FPA 𝕜 w y y0) : FPA 𝕜 w (fun a => op (x a) (y a)) (op x0 y0) := by
  intro u hu
  cases x0 with
  | nan => rw [hn1] at hu; cases hu
  | num b =>
    cases y0 with
    | nan => rw [hn2] at hu; cases hu
    | num c =>
      rw [hop] at hu
      obtain rfl := FP.num.inj hu
      obtain ⟨v, h1, rfl, h3⟩ := hx b rfl
      obtain ⟨u, h4, rfl, h6⟩ := hy c rfl
      refine ⟨fun a => f (v a) (u a), by filter_upwards [h1, h4] with a ha hb; rw [ha, hb, hop], rfl, ?_⟩
      simp only [hg]
      exact ha _ _ h3 h6

section real
variable {x y : E → FP ℝ} {x0 y0 : FP ℝ}

theorem add (hx : FPA 𝕜 w x x0) (hy : FPA 𝕜 w y y0) : FPA 𝕜 w (fun a => x a + y a) (x0 + y0) :=
  op2 (op := (· + ·)) (· + ·) (fun _ _ => rfl) FP.nan_add FP.add_nan (fun b c => by simp [toC_real]) (fun _ _ h1 h2 => h1.add h2) hx hy

theorem sub (hx : FPA 𝕜 w x x0) (hy : FPA 𝕜 w y y0) : FPA 𝕜 w (fun a => x a - y a) (x0 - y0) :=
  op2 (op := (· - ·)) (· - ·) (fun _ _ => rfl) FP.nan_sub FP.sub_nan (fun b c => by simp [toC_real]) (fun _ _ h1 h2 => h1.sub h2) hx hy

theorem mul (hx : FPA 𝕜 w x x0) (hy : FPA 𝕜 w y y0) : FPA 𝕜 w (fun a => x a * y a) (x0 * y0) :=
  op2 (op := (· * ·)) (· * ·) (fun _ _ => rfl) FP.nan_mul FP.mul_nan (fun b c => by simp [toC_real]) (fun _ _ h1 h2 => h1.mul h2) hx hy

end real

section cplx
variable {x y : E → FP ℂ} {x0 y0 : FP ℂ}

theorem cadd (hx : FPA 𝕜 w x x0) (hy : FPA 𝕜 w y y0) : FPA 𝕜 w (fun a => x a + y a) (x0 + y0) :=
  op2 (op := (· + ·)) (· + ·) (fun _ _ => rfl) FP.nan_add FP.add_nan (fun _ _ => rfl) (fun _ _ h1 h2 => h1.add h2) hx hy

theorem csub (hx : FPA 𝕜 w x x0) (hy : FPA 𝕜 w y y0) : FPA 𝕜 w (fun a => x a - y a) (x0 - y0) :=
  op2 (op := (· - ·)) (· - ·) (fun _ _ => rfl) FP.nan_sub FP.sub_nan (fun _ _ => rfl) (fun _ _ h1 h2 => h1.sub h2) hx hy

theorem cmul (hx : FPA 𝕜 w x x0) (hy : FPA 𝕜 w y y0) : FPA 𝕜 w (fun a => x a * y a) (x0 * y0) :=
  op2 (op := (· * ·)) (· * ·) (fun _ _ => rfl) FP.nan_mul FP.mul_nan (fun _ _ => rfl) (fun _ _ h1 h2 => h1.mul h2) hx hy

theorem cdiv (hx : FPA 𝕜 w x x0) (hy : FPA 𝕜 w y y0) : FPA 𝕜 w (fun a => x a / y a) (x0 / y0) := by
  intro u hu
  cases x0 with
  | nan => rw [FP.nan_div] at hu; cases hu
  | num b =>
    cases y0 with
    | nan => rw [FP.div_nan] at hu; cases hu
    | num c =>
      by_cases hc : c = 0
      · subst hc
        rw [FP.num_div_zero] at hu
        cases hu
      · rw [FP.num_div _ hc] at hu
        obtain rfl := FP.num.inj hu
        obtain ⟨v, h1, rfl, h3⟩ := hx b rfl
        obtain ⟨u, h4, rfl, h6⟩ := hy c rfl
        simp only [toC_cplx] at h3 h6
        refine ⟨fun a => v a / u a, ?_, rfl, h3.div h6 hc⟩
        filter_upwards [h1, h4, h6.continuousAt.eventually_ne hc] with a ha hb hc
        rw [ha, hb, FP.num_div _ hc]

theorem zpow (j : ℤ) (hx : FPA 𝕜 w x x0) : FPA 𝕜 w (fun a => FP.zpow (x a) j) (FP.zpow x0 j) := by
  intro u hu
  cases x0 with
  | nan => cases hu
  | num b =>
    obtain ⟨v, h1, rfl, h3⟩ := hx b rfl
    simp only [toC_cplx] at h3
    by_cases hb : v w = 0 ∧ j < 0
    · simp only [FP.zpow, FP.bind_num, if_pos hb] at hu
      cases hu
    · simp only [FP.zpow, FP.bind_num, if_neg hb] at hu
      obtain rfl := FP.num.inj hu
      refine ⟨fun a => v a ^ j, ?_, rfl, ?_⟩
      · by_cases hj : j < 0
        · have h0 : v w ≠ 0 := fun h => hb ⟨h, hj⟩
          filter_upwards [h1, h3.continuousAt.eventually_ne h0] with a ha hc
          rw [ha]
          simp only [FP.zpow, FP.bind_num, if_neg fun h : v a = 0 ∧ j < 0 => hc h.1]
        · filter_upwards [h1] with a ha
          rw [ha]
          simp only [FP.zpow, FP.bind_num, if_neg fun h : v a = 0 ∧ j < 0 => hj h.2]
      · simp only [toC_cplx]
        by_cases hj : j < 0
        · exact h3.zpow fun h => hb ⟨h, hj⟩
        · exact h3.zpow_nonneg (not_lt.1 hj)

theorem jpow (j : ℤ) (h : FPA 𝕜 w x x0) : FPA 𝕜 w (fun a => CplxOps.jpow (x a) j) (CplxOps.jpow x0 j) := h.zpow j

theorem exp (h : FPA 𝕜 w x x0) : FPA 𝕜 w (fun a => CplxOps.exp (x a)) (CplxOps.exp x0) :=
  h.map Complex.exp (fun _ => rfl) fun _ => analyticAt_cexp.restrictScalars

theorem cpow (n : ℕ) (h : FPA 𝕜 w x x0) : FPA 𝕜 w (fun a => CplxOps.cpow (x a) n) (CplxOps.cpow x0 n) :=
  h.map (· ^ n) (fun _ => rfl) fun _ => analyticAt_id.pow n

end cplx

section real
variable {x y : E → FP ℝ} {x0 y0 : FP ℝ}

theorem div (hx : FPA 𝕜 w x x0) (hy : FPA 𝕜 w y y0) : FPA 𝕜 w (fun a => x a / y a) (x0 / y0) := by
  intro u hu
  cases x0 with
  | nan => rw [FP.nan_div] at hu; cases hu
  | num b =>
    cases y0 with
    | nan => rw [FP.div_nan] at hu; cases hu
    | num c =>
      by_cases hc : c = 0
      · subst hc
        rw [FP.num_div_zero] at hu
        cases hu
      · rw [FP.num_div _ hc] at hu
        obtain rfl := FP.num.inj hu
        obtain ⟨v, h1, rfl, h3⟩ := hx b rfl
        obtain ⟨u, h4, rfl, h6⟩ := hy c rfl
        refine ⟨fun a => v a / u a, ?_, rfl, ?_⟩
        · filter_upwards [h1, h4, (continuous_of_toC h6).eventually_ne hc] with a ha hb hc
          rw [ha, hb, FP.num_div _ hc]
        · simp only [toC_real, Complex.ofReal_div] at h3 h6 ⊢
          exact h3.div h6 (by exact_mod_cast hc)

theorem ofR (h : FPA 𝕜 w x x0) : FPA 𝕜 w (fun a => (Snompy.ofR (x a) : FP ℂ)) (Snompy.ofR x0) :=
  h.map (f := fun r : ℝ => (r : ℂ)) id (fun _ => rfl) fun _ => analyticAt_id

theorem npow (n : ℕ) (h : FPA 𝕜 w x x0) : FPA 𝕜 w (fun a => RealOps.npow (x a) n) (RealOps.npow x0 n) :=
  h.map (· ^ n) (fun b => by simp [toC_real]) fun _ => analyticAt_id.pow n

theorem log (h : FPA 𝕜 w x x0) : FPA 𝕜 w (fun a => RealOps.log (x a)) (RealOps.log x0) := by
  intro u hu
  change FP.rlog x0 = _ at hu
  cases x0 with
  | nan => cases hu
  | num b =>
    obtain ⟨v, h1, rfl, h3⟩ := h b rfl
    by_cases hb : 0 < v w
    · simp only [FP.rlog, FP.bind_num, if_pos hb] at hu
      obtain rfl := FP.num.inj hu
      have hc := continuous_of_toC h3
      have hev : ∀ᶠ a in 𝓝 w, 0 < v a := hc.eventually (lt_mem_nhds hb)
      refine ⟨fun a => Real.log (v a), ?_, rfl, ?_⟩
      · filter_upwards [h1, hev] with a ha hp
        change FP.rlog (x a) = _
        rw [ha]
        simp only [FP.rlog, FP.bind_num, if_pos hp]
      · have hl : AnalyticAt 𝕜 Complex.log ((v w : ℝ) : ℂ) := (analyticAt_clog (Complex.ofReal_mem_slitPlane.2 hb)).restrictScalars
        refine (AnalyticAt.comp (f := fun a => ((v a : ℝ) : ℂ)) hl h3).congr ?_
        filter_upwards [hev] with a hp
        simp [toC_real, Complex.ofReal_log hp.le]
    · simp only [FP.rlog, FP.bind_num, if_neg hb] at hu
      cases hu

end real

end FPA

end Snompy
