import Verif.Lemmas.Far
import Mathlib.Analysis.SpecialFunctions.Complex.Log
import Mathlib.Topology.Instances.Matrix

/-!
# Energy balance and the quasistatic limit
-/

namespace Snompy

open Matrix Filter Topology

theorem normSq_add_sub (A B : ℂ) :
    Complex.normSq A - Complex.normSq B = ((A + B) * star (A - B)).re := by
  simp only [Complex.normSq_apply, Complex.star_def, map_sub, Complex.mul_re, Complex.add_re,
    Complex.add_im, Complex.sub_re, Complex.sub_im, Complex.conj_re, Complex.conj_im]
  ring

/-- Energy flux through a lossless stack. -/
theorem gen_lossless (y0 : ℝ) (L : List (ℝ × ℝ)) (ys : ℝ) (hL : ∀ l ∈ L, l.1 ≠ 0) (hs : ys ≠ 0) :
    Complex.normSq (gen y0 (L.map fun l => ((l.1 : ℂ), -Complex.I * (l.2 : ℂ))) ys 0 0) -
      Complex.normSq (gen y0 (L.map fun l => ((l.1 : ℂ), -Complex.I * (l.2 : ℂ))) ys 1 0) =
      y0 / ys := by
  induction L generalizing y0 with
  | nil =>
    rw [normSq_add_sub]
    have h1 : gen y0 [] ys 0 0 + gen y0 [] ys 1 0 = 1 := by simp [gen, TM]; ring
    have h2 : gen y0 [] ys 0 0 - gen y0 [] ys 1 0 = ((y0 / ys : ℝ) : ℂ) := by
      simp [gen, TM]; ring
    simp only [List.map_nil]
    rw [h1, h2]
    simp
  | cons l L ih =>
    obtain ⟨y, x⟩ := l
    have hy : y ≠ 0 := hL (y, x) (by simp)
    have i := ih y fun l hl => hL l (by simp [hl])
    rw [normSq_add_sub]
    simp only [List.map_cons]
    rw [gen_cons_sum, gen_cons_diff]
    set A := gen y (L.map fun l => ((l.1 : ℂ), -Complex.I * (l.2 : ℂ))) ys 0 0
    set B := gen y (L.map fun l => ((l.1 : ℂ), -Complex.I * (l.2 : ℂ))) ys 1 0
    have n1 : Complex.normSq (Complex.exp (-Complex.I * x)) = 1 := by
      rw [Complex.normSq_eq_norm_sq, show -Complex.I * (x : ℂ) = ((-x : ℝ) : ℂ) * Complex.I by
        push_cast; ring, Complex.norm_exp_ofReal_mul_I, one_pow]
    have n2 : Complex.normSq (Complex.exp (-(-Complex.I * x))) = 1 := by
      rw [Complex.normSq_eq_norm_sq, show -(-Complex.I * (x : ℂ)) = ((x : ℝ) : ℂ) * Complex.I by
        ring, Complex.norm_exp_ofReal_mul_I, one_pow]
    set u := Complex.exp (-Complex.I * x) * A with hu
    set v := Complex.exp (-(-Complex.I * x)) * B with hv
    have h : Complex.normSq u - Complex.normSq v = y / ys := by
      rw [hu, hv, Complex.normSq_mul, Complex.normSq_mul, n1, n2, one_mul, one_mul, i]
    have h' : ((u + v) * star ((y0 : ℂ) / y * (u - v))).re =
        y0 / y * ((u + v) * star (u - v)).re := by
      rw [show (y0 : ℂ) / y = ((y0 / y : ℝ) : ℂ) by push_cast; rfl]
      rw [star_mul', Complex.star_def, Complex.conj_ofReal, mul_left_comm, Complex.re_ofReal_mul]
    rw [h', ← normSq_add_sub, h]
    field_simp

theorem tendsto_TM {l : Filter ℝ} {a : ℝ → ℂ} {a' : ℂ} (h : Tendsto a l (𝓝 a')) :
    Tendsto (fun x => TM (a x)) l (𝓝 (TM a')) := by
  have : Continuous TM := by
    refine continuous_matrix fun i j => ?_
    fin_cases i <;> fin_cases j <;> simp [TM] <;> fun_prop
  exact (this.tendsto a').comp h

theorem tendsto_PM {l : Filter ℝ} {a : ℝ → ℂ} {a' : ℂ} (h : Tendsto a l (𝓝 a')) :
    Tendsto (fun x => PM (a x)) l (𝓝 (PM a')) := by
  have : Continuous PM := by
    refine continuous_matrix fun i j => ?_
    fin_cases i <;> fin_cases j <;> simp [PM] <;> fun_prop
  exact (this.tendsto a').comp h

/-- The matrix depends continuously on its data. -/
theorem tendsto_gen {σ : Type} {l : Filter ℝ} (y x : σ → ℝ → ℂ) (y' x' : σ → ℂ) (a : σ) (L : List σ)
    (s : σ) (hy : ∀ b ∈ a :: (L ++ [s]), Tendsto (y b) l (𝓝 (y' b)))
    (hx : ∀ b ∈ L, Tendsto (x b) l (𝓝 (x' b))) (h0 : ∀ b ∈ L ++ [s], y' b ≠ 0) :
    Tendsto (fun t => gen (y a t) (L.map fun b => (y b t, x b t)) (y s t)) l
      (𝓝 (gen (y' a) (L.map fun b => (y' b, x' b)) (y' s))) := by
  induction L generalizing a with
  | nil =>
    simp only [List.map_nil, gen]
    exact tendsto_TM ((hy a (by simp)).div (hy s (by simp)) (h0 s (by simp)))
  | cons b L ih =>
    simp only [List.map_cons, gen]
    refine (tendsto_TM ((hy a (by simp)).div (hy b (by simp)) (h0 b (by simp)))).mul
      ((tendsto_PM (hx b (by simp))).mul (ih b ?_ ?_ ?_))
    · intro c hc; exact hy c (by simp only [List.cons_append, List.mem_cons] at hc ⊢; tauto)
    · intro c hc; exact hx c (by simp [hc])
    · intro c hc; exact h0 c (by simp only [List.cons_append, List.mem_cons]; tauto)

theorem kz_static {q : ℝ} (hq : 0 < q) (eps : ℂ) : kz 0 q eps = Complex.I * q := by
  unfold kz
  rw [show eps * ((0 : ℝ) : ℂ) ^ 2 - (q : ℂ) ^ 2 = (q : ℂ) ^ 2 * (-1) by push_cast; ring,
    csqrt_scale hq, Complex.sqrt_neg_one, mul_comm]

/-- Away from the branch cut (approached from above) the wavevector is continuous. -/
theorem tendsto_kz {q : ℝ} (hq : 0 < q) {eps : ℂ} (he : 0 ≤ eps.im) :
    Tendsto (fun nu => kz nu q eps) (𝓝 0) (𝓝 (Complex.I * q)) := by
  have hz : Tendsto (fun nu : ℝ => eps * (nu : ℂ) ^ 2 - (q : ℂ) ^ 2) (𝓝 0) (𝓝 (-(q : ℂ) ^ 2)) := by
    have : Continuous fun nu : ℝ => eps * (nu : ℂ) ^ 2 - (q : ℂ) ^ 2 := by fun_prop
    have h := this.tendsto 0
    simpa using h
  have hq2 : (-(q : ℂ) ^ 2) = ((-(q ^ 2) : ℝ) : ℂ) := by push_cast; rfl
  have hlog : ContinuousWithinAt Complex.log {z : ℂ | 0 ≤ z.im} (-(q : ℂ) ^ 2) :=
    Complex.continuousWithinAt_log_of_re_neg_of_im_zero
      (by rw [hq2, Complex.ofReal_re]; have := pow_pos hq 2; linarith)
      (by rw [hq2, Complex.ofReal_im])
  have h1 : Tendsto (fun nu : ℝ => eps * (nu : ℂ) ^ 2 - (q : ℂ) ^ 2) (𝓝 0)
      (𝓝[{z : ℂ | 0 ≤ z.im}] (-(q : ℂ) ^ 2)) := by
    refine tendsto_nhdsWithin_of_tendsto_nhds_of_eventually_within _ hz (Eventually.of_forall ?_)
    intro nu
    have : (eps * (nu : ℂ) ^ 2 - (q : ℂ) ^ 2).im = eps.im * nu ^ 2 := by
      rw [← Complex.ofReal_pow, ← Complex.ofReal_pow, Complex.sub_im, Complex.im_mul_ofReal,
        Complex.ofReal_im, sub_zero]
    show 0 ≤ (eps * (nu : ℂ) ^ 2 - (q : ℂ) ^ 2).im
    rw [this]; positivity
  have h2 : Tendsto (fun nu : ℝ => Complex.exp (Complex.log (eps * (nu : ℂ) ^ 2 - (q : ℂ) ^ 2) / 2))
      (𝓝 0) (𝓝 (Complex.exp (Complex.log (-(q : ℂ) ^ 2) / 2))) :=
    (Complex.continuous_exp.tendsto _).comp ((hlog.tendsto.comp h1).div_const 2)
  have hne : (-(q : ℂ) ^ 2) ≠ 0 := neg_ne_zero.2 (pow_ne_zero 2 (by exact_mod_cast hq.ne'))
  have e : Complex.exp (Complex.log (-(q : ℂ) ^ 2) / 2) = Complex.I * q := by
    rw [← sqrt_eq_exp hne, ← kz_static hq 0]
    unfold kz; simp
  rw [e] at h2
  refine h2.congr' ?_
  filter_upwards [hz.eventually_ne hne] with nu hnu
  rw [← sqrt_eq_exp hnu]; rfl

end Snompy
