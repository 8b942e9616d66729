import Verif.Lemmas.Strip
import Verif.Lemmas.DemodMore
import Verif.Props.Pdm
import Verif.Props.Fdm
import Mathlib.Analysis.SpecialFunctions.Complex.LogDeriv

/-!
# C89: demodulation converges geometrically

`lockin` is the ideal lock-in signal (`Verif/Spec/Lockin.lean`) and `ellipse x₀ A s` the inside of the ellipse with the
turning points of the oscillation as foci and half-axes `A cosh s`, `A sinh s` (`Verif/Spec/Ellipse.lean`).
-/

namespace Snompy.Props

open Snompy Finset Filter Topology

/-! ## C89 Demodulation converges geometrically -/

/-- The error of `N` trapezia for a signal that is analytic and bounded by `M` inside an ellipse. -/
theorem C89_bound (env : Env) (G : ℂ → ℂ) (x0 amp s M : ℝ) (hA : 0 < amp) (hs : 0 < s)
    (hd : ∀ u ∈ ellipse x0 amp s, DifferentiableAt ℂ G u) (hM : ∀ u ∈ ellipse x0 amp s, ‖G u‖ ≤ M) (n : ℤ) (N : ℕ)
    (hN : N ≠ 0) :
    ∃ v, demod env (onFinite fun x => G x) (FP.num x0) (FP.num amp) (FP.num n) (some N) = .ok (FP.num v) ∧
      ‖v - lockin (fun x => G x) x0 amp n‖ ≤ 2 * M * Real.cosh (s * n) / (Real.exp (s * N) - 1) :=
  ⟨_, demod_onFinite env _ x0 amp n (some N) hN, demodSum_error hA hs hd hM n hN⟩

/-- The exponential function at three trapezia. -/
example (env : Env) := C89_bound env Complex.exp 0 1 1 (Real.exp (Real.cosh 1)) one_pos one_pos
  (fun u _ => Complex.differentiable_exp u) (fun u hu => by
    rw [Complex.norm_exp, Real.exp_le_exp]
    have := (abs_lt.1 (ellipse_re hu)).2
    linarith) 1 3 (by norm_num)

/-- The samples at `N` trapezia add up the harmonics `n + m N`, with alternating signs if `N` is odd. -/
theorem C89_alias (env : Env) (G : ℂ → ℂ) (x0 amp s M : ℝ) (hA : 0 < amp) (hs : 0 < s)
    (hd : ∀ u ∈ ellipse x0 amp s, DifferentiableAt ℂ G u) (hM : ∀ u ∈ ellipse x0 amp s, ‖G u‖ ≤ M) (n : ℤ) (N : ℕ)
    (hN : N ≠ 0) :
    ∃ v, demod env (onFinite fun x => G x) (FP.num x0) (FP.num amp) (FP.num n) (some N) = .ok (FP.num v) ∧
      HasSum (fun m : ℤ => (-1) ^ (m * N) * lockin (fun x => G x) x0 amp ((n + m * N : ℤ) : ℝ)) v := by
  refine ⟨_, demod_onFinite env _ x0 amp n (some N) hN, ?_⟩
  rw [Option.getD_some, demodSum_mean _ _ _ _ hN]
  simp only [lockin_eq, wave_eq]
  have e : (fun θ : ℝ => G ((x0 + Real.cos θ * amp : ℝ) : ℂ)) =
      fun θ : ℝ => (fun w : ℂ => G (x0 + amp * Complex.cos w)) θ := by
    funext θ
    push_cast
    rw [mul_comm (amp : ℂ)]
  rw [e]
  obtain ⟨hc, hp, hsum⟩ := strip_regular (H := fun w => G (x0 + amp * Complex.cos w)) hs
    (fun w => by simp only [Complex.cos_add_two_pi])
    (fun w hw => by
      refine DifferentiableAt.differentiableWithinAt ?_
      refine DifferentiableAt.comp w (hd _ (ellipse_cos hA hw)) ?_
      fun_prop)
    (fun w hw => hM _ (ellipse_cos hA hw))
  exact alias_hasSum hc hp hsum n hN

example (env : Env) := C89_alias env Complex.exp 0 1 1 (Real.exp (Real.cosh 1)) one_pos one_pos
  (fun u _ => Complex.differentiable_exp u) (fun u hu => by
    rw [Complex.norm_exp, Real.exp_le_exp]
    have := (abs_lt.1 (ellipse_re hu)).2
    linarith) 1 3 (by norm_num)

/-- The harmonics decay geometrically, up to the error of the trapezia. -/
theorem C89_harmonics (env : Env) (G : ℂ → ℂ) (x0 amp s M : ℝ) (hA : 0 < amp) (hs : 0 < s)
    (hd : ∀ u ∈ ellipse x0 amp s, DifferentiableAt ℂ G u) (hM : ∀ u ∈ ellipse x0 amp s, ‖G u‖ ≤ M) (n : ℤ) (N : ℕ)
    (hN : N ≠ 0) :
    ∃ v, demod env (onFinite fun x => G x) (FP.num x0) (FP.num amp) (FP.num n) (some N) = .ok (FP.num v) ∧
      ‖v‖ ≤ M * Real.exp (-(s * |(n : ℝ)|)) + 2 * M * Real.cosh (s * n) / (Real.exp (s * N) - 1) := by
  obtain ⟨v, hv, hle⟩ := C89_bound env G x0 amp s M hA hs hd hM n N hN
  refine ⟨v, hv, ?_⟩
  have h1 := lockin_decay hA hs hd hM n
  have h2 := norm_add_le (v - lockin (fun x => G x) x0 amp n) (lockin (fun x => G x) x0 amp n)
  rw [sub_add_cancel] at h2
  linarith

example (env : Env) := C89_harmonics env Complex.exp 0 1 1 (Real.exp (Real.cosh 1)) one_pos one_pos
  (fun u _ => Complex.differentiable_exp u) (fun u hu => by
    rw [Complex.norm_exp, Real.exp_le_exp]
    have := (abs_lt.1 (ellipse_re hu)).2
    linarith) 4 8 (by norm_num)

/-- Some geometric rate, for every signal that is analytic around the range of the oscillation. -/
theorem C89_geometric (env : Env) (G : ℂ → ℂ) (x0 amp : ℝ) (hA : 0 < amp) (U : Set ℂ) (hU : IsOpen U)
    (hx : ∀ x : ℝ, x0 - amp ≤ x → x ≤ x0 + amp → (x : ℂ) ∈ U) (hd : DifferentiableOn ℂ G U) (n : ℤ) :
    ∃ s > 0, ∃ C : ℝ, ∀ N : ℕ, N ≠ 0 →
      ∃ v, demod env (onFinite fun x => G x) (FP.num x0) (FP.num amp) (FP.num n) (some N) = .ok (FP.num v) ∧
        ‖v - lockin (fun x => G x) x0 amp n‖ ≤ C * Real.exp (-(s * N)) := by
  obtain ⟨s, hs, K, hKU, hK, hel⟩ := ellipse_subset hA hU hx
  obtain ⟨M, hM⟩ := hK.exists_bound_of_continuousOn (hd.continuousOn.mono hKU)
  have hM0 : 0 ≤ M := (norm_nonneg _).trans
    (hM _ (hel (ellipse_cos (x0 := x0) hA (w := 0) (by simpa using hs))))
  refine ⟨s, hs, 2 * M * Real.cosh (s * n) / (1 - Real.exp (-s)), fun N hN => ?_⟩
  obtain ⟨v, hv, hle⟩ := C89_bound env G x0 amp s M hA hs
    (fun u hu => hd.differentiableAt (hU.mem_nhds (hKU (hel hu)))) (fun u hu => hM u (hel hu)) n N hN
  exact ⟨v, hv, hle.trans (rate_le hs hN (mul_nonneg (by linarith) (Real.cosh_pos _).le))⟩

/-- `1/x` between 1 and 3. -/
example (env : Env) := C89_geometric env (fun u => u⁻¹) 2 1 one_pos {0}ᶜ isOpen_compl_singleton
  (fun x h _ => by
    rw [Set.mem_compl_singleton_iff]
    exact_mod_cast (by linarith : x ≠ 0)) (fun u hu => (differentiableAt_inv hu).differentiableWithinAt) 2

/-- The signal of `eff_pol_n`, for a model that follows the analytic curve `G` along the oscillation. -/
theorem effPolN_rate {env : Env} {f : FP ℝ → PyM (FP ℂ)} {G : ℂ → ℂ} {z amp : ℝ} (hA : 0 < amp)
    (hf : ∀ x : ℝ, z ≤ x → x ≤ z + 2 * amp → f (FP.num x) = .ok (FP.num (G x))) (n : FP ℝ) (nT : Option ℕ) :
    demod env f (FP.num z + FP.num amp) (FP.num amp) n nT =
      demod env (onFinite fun x => G x) (FP.num (z + amp)) (FP.num amp) n nT := by
  rw [FP.num_add]
  exact demod_ext env _ _ (z + amp) hA.le n nT fun x h1 h2 => hf x (by linarith) (by linarith)

/-- The PDM is analytic along the oscillation. -/
theorem pdm_analytic (env : Env) (s : Stack (FP ℝ) (FP ℂ)) (β : ℂ) (hβ : s.reflCoefQs = .ok (FP.num β)) (z amp r : ℝ)
    (α : ℂ) (hrz : 0 < r + z) (hres : ∀ x : ℝ, z ≤ x → x ≤ z + 2 * amp → 1 - Pdm.geom x r α * β ≠ 0) :
    ∃ (G : ℂ → ℂ) (U : Set ℂ), IsOpen U ∧ (∀ x : ℝ, z + amp - amp ≤ x → x ≤ z + amp + amp → (x : ℂ) ∈ U) ∧
      DifferentiableOn ℂ G U ∧ ∀ x : ℝ, z ≤ x → x ≤ z + 2 * amp →
        Pdm.effPol env s (some (FP.num x)) (tip r α) = .ok (FP.num (G x)) := by
  have hpi : (Real.pi : ℂ) ≠ 0 := by exact_mod_cast Real.pi_ne_zero
  let D : ℂ → ℂ := fun u => 16 * Real.pi * (r + u) ^ 3 - α * β
  let U : Set ℂ := {u | (r : ℂ) + u ≠ 0 ∧ D u ≠ 0}
  have hU : IsOpen U := by
    refine IsOpen.inter (isOpen_ne_fun (by fun_prop) continuous_const) (isOpen_ne_fun ?_ continuous_const)
    simp only [D]
    fun_prop
  let G : ℂ → ℂ := fun u => α / (1 - α / (16 * Real.pi * (r + u) ^ 3) * β)
  have hval : ∀ x : ℝ, z ≤ x → x ≤ z + 2 * amp →
      Pdm.effPol env s (some (FP.num x)) (tip r α) = .ok (FP.num (G x)) := fun x h1 h2 =>
    Pdm.effPol_val env s _ x r α β (pdm_tip env r α) hβ (by linarith) (hres x h1 h2)
  have key : ∀ u : ℂ, (r : ℂ) + u ≠ 0 → 1 - α / (16 * Real.pi * (r + u) ^ 3) * β =
      D u / (16 * Real.pi * (r + u) ^ 3) := fun u hu => by
    simp only [D]
    field_simp
  exact ⟨G, U, hU,
    (fun x h1 h2 => by
      have hx : (r : ℂ) + x ≠ 0 := by exact_mod_cast (by linarith : r + x ≠ 0)
      refine ⟨hx, fun h0 => hres x (by linarith) (by linarith) ?_⟩
      have := key x hx
      rw [h0, zero_div] at this
      exact this),
    (fun u hu => by
      have hu1 : (16 * Real.pi * (r + u) ^ 3 : ℂ) ≠ 0 :=
        mul_ne_zero (mul_ne_zero (by norm_num) hpi) (pow_ne_zero 3 hu.1)
      have hu2 : 1 - α / (16 * Real.pi * (r + u) ^ 3) * β ≠ 0 := by
        rw [key u hu.1]
        exact div_ne_zero hu.2 hu1
      refine DifferentiableAt.differentiableWithinAt ?_
      refine DifferentiableAt.div (differentiableAt_const _) ?_ hu2
      refine (differentiableAt_const _).sub (DifferentiableAt.mul_const ?_ _)
      exact (differentiableAt_const _).div (by fun_prop) hu1), hval⟩

/-- The PDM: at every harmonic, for every sample without a resonance along the oscillation. -/
theorem C89_pdm (env : Env) (s : Stack (FP ℝ) (FP ℂ)) (β : ℂ) (hβ : s.reflCoefQs = .ok (FP.num β)) (z amp r : ℝ)
    (α : ℂ) (hA : 0 < amp) (hrz : 0 < r + z)
    (hres : ∀ x : ℝ, z ≤ x → x ≤ z + 2 * amp → 1 - Pdm.geom x r α * β ≠ 0) (n : ℤ) :
    ∃ f : ℝ → ℂ, (∀ x, z ≤ x → x ≤ z + 2 * amp →
        Pdm.effPol env s (some (FP.num x)) (tip r α) = .ok (FP.num (f x))) ∧
      ∃ ρ > 0, ∃ C : ℝ, ∀ N : ℕ, N ≠ 0 →
        ∃ v, Pdm.effPolN env s (FP.num amp) (FP.num n) (some (FP.num z)) (some N) (tip r α) = .ok (FP.num v) ∧
          ‖v - lockin f (z + amp) amp n‖ ≤ C * Real.exp (-(ρ * N)) := by
  obtain ⟨G, U, hU, hx, hd, hval⟩ := pdm_analytic env s β hβ z amp r α hrz hres
  obtain ⟨ρ, hρ, C, h⟩ := C89_geometric env G (z + amp) amp hA U hU hx hd n
  refine ⟨fun x => G x, hval, ρ, hρ, C, fun N hN => ?_⟩
  obtain ⟨v, hv, hle⟩ := h N hN
  refine ⟨v, ?_, hle⟩
  unfold Pdm.effPolN
  rw [Option.getD_some, effPolN_rate hA hval]
  exact hv

/-- A conducting sphere above a dielectric. -/
example (env : Env) := C89_pdm env (bulk 1 2) ((1 / 3 : ℝ) : ℂ) (by
    rw [C09_refl 1 2 none _ two_ne_zero (by norm_num)]
    norm_num) 0 1 1 ((4 * Real.pi * 1 ^ 3 : ℝ) : ℂ) one_pos (by norm_num) (fun x h _ => by
    rw [geom_conductor one_pos h, ← Complex.ofReal_mul]
    have h1 : (1 : ℝ) ≤ (1 + x) ^ 3 := one_le_pow₀ (by linarith)
    have h2 : (1 : ℝ) ^ 3 / (4 * (1 + x) ^ 3) ≤ 1 / 4 := by
      rw [div_le_div_iff₀ (by positivity) (by norm_num)]
      linarith
    have h3 : 1 - (1 : ℝ) ^ 3 / (4 * (1 + x) ^ 3) * (1 / 3) ≠ 0 := by linarith
    exact_mod_cast h3) 3

/-- The perfectly conducting sphere, with the rate. -/
theorem C89_conductor (env : Env) (s : Stack (FP ℝ) (FP ℂ)) (β : ℂ) (hβ : s.reflCoefQs = .ok (FP.num β))
    (z amp r ρ : ℝ) (hA : 0 < amp) (hρ : 0 < ρ) (hr : 0 < r) (hz : 0 ≤ z) (κ : ℝ) (hκ : κ < 1)
    (hd : 0 < r + z - amp * (Real.cosh ρ - 1))
    (hres : ‖β‖ * r ^ 3 ≤ κ * (4 * (r + z - amp * (Real.cosh ρ - 1)) ^ 3)) :
    ∃ f : ℝ → ℂ, (∀ x, z ≤ x → x ≤ z + 2 * amp →
        Pdm.effPol env s (some (FP.num x)) (conductor r) = .ok (FP.num (f x))) ∧
      ∀ (n : ℤ) (N : ℕ), N ≠ 0 →
        ∃ v, Pdm.effPolN env s (FP.num amp) (FP.num n) (some (FP.num z)) (some N) (conductor r) = .ok (FP.num v) ∧
          ‖v - lockin f (z + amp) amp n‖ ≤
            2 * (4 * Real.pi * r ^ 3 / (1 - κ)) * Real.cosh (ρ * n) / (Real.exp (ρ * N) - 1) := by
  have hpi : (Real.pi : ℂ) ≠ 0 := by exact_mod_cast Real.pi_ne_zero
  have hpi0 := Real.pi_pos
  set d := r + z - amp * (Real.cosh ρ - 1) with hddef
  have hch : 0 ≤ amp * (Real.cosh ρ - 1) := mul_nonneg hA.le (by linarith [Real.one_le_cosh ρ])
  let α : ℂ := ((4 * Real.pi * r ^ 3 : ℝ) : ℂ)
  let G : ℂ → ℂ := fun u => α / (1 - α / (16 * Real.pi * (r + u) ^ 3) * β)
  -- to the right of the ellipse's left end the geometry function is small
  have far : ∀ u : ℂ, d ≤ r + u.re → ((r : ℂ) + u ≠ 0) ∧ ‖α / (16 * Real.pi * (r + u) ^ 3) * β‖ ≤ κ := by
    intro u hu
    have h1 : d ≤ ‖(r : ℂ) + u‖ := by
      refine le_trans ?_ (Complex.re_le_norm _)
      simpa using hu
    have h2 : 0 < ‖(r : ℂ) + u‖ := lt_of_lt_of_le hd h1
    refine ⟨norm_pos_iff.1 h2, ?_⟩
    rw [norm_mul, norm_div, norm_mul, norm_mul, norm_pow, Complex.norm_real, Complex.norm_real,
      Real.norm_of_nonneg (by positivity), Real.norm_of_nonneg (by positivity), Complex.norm_ofNat,
      div_mul_eq_mul_div, div_le_iff₀ (by positivity)]
    have h3 : d ^ 3 ≤ ‖(r : ℂ) + u‖ ^ 3 := pow_le_pow_left₀ hd.le h1 3
    have hκ0 : 0 ≤ κ := by
      have : 0 ≤ ‖β‖ * r ^ 3 := by positivity
      have h4 : 0 < 4 * d ^ 3 := by positivity
      by_contra hneg
      push Not at hneg
      nlinarith
    have h5 := mul_le_mul_of_nonneg_left h3 hκ0
    have h6 := mul_le_mul_of_nonneg_left (hres.trans (by linarith : κ * (4 * d ^ 3) ≤ 4 * (κ * ‖(r : ℂ) + u‖ ^ 3)))
      (by positivity : 0 ≤ 4 * Real.pi)
    nlinarith
  have den : ∀ u : ℂ, d ≤ r + u.re → 1 - κ ≤ ‖1 - α / (16 * Real.pi * (r + u) ^ 3) * β‖ := by
    intro u hu
    have h1 := norm_sub_norm_le (1 : ℂ) (α / (16 * Real.pi * (r + u) ^ 3) * β)
    rw [norm_one] at h1
    linarith [(far u hu).2]
  have den0 : ∀ u : ℂ, d ≤ r + u.re → 1 - α / (16 * Real.pi * (r + u) ^ 3) * β ≠ 0 := fun u hu =>
    norm_pos_iff.1 (lt_of_lt_of_le (by linarith) (den u hu))
  have hval : ∀ x : ℝ, z ≤ x → x ≤ z + 2 * amp →
      Pdm.effPol env s (some (FP.num x)) (conductor r) = .ok (FP.num (G x)) := fun x h1 h2 =>
    Pdm.effPol_val env s _ x r α β (pdm_conductor env r) hβ (by linarith)
      (den0 x (by rw [Complex.ofReal_re]; linarith))
  have hin : ∀ u ∈ ellipse (z + amp) amp ρ, d ≤ r + u.re := fun u hu => by
    have := (abs_lt.1 (ellipse_re hu)).1
    rw [hddef]
    linarith
  refine ⟨fun x => G x, hval, fun n N hN => ?_⟩
  obtain ⟨v, hv, hle⟩ := C89_bound env G (z + amp) amp ρ (4 * Real.pi * r ^ 3 / (1 - κ)) hA hρ
    (fun u hu => by
      refine DifferentiableAt.div (differentiableAt_const _) ?_ (den0 u (hin u hu))
      refine (differentiableAt_const _).sub (DifferentiableAt.mul_const ?_ _)
      exact (differentiableAt_const _).div (by fun_prop)
        (mul_ne_zero (mul_ne_zero (by norm_num) hpi) (pow_ne_zero 3 (far u (hin u hu)).1)))
    (fun u hu => by
      simp only [G, α]
      rw [norm_div, Complex.norm_real, Real.norm_of_nonneg (by positivity)]
      exact div_le_div_of_nonneg_left (by positivity) (by linarith) (den u (hin u hu))) n N hN
  refine ⟨v, ?_, hle⟩
  unfold Pdm.effPolN
  rw [Option.getD_some, effPolN_rate hA hval]
  exact hv

theorem cosh_log_two : Real.cosh (Real.log 2) = 5 / 4 := by
  rw [Real.cosh_log two_pos]
  norm_num

/-- Amplitude 1 and radius 1: twice the trapezia square the error. -/
example (env : Env) := C89_conductor env (bulk 1 2) (1 / 3) (by
    rw [C09_refl 1 2 none _ two_ne_zero (by norm_num)]
    norm_num) 0 1 1 (Real.log 2) one_pos (Real.log_pos (by norm_num)) one_pos le_rfl (16 / 27) (by norm_num)
    (by rw [cosh_log_two]; norm_num) (by rw [cosh_log_two]; norm_num)

/-- The default tip, height and 32 trapezia: for amplitudes up to the radius of the tip and reflection coefficients of
modulus at most 1, the first five harmonics have errors below `2·10⁻⁸` of the polarisability of the tip. -/
theorem C89_default (lag : ℕ → List (ℝ × ℝ)) (s : Stack (FP ℝ) (FP ℂ)) (β : ℂ) (hβ : s.reflCoefQs = .ok (FP.num β))
    (hb : ‖β‖ ≤ 1) (amp : ℝ) (hA : 0 < amp) (hA' : amp ≤ 20e-9) :
    ∃ f : ℝ → ℂ, (∀ x, 0 ≤ x → x ≤ 2 * amp →
        Pdm.effPol ⟨Defaults.initial, lag⟩ s (some (FP.num x)) {} = .ok (FP.num (f x))) ∧
      ∀ n : ℤ, |n| ≤ 5 →
        ∃ v, Pdm.effPolN ⟨Defaults.initial, lag⟩ s (FP.num amp) (FP.num n) none none {} = .ok (FP.num v) ∧
          ‖v - lockin f amp amp n‖ ≤ 2e-8 * (4 * Real.pi * 20e-9 ^ 3) := by
  have hd : (0 : ℝ) < 20e-9 + 0 - amp * (Real.cosh (Real.log 2) - 1) := by
    rw [cosh_log_two]
    linarith
  have hd' : 3 / 4 * 20e-9 ≤ 20e-9 + 0 - amp * (Real.cosh (Real.log 2) - 1) := by
    rw [cosh_log_two]
    linarith
  obtain ⟨f, hf, h⟩ := C89_conductor ⟨Defaults.initial, lag⟩ s β hβ 0 amp 20e-9 (Real.log 2) hA
    (Real.log_pos (by norm_num)) (by norm_num) le_rfl (16 / 27) (by norm_num) hd (by
      have h3 := pow_le_pow_left₀ (by norm_num) hd' 3
      have h4 := mul_le_mul_of_nonneg_right hb (by norm_num : (0 : ℝ) ≤ 20e-9 ^ 3)
      nlinarith)
  refine ⟨f, fun x h0 h1 => hf x h0 (by linarith), fun n hn => ?_⟩
  obtain ⟨v, hv, hle⟩ := h n 32 (by norm_num)
  refine ⟨v, hv, ?_⟩
  rw [zero_add] at hle
  refine hle.trans ?_
  have hexp : Real.exp (Real.log 2 * (32 : ℕ)) = 2 ^ 32 := by
    rw [mul_comm, Real.exp_nat_mul, Real.exp_log two_pos]
  have hcosh : Real.cosh (Real.log 2 * n) ≤ (32 + 1 / 32) / 2 := by
    have h5 : Real.cosh (Real.log 2 * 5) = (32 + 1 / 32) / 2 := by
      have : Real.log 2 * 5 = Real.log 32 := by
        rw [show (32 : ℝ) = 2 ^ 5 by norm_num, Real.log_pow]
        push_cast
        ring
      rw [this, Real.cosh_log (by norm_num)]
      norm_num
    rw [← h5, Real.cosh_le_cosh, abs_mul, abs_mul]
    refine mul_le_mul_of_nonneg_left ?_ (abs_nonneg _)
    rw [abs_of_pos (by norm_num : (0 : ℝ) < 5)]
    exact_mod_cast hn
  rw [hexp]
  have hpi := Real.pi_pos
  set P := 4 * Real.pi * (20e-9 : ℝ) ^ 3 with hP
  have hP0 : 0 < P := by positivity
  rw [div_le_iff₀ (by norm_num)]
  have := mul_le_mul_of_nonneg_left hcosh (by positivity : 0 ≤ 2 * (P / (1 - 16 / 27)))
  refine this.trans ?_
  have e : 2 * (P / (1 - 16 / 27)) * ((32 + 1 / 32) / 2) = P * (2 / (1 - 16 / 27) * ((32 + 1 / 32) / 2)) := by ring
  have e' : (2e-8 : ℝ) * P * (2 ^ 32 - 1) = P * (2e-8 * (2 ^ 32 - 1)) := by ring
  rw [e, e']
  exact mul_le_mul_of_nonneg_left (by norm_num) hP0.le

example (lag : ℕ → List (ℝ × ℝ)) := C89_default lag (bulk 1 2) (1 / 3) (by
    rw [C09_refl 1 2 none _ two_ne_zero (by norm_num)]
    norm_num) (by norm_num) 20e-9 (by norm_num) le_rfl

/-- The geometry function of the FDM at complex heights. -/
noncomputable def fdmGeomC (d r l : ℝ) (g u : ℂ) : ℂ :=
  (g - (r + 2 * u + d * r) / (2 * l)) * (Real.log (4 * l) - Complex.log (r + 4 * u + 2 * d * r)) /
    Real.log (4 * l / r)

theorem fdmGeomC_ofReal {x d r l : ℝ} (g : ℂ) (h : Fdm.GeomOk x d r l) :
    fdmGeomC d r l g x = Fdm.geom x d r l g := by
  unfold fdmGeomC Fdm.geom
  have hl := h.l_pos
  rw [Real.log_div (by positivity) h.den.ne']
  have : (r : ℂ) + 4 * x + 2 * d * r = ((r + 4 * x + 2 * d * r : ℝ) : ℂ) := by push_cast; rfl
  rw [this, ← Complex.ofReal_log h.den.le]
  push_cast
  rfl

theorem fdmGeomC_differentiableAt (d r l : ℝ) (g : ℂ) {u : ℂ} (h : 0 < r + 4 * u.re + 2 * d * r) :
    DifferentiableAt ℂ (fdmGeomC d r l g) u := by
  unfold fdmGeomC
  refine DifferentiableAt.div_const (DifferentiableAt.mul (by fun_prop) ?_) _
  refine (differentiableAt_const _).sub (DifferentiableAt.clog (by fun_prop) (Or.inl ?_))
  simpa using h

/-- The FDM is analytic along the oscillation. -/
theorem fdm_analytic (env : Env) (s : Stack (FP ℝ) (FP ℂ)) (hm : s.multilayer = false) (β : ℂ)
    (hβ : s.reflCoefQs = .ok (FP.num β)) (z amp r l : ℝ) (g : ℂ) (d0 d1 dA : ℝ)
    (h0 : Fdm.GeomOk z d0 r l) (h1 : Fdm.GeomOk z d1 r l)
    (hres : ∀ x : ℝ, z ≤ x → x ≤ z + 2 * amp → 1 - β * Fdm.geom x d1 r l g ≠ 0) (nLag : Option ℕ)
    (m : Option String) (hmeth : m = none ∨ m = some "bulk") :
    ∃ (G : ℂ → ℂ) (U : Set ℂ), IsOpen U ∧ (∀ x : ℝ, z + amp - amp ≤ x → x ≤ z + amp + amp → (x : ℂ) ∈ U) ∧
      DifferentiableOn ℂ G U ∧ ∀ x : ℝ, z ≤ x → x ≤ z + 2 * amp →
        Fdm.effPol env s (some (FP.num x)) (fdmTip r l g d0 d1 dA) nLag m = .ok (FP.num (G x)) := by
  have ok : ∀ d x : ℝ, Fdm.GeomOk z d r l → z ≤ x → Fdm.GeomOk x d r l := fun d x h hx =>
    ⟨h.r_pos, h.l_pos, h.ne, by have := h.den; linarith⟩
  let V : Set ℂ := {u | 0 < r + 4 * u.re + 2 * d0 * r ∧ 0 < r + 4 * u.re + 2 * d1 * r}
  have hV : IsOpen V := by
    have hre := Complex.continuous_re
    have c : ∀ d : ℝ, Continuous fun u : ℂ => r + 4 * u.re + 2 * d * r := fun d => by fun_prop
    exact IsOpen.inter (isOpen_lt continuous_const (c d0)) (isOpen_lt continuous_const (c d1))
  let D : ℂ → ℂ := fun u => 1 - β * fdmGeomC d1 r l g u
  have hD : ∀ u ∈ V, DifferentiableAt ℂ D u := fun u hu =>
    (differentiableAt_const _).sub ((differentiableAt_const _).mul (fdmGeomC_differentiableAt d1 r l g hu.2))
  let U : Set ℂ := V ∩ D ⁻¹' {0}ᶜ
  have hU : IsOpen U := ContinuousOn.isOpen_inter_preimage
    (fun u hu => (hD u hu).continuousAt.continuousWithinAt) hV isOpen_compl_singleton
  let G : ℂ → ℂ := fun u => 1 + β * fdmGeomC d0 r l g u / (2 * D u)
  have hval : ∀ x : ℝ, z ≤ x → x ≤ z + 2 * amp →
      Fdm.effPol env s (some (FP.num x)) (fdmTip r l g d0 d1 dA) nLag m = .ok (FP.num (G x)) := by
    intro x hx hx'
    have := effPol_val env s hm β hβ x r l g d0 d1 dA (ok d0 x h0 hx) (ok d1 x h1 hx) (hres x hx hx') nLag
    rw [← fdmGeomC_ofReal g (ok d0 x h0 hx), ← fdmGeomC_ofReal g (ok d1 x h1 hx)] at this
    rcases hmeth with rfl | rfl
    · rw [Fdm.effPol_default, hm]
      exact this
    · exact this
  exact ⟨G, U, hU,
    (fun x hx hx' => by
      have hz : z ≤ x := by linarith
      refine ⟨⟨?_, ?_⟩, ?_⟩
      · rw [Complex.ofReal_re]; exact (ok d0 x h0 hz).den
      · rw [Complex.ofReal_re]; exact (ok d1 x h1 hz).den
      · rw [Set.mem_preimage, Set.mem_compl_singleton_iff]
        simp only [D]
        rw [fdmGeomC_ofReal g (ok d1 x h1 hz)]
        exact hres x hz (by linarith)),
    (fun u hu => by
      refine DifferentiableAt.differentiableWithinAt ?_
      refine (differentiableAt_const _).add (DifferentiableAt.div ?_ ?_ ?_)
      · exact (differentiableAt_const _).mul (fdmGeomC_differentiableAt d0 r l g hu.1.1)
      · exact (differentiableAt_const _).mul (hD u hu.1)
      · exact mul_ne_zero two_ne_zero hu.2), hval⟩

/-- The FDM: at every harmonic, for every sample without layers and without a resonance along the oscillation. -/
theorem C89_fdm (env : Env) (s : Stack (FP ℝ) (FP ℂ)) (hm : s.multilayer = false) (β : ℂ)
    (hβ : s.reflCoefQs = .ok (FP.num β)) (z amp r l : ℝ) (g : ℂ) (d0 d1 dA : ℝ) (hA : 0 < amp)
    (h0 : Fdm.GeomOk z d0 r l) (h1 : Fdm.GeomOk z d1 r l)
    (hres : ∀ x : ℝ, z ≤ x → x ≤ z + 2 * amp → 1 - β * Fdm.geom x d1 r l g ≠ 0) (nLag : Option ℕ)
    (m : Option String) (hmeth : m = none ∨ m = some "bulk") (n : ℤ) :
    ∃ f : ℝ → ℂ, (∀ x, z ≤ x → x ≤ z + 2 * amp →
        Fdm.effPol env s (some (FP.num x)) (fdmTip r l g d0 d1 dA) nLag m = .ok (FP.num (f x))) ∧
      ∃ ρ > 0, ∃ C : ℝ, ∀ N : ℕ, N ≠ 0 →
        ∃ v, Fdm.effPolN env s (FP.num amp) (FP.num n) (some (FP.num z)) (some N) (fdmTip r l g d0 d1 dA) nLag m =
            .ok (FP.num v) ∧
          ‖v - lockin f (z + amp) amp n‖ ≤ C * Real.exp (-(ρ * N)) := by
  obtain ⟨G, U, hU, hx, hd, hval⟩ := fdm_analytic env s hm β hβ z amp r l g d0 d1 dA h0 h1 hres nLag m hmeth
  obtain ⟨ρ, hρ, C, h⟩ := C89_geometric env G (z + amp) amp hA U hU hx hd n
  refine ⟨fun x => G x, hval, ρ, hρ, C, fun N hN => ?_⟩
  obtain ⟨v, hv, hle⟩ := h N hN
  refine ⟨v, ?_, hle⟩
  unfold Fdm.effPolN
  rw [Option.getD_some, effPolN_rate hA hval]
  exact hv

/-- A tip with a complex `g_factor` above a dielectric. -/
example (env : Env) := C89_fdm env (bulk 1 2) rfl ((1 / 3 : ℝ) : ℂ) (by
    rw [C09_refl 1 2 none _ two_ne_zero (by norm_num)]
    norm_num) 0 1 1 300 Complex.I 1 (1 / 2) 1.4 one_pos example_geomOk.1 example_geomOk.2 (fun x h h' => by
    have him : (Fdm.geom x (1 / 2) 1 300 Complex.I).im ≠ 0 := by
      unfold Fdm.geom
      rw [Complex.div_ofReal_im, Complex.im_mul_ofReal, Complex.sub_im, Complex.ofReal_im, Complex.I_im]
      have h1 : 0 < Real.log (4 * 300 / (1 + 4 * x + 2 * (1 / 2) * 1)) :=
        Real.log_pos (by rw [lt_div_iff₀ (by linarith)]; linarith)
      have h2 : 0 < Real.log (4 * 300 / 1 : ℝ) := Real.log_pos (by norm_num)
      simp only [sub_zero, one_mul]
      exact (div_pos h1 h2).ne'
    exact sub_ne_zero.2 (example_im_ne him (1 / 3)).symm) none none (.inl rfl) 2

end Snompy.Props
