import Verif.Lemmas.DemodAny
import Verif.Model.Fdm
import Verif.Model.Pdm
import Verif.Props.Quasistatic

/-!
# C42–C46: demodulation

`onFinite g` is the Python function `g` as an argument of `demod` and `lockin` the ideal lock-in signal
(`Verif/Spec/Lockin.lean`).  `demod` divides by `n_trapz`, hence the hypotheses `N ≠ 0`; with
`n_trapz = 0` the result is not finite (`C43_zero_intervals`).
-/

namespace Snompy.Props

open Snompy Finset Filter Topology

/-! ## C42 Demodulation of polynomials is the exact Fourier coefficient -/

theorem C42_polynomial (env : Env) (p : Polynomial ℂ) (x0 amp : ℝ) (n : ℤ) (N : ℕ)
    (h : p.natDegree + n.natAbs < N) :
    demod env (onFinite fun x => p.eval (x : ℂ)) (FP.num x0) (FP.num amp) (FP.num n) (some N) =
      .ok (FP.num (lockin (fun x => p.eval (x : ℂ)) x0 amp n)) := by
  have hN : N ≠ 0 := by omega
  rw [demod_onFinite env _ x0 amp n (some N) hN, Option.getD_some, demodSum_mean _ x0 amp n hN,
    lockin_eq, wave_eq]
  have hm := mode_mul_mem (eval_mem p x0 amp) (-n)
  rw [Int.natAbs_neg] at hm
  exact congrArg _ (congrArg _ (mean_trigPoly hm h).2)

example (env : Env) (p : Polynomial ℂ) (hp : p.natDegree ≤ 5) :
    demod env (onFinite fun x => p.eval (x : ℂ)) (FP.num 3) (FP.num 2) (FP.num (2 : ℤ)) (some 8) =
      .ok (FP.num (lockin (fun x => p.eval (x : ℂ)) 3 2 (2 : ℤ))) :=
  C42_polynomial env p 3 2 2 8 (by simp; omega)

theorem C42_high (env : Env) (p : Polynomial ℂ) (x0 amp : ℝ) (n : ℤ) (N : ℕ)
    (h : p.natDegree + n.natAbs < N) (hn : p.natDegree < n.natAbs) :
    demod env (onFinite fun x => p.eval (x : ℂ)) (FP.num x0) (FP.num amp) (FP.num n) (some N) =
      .ok (FP.num 0) := by
  rw [C42_polynomial env p x0 amp n N h, lockin_eq, wave_eq]
  exact congrArg _ (congrArg _
    (mean_mode_mul (eval_mem p x0 amp) (by rwa [Int.natAbs_neg])))

example (env : Env) :
    demod env (onFinite fun x => (Polynomial.X ^ 2 : Polynomial ℂ).eval (x : ℂ)) (FP.num 1) (FP.num 4)
      (FP.num (3 : ℤ)) (some 6) = .ok (FP.num 0) :=
  C42_high env _ 1 4 3 6 (by simp) (by simp)

/-- A constant signal has only a zeroth harmonic. -/
theorem C42_const (env : Env) (c : ℂ) (x0 amp : ℝ) (n : ℤ) (N : ℕ) (h : n.natAbs < N) :
    demod env (onFinite fun _ => c) (FP.num x0) (FP.num amp) (FP.num n) (some N) =
      .ok (FP.num (if n = 0 then c else 0)) := by
  have h1 := C42_polynomial env (Polynomial.C c) x0 amp n N (by simpa using h)
  simp only [Polynomial.eval_C] at h1
  rw [h1, lockin_eq, wave_eq]
  congr 2
  have hc : (mode (-n) * fun _ => c : ℝ → ℂ) = c • mode (-n) := by
    funext θ
    simp [mul_comm]
  rw [hc]
  have hs : mean (c • mode (-n)) = c * mean (mode (-n)) := by
    unfold mean
    simp only [Pi.smul_apply, smul_eq_mul]
    rw [intervalIntegral.integral_const_mul]
    ring
  rw [hs]
  split_ifs with hn
  · rw [hn, neg_zero, mean_one, mul_one]
  · rw [mean_mode (by omega), mul_zero]

example (env : Env) :
    demod env (onFinite fun _ => 5) (FP.num 1) (FP.num 4) (FP.num (3 : ℤ)) (some 6) =
      .ok (FP.num 0) := by
  simpa using C42_const env 5 1 4 3 6 (by simp)

/-! ## C43 Algebra of demodulation -/

theorem C43_linear (env : Env) (a b : ℂ) (f g : ℝ → ℂ) (x0 amp n : ℝ) (N : ℕ) (hN : N ≠ 0) :
    ∃ u v, demod env (onFinite f) (FP.num x0) (FP.num amp) (FP.num n) (some N) = .ok (FP.num u) ∧
      demod env (onFinite g) (FP.num x0) (FP.num amp) (FP.num n) (some N) = .ok (FP.num v) ∧
      demod env (onFinite fun x => a * f x + b * g x) (FP.num x0) (FP.num amp) (FP.num n) (some N) =
        .ok (FP.num (a * u + b * v)) := by
  refine ⟨_, _, demod_onFinite env f x0 amp n (some N) hN,
    demod_onFinite env g x0 amp n (some N) hN, ?_⟩
  rw [demod_onFinite env _ x0 amp n (some N) hN, Option.getD_some]
  congr 2
  unfold demodSum
  rw [← mul_div_assoc, ← mul_div_assoc, ← add_div, mul_sum, mul_sum, ← sum_add_distrib]
  congr 1
  refine sum_congr rfl fun k _ => ?_
  unfold wave
  ring

example (env : Env) := C43_linear env 2 3 (fun x => x) (fun x => Complex.exp x) 1 1 2 4 (by norm_num)

/-- Even in the harmonic, for every function, also one that raises or is not finite somewhere. -/
theorem C43_even (env : Env) (f : FP ℝ → PyM (FP ℂ)) (x0 amp : FP ℝ) (n : ℝ) (nT : Option ℕ) :
    demod env f x0 amp (FP.num (-n)) nT = demod env f x0 amp (FP.num n) nT :=
  demod_even env f x0 amp n nT

theorem C43_real (env : Env) (f : ℝ → ℝ) (x0 amp n : ℝ) (N : ℕ) (hN : N ≠ 0) :
    ∃ v : ℝ, demod env (onFinite fun x => (f x : ℂ)) (FP.num x0) (FP.num amp) (FP.num n) (some N) =
      .ok (FP.num (v : ℂ)) := by
  rw [demod_onFinite env _ x0 amp n (some N) hN, Option.getD_some]
  have hconj : (starRingEnd ℂ) (demodSum (fun x => (f x : ℂ)) x0 amp n N) =
      demodSum (fun x => (f x : ℂ)) x0 amp n N := by
    conv_rhs => rw [← demodSum_neg _ x0 amp n hN]
    unfold demodSum
    rw [map_div₀, map_sum, Complex.conj_natCast]
    congr 1
    refine sum_congr rfl fun k _ => ?_
    rw [map_div₀, map_add]
    have hw : ∀ θ, (starRingEnd ℂ) (wave (fun x => (f x : ℂ)) x0 amp n θ) =
        wave (fun x => (f x : ℂ)) x0 amp (-n) θ := by
      intro θ
      unfold wave
      rw [map_mul, Complex.conj_ofReal, ← Complex.exp_conj]
      congr 2
      simp
    rw [hw, hw, map_ofNat]
  obtain ⟨v, hv⟩ := Complex.conj_eq_iff_real.1 hconj
  exact ⟨v, by rw [hv]⟩

example (env : Env) := C43_real env Real.exp 1 1 2 4 (by norm_num)

/-- The sampled heights are `x_0 + A cos(-π + 2πk/N)`, `k = 0 … N`. -/
theorem C43_bound (env : Env) (f : ℝ → ℂ) (x0 amp n : ℝ) (N : ℕ) (hN : N ≠ 0) (M : ℝ)
    (hM : ∀ k ≤ N, ‖f (x0 + Real.cos (-Real.pi + 2 * Real.pi * k / N) * amp)‖ ≤ M) :
    ∃ v, demod env (onFinite f) (FP.num x0) (FP.num amp) (FP.num n) (some N) = .ok (FP.num v) ∧
      ‖v‖ ≤ M := by
  refine ⟨_, demod_onFinite env f x0 amp n (some N) hN, ?_⟩
  rw [Option.getD_some]
  have hw : ∀ k ≤ N, ‖wave f x0 amp n (phase N k)‖ ≤ M := by
    intro k hk
    unfold wave
    rw [norm_mul, show (-Complex.I * n * (phase N k : ℂ)) = ((-n * phase N k : ℝ) : ℂ) * Complex.I by
      push_cast; ring, Complex.norm_exp_ofReal_mul_I, mul_one]
    exact hM k hk
  unfold demodSum
  have hNpos : (0 : ℝ) < N := by exact_mod_cast Nat.pos_of_ne_zero hN
  rw [norm_div, Complex.norm_natCast, div_le_iff₀ hNpos]
  calc _ ≤ ∑ k ∈ range N, M := norm_sum_le_of_le _ fun k hk => by
        have hk := mem_range.1 hk
        rw [norm_div, Complex.norm_ofNat, div_le_iff₀ two_pos]
        refine (norm_add_le _ _).trans ?_
        have := hw (k + 1) hk
        have := hw k hk.le
        linarith
    _ = M * N := by rw [sum_const, card_range, nsmul_eq_mul, mul_comm]

example (env : Env) := C43_bound env (fun x => Complex.exp (x * Complex.I)) 1 1 2 4 (by norm_num) 1
  fun _ _ => (Complex.norm_exp_ofReal_mul_I _).le

/-- Without oscillation there is only a zeroth harmonic (and its aliases). -/
theorem C43_still (env : Env) (f : ℝ → ℂ) (x0 : ℝ) (n : ℤ) (N : ℕ) (hN : N ≠ 0) :
    (n = 0 → demod env (onFinite f) (FP.num x0) (FP.num 0) (FP.num n) (some N) =
      .ok (FP.num (f x0))) ∧
    (¬ (N : ℤ) ∣ n → demod env (onFinite f) (FP.num x0) (FP.num 0) (FP.num n) (some N) =
      .ok (FP.num 0)) := by
  rw [demod_onFinite env f x0 0 n (some N) hN, Option.getD_some, demodSum_mean f x0 0 n hN]
  have hc : (mode (-n) * fun θ => f (x0 + Real.cos θ * 0) : ℝ → ℂ) = f x0 • mode (-n) := by
    funext θ
    simp [mul_comm]
  rw [hc, meanN_smul]
  constructor
  · rintro rfl
    rw [neg_zero, meanN_one hN, mul_one]
  · intro h
    rw [meanN_mode hN (by rwa [dvd_neg]), mul_zero]

example (env : Env) :
    demod env (onFinite fun x => Complex.exp x) (FP.num 1) (FP.num 0) (FP.num (3 : ℤ)) (some 8) =
      .ok (FP.num 0) :=
  (C43_still env _ 1 3 8 (by norm_num)).2 (by norm_num)

/-- With no intervals the result is not finite. -/
theorem C43_zero_intervals (env : Env) (f : ℝ → ℂ) (x0 amp n : ℝ) :
    demod env (onFinite f) (FP.num x0) (FP.num amp) (FP.num n) (some 0) = .ok FP.nan := by
  rw [demod_unfold]
  simp [onFinite, thetaGrid, FP.trapz]

/-! ## C44 Harmonics alias at n_trapz -/

theorem C44_alias (env : Env) (f : FP ℝ → PyM (FP ℂ)) (x0 amp : FP ℝ) (n : ℝ) (N : ℕ) :
    demod env f x0 amp (FP.num (n + N)) (some N) =
      demod env f x0 amp (FP.num n) (some N) >>= fun v => .ok (FP.num ((-1) ^ N) * v) :=
  demod_alias env f x0 amp n N

/-! ## C45 Demodulation converges to the lock-in integral -/

theorem C45_converges (env : Env) (f : ℝ → ℂ) (hf : Continuous f) (x0 amp n : ℝ) :
    ∃ d : ℕ → ℂ, (∀ N, N ≠ 0 →
      demod env (onFinite f) (FP.num x0) (FP.num amp) (FP.num n) (some N) = .ok (FP.num (d N))) ∧
      Tendsto d atTop (𝓝 (lockin f x0 amp n)) := by
  refine ⟨_, fun N hN => demod_onFinite env f x0 amp n (some N) hN, ?_⟩
  rw [lockin_eq]
  refine trapz_tendsto ?_
  unfold wave
  fun_prop

example (env : Env) := C45_converges env (fun x => Complex.exp x) (by fun_prop) 1 1 2

/-! ## C46 The tip never goes below z_tip -/

/-- `eff_pol_n` depends on the model only through its values at heights in `[z, z + 2A]`. -/
theorem C46_range_fdm (env : Env) (s s' : Stack (FP ℝ) (FP ℂ)) (a a' : FdmArgs (FP ℝ) (FP ℂ))
    (nLag nLag' : Option ℕ) (m m' : Option String) (z amp : ℝ) (hA : 0 ≤ amp) (n : FP ℝ)
    (nT : Option ℕ)
    (h : ∀ x, z ≤ x → x ≤ z + 2 * amp → Fdm.effPol env s (some (FP.num x)) a nLag m =
      Fdm.effPol env s' (some (FP.num x)) a' nLag' m') :
    Fdm.effPolN env s (FP.num amp) n (some (FP.num z)) nT a nLag m =
      Fdm.effPolN env s' (FP.num amp) n (some (FP.num z)) nT a' nLag' m' := by
  unfold Fdm.effPolN
  simp only [Option.getD_some, FP.num_add]
  exact demod_ext env _ _ (z + amp) hA n nT fun x h1 h2 => h x (by linarith) (by linarith)

/-- Two samples that differ in a wavenumber `eff_pol` does not use. -/
example (env : Env) (z : ℝ) (n : FP ℝ) (nT : Option ℕ) :
    Fdm.effPolN env (bulk 1 2 none) (FP.num 1) n (some (FP.num z)) nT {} none none =
      Fdm.effPolN env (bulk 1 2 (some 3)) (FP.num 1) n (some (FP.num z)) nT {} none none := by
  refine C46_range_fdm env _ _ _ _ _ _ _ _ z 1 zero_le_one n nT fun x _ _ => ?_
  have h : ∀ nu, (bulk 1 2 nu).reflCoefQs = .ok (FP.num (1 / 3)) := fun nu => by
    rw [C09_refl 1 2 nu _ two_ne_zero (by norm_num)]
    norm_num
  have hm : ∀ nu, (bulk 1 2 nu).multilayer = false := fun nu => rfl
  simp [Fdm.effPol, h, hm]

theorem C46_range_pdm (env : Env) (s s' : Stack (FP ℝ) (FP ℂ)) (a a' : PdmArgs (FP ℝ) (FP ℂ))
    (z amp : ℝ) (hA : 0 ≤ amp) (n : FP ℝ) (nT : Option ℕ)
    (h : ∀ x, z ≤ x → x ≤ z + 2 * amp → Pdm.effPol env s (some (FP.num x)) a =
      Pdm.effPol env s' (some (FP.num x)) a') :
    Pdm.effPolN env s (FP.num amp) n (some (FP.num z)) nT a =
      Pdm.effPolN env s' (FP.num amp) n (some (FP.num z)) nT a' := by
  unfold Pdm.effPolN
  simp only [Option.getD_some, FP.num_add]
  exact demod_ext env _ _ (z + amp) hA n nT fun x h1 h2 => h x (by linarith) (by linarith)

example (env : Env) (z : ℝ) (n : FP ℝ) (nT : Option ℕ) :
    Pdm.effPolN env (bulk 1 2 none) (FP.num 1) n (some (FP.num z)) nT {} =
      Pdm.effPolN env (bulk 1 2 (some 3)) (FP.num 1) n (some (FP.num z)) nT {} := by
  refine C46_range_pdm env _ _ _ _ z 1 zero_le_one n nT fun x _ _ => ?_
  have h : ∀ nu, (bulk 1 2 nu).reflCoefQs = .ok (FP.num (1 / 3)) := fun nu => by
    rw [C09_refl 1 2 nu _ two_ne_zero (by norm_num)]
    norm_num
  simp [Pdm.effPol, h]

/-- The Taylor coefficients of the FDM. -/
theorem C46_range_taylor_fdm (env : Env) (j : ℤ) (r l d0 d1 r' l' d0' d1' : FP ℝ) (g g' : FP ℂ)
    (z amp : ℝ) (hA : 0 ≤ amp) (n : FP ℝ) (nT : Option ℕ)
    (h : ∀ x, z ≤ x → x ≤ z + 2 * amp → Fdm.geomFuncTaylor (FP.num x) j r l g d0 d1 =
      Fdm.geomFuncTaylor (FP.num x) j r' l' g' d0' d1') :
    Fdm.taylorCoef env (FP.num z) j (FP.num amp) n r l g d0 d1 nT =
      Fdm.taylorCoef env (FP.num z) j (FP.num amp) n r' l' g' d0' d1' nT := by
  unfold Fdm.taylorCoef
  simp only [FP.num_add]
  rw [demod_ext env (fun x => pure (Fdm.geomFuncTaylor x j r l g d0 d1))
    (fun x => pure (Fdm.geomFuncTaylor x j r' l' g' d0' d1')) (z + amp) hA n nT fun x h1 h2 => by
      rw [h x (by linarith) (by linarith)]]

theorem C46_range_taylor_pdm (env : Env) (j : ℤ) (r r' : FP ℝ) (alpha alpha' : FP ℂ)
    (z amp : ℝ) (hA : 0 ≤ amp) (n : FP ℝ) (nT : Option ℕ)
    (h : ∀ x, z ≤ x → x ≤ z + 2 * amp → Pdm.geomFunc (FP.num x) r alpha =
      Pdm.geomFunc (FP.num x) r' alpha') :
    Pdm.taylorCoef env (FP.num z) j (FP.num amp) n r alpha nT =
      Pdm.taylorCoef env (FP.num z) j (FP.num amp) n r' alpha' nT := by
  unfold Pdm.taylorCoef
  simp only [FP.num_add]
  exact demod_ext env _ _ (z + amp) hA n nT fun x h1 h2 => by
    rw [h x (by linarith) (by linarith)]

/-- Two tips whose geometry functions agree at height 0 but nowhere else: here the tip rests there. -/
example (env : Env) (n : FP ℝ) (nT : Option ℕ) :
    (Pdm.taylorCoef env (FP.num 0) (3 : ℤ) (FP.num 0) n (FP.num 1) (FP.num (1 : ℂ)) nT : PyM (FP ℂ)) =
      Pdm.taylorCoef env (FP.num 0) 3 (FP.num 0) n (FP.num 2) (FP.num 8) nT := by
  refine C46_range_taylor_pdm env 3 _ _ _ _ 0 0 le_rfl n nT fun x h1 h2 => ?_
  obtain rfl : x = 0 := by linarith
  have hpi : (Real.pi : ℂ) ≠ 0 := by exact_mod_cast Real.pi_ne_zero
  simp only [Pdm.geomFunc, slit, FP.num_add, snpow, FP.num_mul, sofR]
  rw [FP.num_div _ (by push_cast; simp [hpi]), FP.num_div _ (by push_cast; simp [hpi])]
  push_cast
  congr 1
  field_simp
  norm_num

end Snompy.Props
