import Verif.Lemmas.MeanHarmonic
import Verif.Props.DemodRate
import Verif.Props.Monotone
import Mathlib.Analysis.Calculus.IteratedDeriv.Lemmas

/-!
# C110: the harmonics measure the derivatives of the approach curve

The derivative of order `n` is Mathlib's `iteratedDeriv n`.
-/

namespace Snompy

open Filter Topology

theorem hasDerivAt_iteratedDeriv {E : Type} [NormedAddCommGroup E] [NormedSpace ℝ E] {f : ℝ → E} {n k : ℕ} {x : ℝ}
    (hf : ContDiffAt ℝ n f x) (hk : k < n) : HasDerivAt (iteratedDeriv k f) (iteratedDeriv (k + 1) f x) x := by
  have h : DifferentiableAt ℝ (iteratedDeriv k f) x := by
    rw [iteratedDeriv_eq_equiv_comp]
    have h1 := (hf.iteratedFDeriv_right (m := 1) (i := k) (by exact_mod_cast (by omega : 1 + k ≤ n))).differentiableAt one_ne_zero
    exact (LinearIsometryEquiv.differentiableAt _).comp x h1
  rw [iteratedDeriv_succ]
  exact h.hasDerivAt

theorem continuousAt_iteratedDeriv {E : Type} [NormedAddCommGroup E] [NormedSpace ℝ E] {f : ℝ → E} {n : ℕ} {x : ℝ}
    (hf : ContDiffAt ℝ n f x) : ContinuousAt (iteratedDeriv n f) x := by
  rw [iteratedDeriv_eq_equiv_comp]
  have h1 := (hf.iteratedFDeriv_right (m := 0) (i := n) (by rw [zero_add])).continuousAt
  exact (LinearIsometryEquiv.continuous _).continuousAt.comp h1

/-- The limit of small amplitudes. -/
theorem harmonic_limit {F : ℝ → ℂ} {z : ℝ} {n N : ℕ} (hn : n ≠ 0) (hN : 2 * n < N) (hF : ContDiffAt ℝ n F z) :
    Tendsto (fun A : ℝ => demodSum F (z + A) A n N / A ^ n) (𝓝[>] 0)
      (𝓝 (iteratedDeriv n F z / (2 ^ n * n.factorial))) := by
  rw [Metric.tendsto_nhds]
  intro ε hε
  have h1 : ∀ᶠ x in 𝓝 z, ContDiffAt ℝ n F x := hF.eventually (by simp)
  have h2 := Metric.tendsto_nhds.1 (continuousAt_iteratedDeriv hF) (ε / 2) (by linarith)
  obtain ⟨δ, hδ, hb⟩ := Metric.eventually_nhds_iff.1 (h1.and h2)
  have h3 : ∀ᶠ A in 𝓝[>] (0 : ℝ), A ∈ Set.Ioo 0 (δ / 2) := Ioo_mem_nhdsGT (by linarith)
  filter_upwards [h3] with A hA
  have hin : ∀ x ∈ Set.Icc (z + A - A) (z + A + A), dist x z < δ := fun x hx => by
    rw [Real.dist_eq, abs_lt]
    exact ⟨by linarith [hx.1, hA.2], by linarith [hx.2, hA.2]⟩
  have hnear := harmonic_near (N := N) (D := fun k => iteratedDeriv k F) (L := iteratedDeriv n F z) (M := ε / 2) hn hN
    hA.1.le (fun k hk x hx => hasDerivAt_iteratedDeriv (hb (hin x hx)).1 hk) (fun x hx => by
      rw [← dist_eq_norm]
      exact (hb (hin x hx)).2.le)
  rw [iteratedDeriv_zero] at hnear
  have hAn : (0 : ℝ) < A ^ n := pow_pos hA.1 n
  have hAc : (A : ℂ) ^ n ≠ 0 := by exact_mod_cast hAn.ne'
  rw [dist_eq_norm]
  have e : demodSum F (z + A) A n N / A ^ n - iteratedDeriv n F z / (2 ^ n * n.factorial) =
      (demodSum F (z + A) A n N - A ^ n / (2 ^ n * n.factorial) * iteratedDeriv n F z) / (A ^ n : ℂ) := by
    field_simp
  rw [e, norm_div, norm_pow, Complex.norm_real, Real.norm_of_nonneg hA.1.le, div_lt_iff₀ hAn]
  refine hnear.trans_lt ?_
  have hc : (1 : ℝ) ≤ 2 ^ n * n.factorial := by
    have h1 : (1 : ℝ) ≤ 2 ^ n := one_le_pow₀ (by norm_num)
    have h2 : (1 : ℝ) ≤ n.factorial := by exact_mod_cast n.factorial_pos
    nlinarith
  have : A ^ n / (2 ^ n * n.factorial) ≤ A ^ n := div_le_self hAn.le hc
  nlinarith

/-- Quotients of complex-valued functions of a real variable. -/
theorem contDiffAt_quot {f g : ℝ → ℂ} {x : ℝ} {n : ℕ} (hf : ContDiffAt ℝ n f x) (hg : ContDiffAt ℝ n g x)
    (h0 : g x ≠ 0) : ContDiffAt ℝ n (fun x => f x / g x) x := by
  simp only [div_eq_mul_inv]
  exact hf.mul (hg.inv h0)

theorem pdm_contDiff {r x : ℝ} {α β : ℂ} (h : r + x ≠ 0) (h1 : 1 - Pdm.geom x r α * β ≠ 0) (n : ℕ) :
    ContDiffAt ℝ n (fun x : ℝ => α / (1 - Pdm.geom x r α * β)) x := by
  have hpi : (Real.pi : ℂ) ≠ 0 := by exact_mod_cast Real.pi_ne_zero
  have hrz : (r + x : ℂ) ≠ 0 := by exact_mod_cast h
  have hc : ContDiffAt ℝ n (fun x : ℝ => (x : ℂ)) x := Complex.ofRealCLM.contDiff.contDiffAt
  refine contDiffAt_quot contDiffAt_const (contDiffAt_const.sub (ContDiffAt.mul ?_ contDiffAt_const)) h1
  unfold Pdm.geom
  exact contDiffAt_quot contDiffAt_const (contDiffAt_const.mul ((contDiffAt_const.add hc).pow 3))
    (mul_ne_zero (mul_ne_zero (by norm_num) hpi) (pow_ne_zero 3 hrz))

theorem fdmGeom_contDiff {x d r l : ℝ} (g : ℂ) (h : Fdm.GeomOk x d r l) (n : ℕ) :
    ContDiffAt ℝ n (fun x : ℝ => Fdm.geom x d r l g) x := by
  have hl := h.l_pos
  have hd := h.den
  have hc : ∀ f : ℝ → ℝ, ContDiffAt ℝ n f x → ContDiffAt ℝ n (fun x : ℝ => (f x : ℂ)) x := fun f hf =>
    Complex.ofRealCLM.contDiff.contDiffAt.comp x hf
  unfold Fdm.geom
  refine ContDiffAt.div_const (ContDiffAt.mul (contDiffAt_const.sub (hc _ ?_)) (hc _ ?_)) _
  · exact ContDiffAt.div_const (by fun_prop) _
  · exact ContDiffAt.log (contDiffAt_const.div (by fun_prop) hd.ne') (by positivity)

theorem fdm_contDiff {x d0 d1 r l : ℝ} {g β : ℂ} (h0 : Fdm.GeomOk x d0 r l) (h1 : Fdm.GeomOk x d1 r l)
    (hd : 1 - β * Fdm.geom x d1 r l g ≠ 0) (n : ℕ) :
    ContDiffAt ℝ n (fun x : ℝ => 1 + β * Fdm.geom x d0 r l g / (2 * (1 - β * Fdm.geom x d1 r l g))) x :=
  contDiffAt_const.add (contDiffAt_quot (contDiffAt_const.mul (fdmGeom_contDiff g h0 n))
    (contDiffAt_const.mul (contDiffAt_const.sub (contDiffAt_const.mul (fdmGeom_contDiff g h1 n))))
    (mul_ne_zero two_ne_zero hd))

theorem pdm_open {r x : ℝ} {α β : ℂ} (h : 0 < r + x) (h1 : 1 - Pdm.geom x r α * β ≠ 0) :
    ∀ᶠ y in 𝓝 x, 0 < r + y ∧ 1 - Pdm.geom y r α * β ≠ 0 := by
  have hpi : (Real.pi : ℂ) ≠ 0 := by exact_mod_cast Real.pi_ne_zero
  have hrz : (r + x : ℂ) ≠ 0 := by exact_mod_cast h.ne'
  have hc : ContinuousAt (fun y : ℝ => 1 - Pdm.geom y r α * β) x := by
    unfold Pdm.geom
    refine continuousAt_const.sub (ContinuousAt.mul (ContinuousAt.div continuousAt_const ?_
      (mul_ne_zero (mul_ne_zero (by norm_num) hpi) (pow_ne_zero 3 hrz))) continuousAt_const)
    exact Continuous.continuousAt (by fun_prop)
  exact (ContinuousAt.eventually_lt continuousAt_const (Continuous.continuousAt (by fun_prop)) h).and (hc.eventually_ne h1)

theorem fdm_open {x d0 d1 r l : ℝ} {g β : ℂ} (h0 : Fdm.GeomOk x d0 r l) (h1 : Fdm.GeomOk x d1 r l)
    (hd : 1 - β * Fdm.geom x d1 r l g ≠ 0) :
    ∀ᶠ y in 𝓝 x, Fdm.GeomOk y d0 r l ∧ Fdm.GeomOk y d1 r l ∧ 1 - β * Fdm.geom y d1 r l g ≠ 0 := by
  have ok : ∀ d, Fdm.GeomOk x d r l → ∀ᶠ y in 𝓝 x, Fdm.GeomOk y d r l := fun d h => by
    have : ∀ᶠ y in 𝓝 x, 0 < r + 4 * y + 2 * d * r :=
      ContinuousAt.eventually_lt continuousAt_const (Continuous.continuousAt (by fun_prop)) h.den
    filter_upwards [this] with y hy
    exact ⟨h.r_pos, h.l_pos, h.ne, hy⟩
  have hc : ContinuousAt (fun y : ℝ => 1 - β * Fdm.geom y d1 r l g) x :=
    continuousAt_const.sub (continuousAt_const.mul (fdmGeom_contDiff g h1 0).continuousAt)
  exact (ok d0 h0).and ((ok d1 h1).and (hc.eventually_ne hd))

/-- Small oscillations stay in a neighbourhood. -/
theorem small_amplitude {p : ℝ → Prop} {z : ℝ} (h : ∀ᶠ x in 𝓝 z, p x) :
    ∀ᶠ A in 𝓝[>] (0 : ℝ), 0 < A ∧ ∀ x, z ≤ x → x ≤ z + 2 * A → p x := by
  obtain ⟨δ, hδ, hb⟩ := Metric.eventually_nhds_iff.1 h
  have h3 : ∀ᶠ A in 𝓝[>] (0 : ℝ), A ∈ Set.Ioo 0 (δ / 2) := Ioo_mem_nhdsGT (by linarith)
  filter_upwards [h3] with A hA
  refine ⟨hA.1, fun x h1 h2 => hb ?_⟩
  rw [Real.dist_eq, abs_lt]
  exact ⟨by linarith, by linarith [hA.2]⟩

namespace Props

/-! ## C110 The harmonics measure the derivatives of the approach curve -/

/-- Harmonic `n` of a real signal is the derivative of order `n` at some height of the oscillation. -/
theorem C110_mean_value (env : Env) (f : ℝ → ℝ) (x0 A : ℝ) (hA : 0 ≤ A) (n N : ℕ) (hn : n ≠ 0) (hN : 2 * n < N)
    (hf : ∀ x ∈ Set.Icc (x0 - A) (x0 + A), ContDiffAt ℝ n f x) :
    ∃ ξ ∈ Set.Icc (x0 - A) (x0 + A),
      demod env (onFinite fun x => (f x : ℂ)) (FP.num x0) (FP.num A) (FP.num n) (some N) =
        .ok (FP.num ((A ^ n / (2 ^ n * n.factorial) * iteratedDeriv n f ξ : ℝ) : ℂ)) := by
  obtain ⟨ξ, hξ, h⟩ := harmonic_mean_value (D := fun k => iteratedDeriv k f) hn hN hA
    (fun k hk x hx => hasDerivAt_iteratedDeriv (hf x hx) hk)
  refine ⟨ξ, hξ, ?_⟩
  rw [demod_onFinite env _ x0 A n (some N) (by rw [Option.getD_some]; omega), Option.getD_some]
  rw [iteratedDeriv_zero] at h
  rw [h]

example (env : Env) := C110_mean_value env Real.exp 0 1 zero_le_one 3 7 (by norm_num) (by norm_num)
  (fun x _ => Real.contDiff_exp.contDiffAt)

/-- Harmonic `n` of a complex signal is as close to the derivative of order `n` at one height as the derivative varies. -/
theorem C110_near (env : Env) (f : ℝ → ℂ) (x0 A M : ℝ) (L : ℂ) (hA : 0 ≤ A) (n N : ℕ) (hn : n ≠ 0) (hN : 2 * n < N)
    (hf : ∀ x ∈ Set.Icc (x0 - A) (x0 + A), ContDiffAt ℝ n f x)
    (hM : ∀ x ∈ Set.Icc (x0 - A) (x0 + A), ‖iteratedDeriv n f x - L‖ ≤ M) :
    ∃ v, demod env (onFinite f) (FP.num x0) (FP.num A) (FP.num n) (some N) = .ok (FP.num v) ∧
      ‖v - A ^ n / (2 ^ n * n.factorial) * L‖ ≤ A ^ n / (2 ^ n * n.factorial) * M := by
  refine ⟨_, demod_onFinite env _ x0 A n (some N) (by rw [Option.getD_some]; omega), ?_⟩
  have h := harmonic_near (N := N) (D := fun k => iteratedDeriv k f) hn hN hA
    (fun k hk x hx => hasDerivAt_iteratedDeriv (hf x hx) hk) hM
  rwa [iteratedDeriv_zero] at h

example (env : Env) := C110_near env (fun x : ℝ => (x : ℂ)) 0 1 0 1 zero_le_one 1 3 (by norm_num) (by norm_num)
  (fun x _ => Complex.ofRealCLM.contDiff.contDiffAt) (fun x _ => by
    rw [iteratedDeriv_one]
    have : HasDerivAt (fun x : ℝ => (x : ℂ)) 1 x := Complex.ofRealCLM.hasDerivAt
    rw [this.deriv, sub_self, norm_zero])

/-- The bound on harmonic `n`: derivatives of order `n` up to `M` give at most `M Aⁿ / (2ⁿ n!)`. -/
theorem C110_bound (env : Env) (f : ℝ → ℂ) (x0 A M : ℝ) (hA : 0 ≤ A) (n N : ℕ) (hn : n ≠ 0) (hN : 2 * n < N)
    (hf : ∀ x ∈ Set.Icc (x0 - A) (x0 + A), ContDiffAt ℝ n f x)
    (hM : ∀ x ∈ Set.Icc (x0 - A) (x0 + A), ‖iteratedDeriv n f x‖ ≤ M) :
    ∃ v, demod env (onFinite f) (FP.num x0) (FP.num A) (FP.num n) (some N) = .ok (FP.num v) ∧
      ‖v‖ ≤ A ^ n / (2 ^ n * n.factorial) * M := by
  obtain ⟨v, h1, h2⟩ := C110_near env f x0 A M 0 hA n N hn hN hf (fun x hx => by rw [sub_zero]; exact hM x hx)
  exact ⟨v, h1, by simpa using h2⟩

example (env : Env) := C110_bound env (fun x : ℝ => (x : ℂ)) 0 1 1 zero_le_one 1 3 (by norm_num) (by norm_num)
  (fun x _ => Complex.ofRealCLM.contDiff.contDiffAt) (fun x _ => by
    rw [iteratedDeriv_one]
    have : HasDerivAt (fun x : ℝ => (x : ℂ)) 1 x := Complex.ofRealCLM.hasDerivAt
    rw [this.deriv, norm_one])

/-- The point dipole model: at small amplitudes harmonic `n` measures the derivative of order `n` of the approach curve. -/
theorem C110_pdm (env : Env) (s : Stack (FP ℝ) (FP ℂ)) (β : ℂ) (hβ : s.reflCoefQs = .ok (FP.num β)) (z r : ℝ) (α : ℂ)
    (hrz : 0 < r + z) (hres : 1 - Pdm.geom z r α * β ≠ 0) (n N : ℕ) (hn : n ≠ 0) (hN : 2 * n < N) :
    ∃ F S : ℝ → ℂ,
      (∀ᶠ x in 𝓝 z, Pdm.effPol env s (some (FP.num x)) (tip r α) = .ok (FP.num (F x))) ∧
      (∀ᶠ A in 𝓝[>] 0, Pdm.effPolN env s (FP.num A) (FP.num n) (some (FP.num z)) (some N) (tip r α) =
        .ok (FP.num (S A))) ∧
      Tendsto (fun A => S A / A ^ n) (𝓝[>] 0) (𝓝 (iteratedDeriv n F z / (2 ^ n * n.factorial))) := by
  refine ⟨fun x : ℝ => α / (1 - Pdm.geom x r α * β), fun A => demodSum (fun x : ℝ => α / (1 - Pdm.geom x r α * β)) (z + A) A n N,
    ?_, ?_, harmonic_limit hn hN (pdm_contDiff hrz.ne' hres n)⟩
  · filter_upwards [pdm_open hrz hres] with x hx
    exact Pdm.effPol_val env s _ x r α β (pdm_tip env r α) hβ hx.1.ne' hx.2
  · filter_upwards [small_amplitude (pdm_open hrz hres)] with A hA
    unfold Pdm.effPolN
    dsimp only
    rw [Option.getD_some, FP.num_add]
    rw [demod_ext env _ (onFinite fun x : ℝ => α / (1 - Pdm.geom x r α * β)) (z + A) hA.1.le _ _ fun x h1 h2 => ?_]
    · exact demod_onFinite env _ (z + A) A n (some N) (by rw [Option.getD_some]; omega)
    · have hx := hA.2 x (by linarith) (by linarith)
      exact Pdm.effPol_val env s _ x r α β (pdm_tip env r α) hβ hx.1.ne' hx.2

/-- A conducting sphere above a dielectric. -/
example (env : Env) := C110_pdm env (bulk 1 2) ((1 / 3 : ℝ) : ℂ) (by
    rw [C09_refl 1 2 none _ two_ne_zero (by norm_num)]
    norm_num) 0 1 ((4 * Real.pi * 1 ^ 3 : ℝ) : ℂ) (by norm_num) (by
    rw [geom_conductor one_pos le_rfl, ← Complex.ofReal_mul]
    have h3 : 1 - (1 : ℝ) ^ 3 / (4 * (1 + 0) ^ 3) * (1 / 3) ≠ 0 := by norm_num
    exact_mod_cast h3) 3 32 (by norm_num) (by norm_num)

/-- The finite dipole model. -/
theorem C110_fdm (env : Env) (s : Stack (FP ℝ) (FP ℂ)) (hm : s.multilayer = false) (β : ℂ)
    (hβ : s.reflCoefQs = .ok (FP.num β)) (z r l : ℝ) (g : ℂ) (d0 d1 dA : ℝ) (h0 : Fdm.GeomOk z d0 r l)
    (h1 : Fdm.GeomOk z d1 r l) (hres : 1 - β * Fdm.geom z d1 r l g ≠ 0) (nLag : Option ℕ) (n N : ℕ) (hn : n ≠ 0)
    (hN : 2 * n < N) :
    ∃ F S : ℝ → ℂ,
      (∀ᶠ x in 𝓝 z, Fdm.effPol env s (some (FP.num x)) (fdmTip r l g d0 d1 dA) nLag (some "bulk") =
        .ok (FP.num (F x))) ∧
      (∀ᶠ A in 𝓝[>] 0, Fdm.effPolN env s (FP.num A) (FP.num n) (some (FP.num z)) (some N) (fdmTip r l g d0 d1 dA) nLag
        (some "bulk") = .ok (FP.num (S A))) ∧
      Tendsto (fun A => S A / A ^ n) (𝓝[>] 0) (𝓝 (iteratedDeriv n F z / (2 ^ n * n.factorial))) := by
  set F : ℝ → ℂ := fun x : ℝ => 1 + β * Fdm.geom x d0 r l g / (2 * (1 - β * Fdm.geom x d1 r l g)) with hF
  refine ⟨F, fun A => demodSum F (z + A) A n N, ?_, ?_, harmonic_limit hn hN (fdm_contDiff h0 h1 hres n)⟩
  · filter_upwards [fdm_open h0 h1 hres] with x hx
    exact effPol_val env s hm β hβ x r l g d0 d1 dA hx.1 hx.2.1 hx.2.2 nLag
  · filter_upwards [small_amplitude (fdm_open h0 h1 hres)] with A hA
    unfold Fdm.effPolN
    dsimp only
    rw [Option.getD_some, FP.num_add]
    rw [demod_ext env _ (onFinite F) (z + A) hA.1.le _ _ fun x h1 h2 => ?_]
    · exact demod_onFinite env _ (z + A) A n (some N) (by rw [Option.getD_some]; omega)
    · have hx := hA.2 x (by linarith) (by linarith)
      exact effPol_val env s hm β hβ x r l g d0 d1 dA hx.1 hx.2.1 hx.2.2 nLag

/-- A tip with a complex `g_factor` above a dielectric. -/
example (env : Env) := C110_fdm env (bulk 1 2) rfl ((1 / 3 : ℝ) : ℂ) (by
    rw [C09_refl 1 2 none _ two_ne_zero (by norm_num)]
    norm_num) 0 1 300 Complex.I 1 (1 / 2) 1.4 example_geomOk.1 example_geomOk.2 (by
    have him : (Fdm.geom 0 (1 / 2) 1 300 Complex.I).im ≠ 0 := by
      unfold Fdm.geom
      rw [Complex.div_ofReal_im, Complex.im_mul_ofReal, Complex.sub_im, Complex.ofReal_im, Complex.I_im]
      have h1 : 0 < Real.log (4 * 300 / (1 + 4 * 0 + 2 * (1 / 2) * 1)) := Real.log_pos (by norm_num)
      have h2 : 0 < Real.log (4 * 300 / 1 : ℝ) := Real.log_pos (by norm_num)
      simp only [sub_zero, one_mul]
      exact (div_pos h1 h2).ne'
    exact sub_ne_zero.2 (example_im_ne him (1 / 3)).symm) none 2 32 (by norm_num) (by norm_num)

/-- The point dipole model above a dielectric: at every amplitude, harmonic `n` is the derivative of order `n` of the
approach curve at some height of the oscillation. -/
theorem C110_pdm_real (env : Env) (s : Stack (FP ℝ) (FP ℂ)) (b : ℝ) (hβ : s.reflCoefQs = .ok (FP.num (b : ℂ)))
    (z A r α : ℝ) (hA : 0 ≤ A) (hrz : 0 < r + z) (hres : ∀ x ∈ Set.Icc z (z + 2 * A), 1 - Pdm.geom x r α * b ≠ 0)
    (n N : ℕ) (hn : n ≠ 0) (hN : 2 * n < N) :
    ∃ f : ℝ → ℝ,
      (∀ x ∈ Set.Icc z (z + 2 * A), ∀ᶠ y in 𝓝 x,
        Pdm.effPol env s (some (FP.num y)) (tip r α) = .ok (FP.num (f y : ℂ))) ∧
      ∃ ξ ∈ Set.Icc z (z + 2 * A),
        Pdm.effPolN env s (FP.num A) (FP.num n) (some (FP.num z)) (some N) (tip r α) =
          .ok (FP.num ((A ^ n / (2 ^ n * n.factorial) * iteratedDeriv n f ξ : ℝ) : ℂ)) := by
  set F : ℝ → ℂ := fun x : ℝ => α / (1 - Pdm.geom x r α * b) with hF
  have hreal : ∀ x, F x = ((F x).re : ℂ) := fun x => by
    have : F x = ((α / (1 - α / (16 * Real.pi * (r + x) ^ 3) * b) : ℝ) : ℂ) := by
      simp only [hF, Pdm.geom]
      push_cast
      rfl
    rw [this, Complex.ofReal_re]
  have hI : Set.Icc (z + A - A) (z + A + A) = Set.Icc z (z + 2 * A) := by
    congr 1 <;> ring
  have hval : ∀ x, 0 < r + x → 1 - Pdm.geom x r α * b ≠ 0 →
      Pdm.effPol env s (some (FP.num x)) (tip r α) = .ok (FP.num ((F x).re : ℂ)) := fun x h h' => by
    rw [← hreal]
    exact Pdm.effPol_val env s _ x r α b (pdm_tip env r α) hβ h.ne' h'
  refine ⟨fun x => (F x).re, fun x hx => ?_, ?_⟩
  · filter_upwards [pdm_open (by linarith [hx.1]) (hres x hx)] with y hy
    exact hval y hy.1 hy.2
  · obtain ⟨ξ, hξ, h⟩ := C110_mean_value env (fun x => (F x).re) (z + A) A hA n N hn hN (fun x hx => by
      rw [hI] at hx
      exact Complex.reCLM.contDiff.contDiffAt.comp x
        (pdm_contDiff (by linarith [hx.1] : 0 < r + x).ne' (hres x hx) n))
    rw [hI] at hξ
    refine ⟨ξ, hξ, ?_⟩
    rw [← h]
    unfold Pdm.effPolN
    dsimp only
    rw [Option.getD_some, FP.num_add]
    exact demod_ext env _ _ (z + A) hA _ _ fun x h1 h2 =>
      hval x (by linarith) (hres x ⟨by linarith, by linarith⟩)

/-- A conducting sphere above a dielectric. -/
example (env : Env) := C110_pdm_real env (bulk 1 2) (1 / 3) (by
    rw [C09_refl 1 2 none _ two_ne_zero (by norm_num)]
    norm_num) 0 1 1 (4 * Real.pi * 1 ^ 3) zero_le_one (by norm_num) (fun x h => by
    rw [geom_conductor one_pos h.1, ← Complex.ofReal_mul]
    have h1 : (1 : ℝ) ≤ (1 + x) ^ 3 := one_le_pow₀ (by linarith [h.1])
    have h2 : (1 : ℝ) ^ 3 / (4 * (1 + x) ^ 3) ≤ 1 / 4 := by
      rw [div_le_div_iff₀ (by positivity) (by norm_num)]
      linarith
    have h3 : 1 - (1 : ℝ) ^ 3 / (4 * (1 + x) ^ 3) * (1 / 3) ≠ 0 := by linarith
    exact_mod_cast h3) 3 32 (by norm_num) (by norm_num)

/-- The finite dipole model with a real `g_factor` above a dielectric. -/
theorem C110_fdm_real (env : Env) (s : Stack (FP ℝ) (FP ℂ)) (hm : s.multilayer = false) (b : ℝ)
    (hβ : s.reflCoefQs = .ok (FP.num (b : ℂ))) (z A r l g d0 d1 dA : ℝ) (hA : 0 ≤ A) (h0 : Fdm.GeomOk z d0 r l)
    (h1 : Fdm.GeomOk z d1 r l) (hres : ∀ x ∈ Set.Icc z (z + 2 * A), 1 - b * Fdm.geom x d1 r l g ≠ 0)
    (nLag : Option ℕ) (n N : ℕ) (hn : n ≠ 0) (hN : 2 * n < N) :
    ∃ f : ℝ → ℝ,
      (∀ x ∈ Set.Icc z (z + 2 * A), ∀ᶠ y in 𝓝 x,
        Fdm.effPol env s (some (FP.num y)) (fdmTip r l g d0 d1 dA) nLag (some "bulk") = .ok (FP.num (f y : ℂ))) ∧
      ∃ ξ ∈ Set.Icc z (z + 2 * A),
        Fdm.effPolN env s (FP.num A) (FP.num n) (some (FP.num z)) (some N) (fdmTip r l g d0 d1 dA) nLag (some "bulk") =
          .ok (FP.num ((A ^ n / (2 ^ n * n.factorial) * iteratedDeriv n f ξ : ℝ) : ℂ)) := by
  have ok : ∀ d x : ℝ, Fdm.GeomOk z d r l → z ≤ x → Fdm.GeomOk x d r l := fun d x h hx =>
    ⟨h.r_pos, h.l_pos, h.ne, by have := h.den; linarith⟩
  set F : ℝ → ℂ := fun x : ℝ => 1 + b * Fdm.geom x d0 r l g / (2 * (1 - b * Fdm.geom x d1 r l g)) with hF
  have hgeom : ∀ x d : ℝ, ∃ y : ℝ, Fdm.geom x d r l g = (y : ℂ) := fun x d =>
    ⟨(g - (r + 2 * x + d * r) / (2 * l)) * Real.log (4 * l / (r + 4 * x + 2 * d * r)) / Real.log (4 * l / r), by
      unfold Fdm.geom
      push_cast
      rfl⟩
  have hreal : ∀ x, F x = ((F x).re : ℂ) := fun x => by
    obtain ⟨y0, e0⟩ := hgeom x d0
    obtain ⟨y1, e1⟩ := hgeom x d1
    have : F x = ((1 + b * y0 / (2 * (1 - b * y1)) : ℝ) : ℂ) := by
      simp only [hF, e0, e1]
      push_cast
      rfl
    rw [this, Complex.ofReal_re]
  have hI : Set.Icc (z + A - A) (z + A + A) = Set.Icc z (z + 2 * A) := by
    congr 1 <;> ring
  have hval : ∀ x, Fdm.GeomOk x d0 r l → Fdm.GeomOk x d1 r l → 1 - b * Fdm.geom x d1 r l g ≠ 0 →
      Fdm.effPol env s (some (FP.num x)) (fdmTip r l g d0 d1 dA) nLag (some "bulk") = .ok (FP.num ((F x).re : ℂ)) :=
    fun x h h' h'' => by
      rw [← hreal]
      exact effPol_val env s hm b hβ x r l g d0 d1 dA h h' h'' nLag
  refine ⟨fun x => (F x).re, fun x hx => ?_, ?_⟩
  · filter_upwards [fdm_open (ok d0 x h0 hx.1) (ok d1 x h1 hx.1) (hres x hx)] with y hy
    exact hval y hy.1 hy.2.1 hy.2.2
  · obtain ⟨ξ, hξ, h⟩ := C110_mean_value env (fun x => (F x).re) (z + A) A hA n N hn hN (fun x hx => by
      rw [hI] at hx
      exact Complex.reCLM.contDiff.contDiffAt.comp x
        (fdm_contDiff (ok d0 x h0 hx.1) (ok d1 x h1 hx.1) (hres x hx) n))
    rw [hI] at hξ
    refine ⟨ξ, hξ, ?_⟩
    rw [← h]
    unfold Fdm.effPolN
    dsimp only
    rw [Option.getD_some, FP.num_add]
    exact demod_ext env _ _ (z + A) hA _ _ fun x hx1 hx2 =>
      hval x (ok d0 x h0 (by linarith)) (ok d1 x h1 (by linarith)) (hres x ⟨by linarith, by linarith⟩)

/-- A tip above a dielectric. -/
example (env : Env) := C110_fdm_real env (bulk 1 2) rfl (1 / 3) (by
    rw [C09_refl 1 2 none _ two_ne_zero (by norm_num)]
    norm_num) 0 1 1 300 0.7 1 (1 / 2) 1.4 zero_le_one example_geomOk.1 example_geomOk.2
  (fun x hx => by
    have := rgeom_lt_one (z := x) (d := 1 / 2) (r := 1) (l := 300) (g := 0.7)
      ⟨by norm_num, by norm_num, by norm_num, hx.1, by norm_num, by linarith [hx.2], by linarith [hx.2]⟩
    rw [geom_rgeom]
    have h3 : 1 - (1 / 3 : ℝ) * rgeom x (1 / 2) 1 300 0.7 ≠ 0 := by
      intro h
      linarith
    exact_mod_cast h3) none 2 32 (by norm_num) (by norm_num)

end Props

end Snompy
