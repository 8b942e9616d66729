import Verif.Lemmas.Synthesis
import Verif.Spec.Synthesis
import Verif.Props.DemodRate

/-!
# C107: the harmonics rebuild the signal
-/

namespace Snompy.Props

open Snompy Finset Filter Topology

/-- `N` harmonics of `N` trapezia rebuild the samples, have the energy of the samples, and mirror each other. -/
theorem C107_samples (env : Env) (f : FP ℝ → PyM (FP ℂ)) (g : ℝ → ℂ) (x0 amp : ℝ) (hA : 0 ≤ amp)
    (hf : ∀ x, x0 - amp ≤ x → x ≤ x0 + amp → f (FP.num x) = .ok (FP.num (g x))) (N : ℕ) (hN : N ≠ 0) :
    ∃ v : ℕ → ℂ, (∀ n : ℕ, demod env f (FP.num x0) (FP.num amp) (FP.num n) (some N) = .ok (FP.num (v n))) ∧
      (∀ k < N, ∑ n ∈ range N, v n * Complex.exp (Complex.I * n * phase N k) = g (x0 + amp * Real.cos (phase N k))) ∧
      ∑ n ∈ range N, ‖v n‖ ^ 2 = (∑ k ∈ range N, ‖g (x0 + amp * Real.cos (phase N k))‖ ^ 2) / N ∧
      ∀ n ≤ N, v (N - n) = (-1) ^ N * v n := by
  have hm : ∀ n : ℕ, demodSum g x0 amp n N = meanN N (mode (-(n : ℤ)) * fun θ => g (x0 + Real.cos θ * amp)) := fun n =>
    demodSum_mean g x0 amp n hN
  refine ⟨fun n => demodSum g x0 amp n N, fun n => ?_, fun k hk => ?_, ?_, fun n hn => ?_⟩
  · rw [demod_ext env _ (onFinite g) x0 hA _ _ fun x h1 h2 => hf x h1 h2, demod_onFinite env g x0 amp n (some N) hN]
    rfl
  · have := synthesis hN (fun θ => g (x0 + Real.cos θ * amp)) hk
    simp only [← hm] at this
    rw [mul_comm amp, ← this]
    refine sum_congr rfl fun n _ => ?_
    simp [mode]
  · have := parseval hN fun θ => g (x0 + Real.cos θ * amp)
    simp only [← hm] at this
    rw [this]
    simp only [mul_comm amp]
  · have := demodSum_mirror g x0 amp (n := n) hN
    rw [← this]
    push_cast [Nat.cast_sub hn]
    rfl

example (env : Env) := C107_samples env (onFinite fun x => (x : ℂ) ^ 2) (fun x => (x : ℂ) ^ 2) 1 1 zero_le_one (fun _ _ _ => rfl) 3
  (by norm_num)

/-- No harmonic exceeds the root mean square of the samples. -/
theorem C107_rms (env : Env) (f : FP ℝ → PyM (FP ℂ)) (g : ℝ → ℂ) (x0 amp : ℝ) (hA : 0 ≤ amp)
    (hf : ∀ x, x0 - amp ≤ x → x ≤ x0 + amp → f (FP.num x) = .ok (FP.num (g x))) (N : ℕ) (n : ℕ) (hn : n < N) :
    ∃ v, demod env f (FP.num x0) (FP.num amp) (FP.num n) (some N) = .ok (FP.num v) ∧
      ‖v‖ ^ 2 ≤ (∑ k ∈ range N, ‖g (x0 + amp * Real.cos (phase N k))‖ ^ 2) / N := by
  obtain ⟨v, hv, -, h, -⟩ := C107_samples env f g x0 amp hA hf N (by omega)
  refine ⟨v n, hv n, ?_⟩
  rw [← h]
  exact single_le_sum (f := fun n => ‖v n‖ ^ 2) (fun i _ => by positivity) (mem_range.2 hn)

example (env : Env) := C107_rms env (onFinite fun x => (x : ℂ) ^ 2) (fun x => (x : ℂ) ^ 2) 1 1 zero_le_one (fun _ _ _ => rfl) 3 1
  (by norm_num)

/-- The FDM, for every sample and method that is finite along the oscillation. -/
theorem C107_fdm_samples (env : Env) (s : Stack (FP ℝ) (FP ℂ)) (a : FdmArgs (FP ℝ) (FP ℂ)) (nLag : Option ℕ) (m : Option String)
    (z amp : ℝ) (hA : 0 ≤ amp) (f : ℝ → ℂ)
    (hf : ∀ x, z ≤ x → x ≤ z + 2 * amp → Fdm.effPol env s (some (FP.num x)) a nLag m = .ok (FP.num (f x))) (N : ℕ) (hN : N ≠ 0) :
    ∃ v : ℕ → ℂ, (∀ n : ℕ, Fdm.effPolN env s (FP.num amp) (FP.num n) (some (FP.num z)) (some N) a nLag m = .ok (FP.num (v n))) ∧
      ∀ k < N, ∑ n ∈ range N, v n * Complex.exp (Complex.I * n * phase N k) = f (z + amp * (1 + Real.cos (phase N k))) := by
  obtain ⟨v, h1, h2, -⟩ := C107_samples env (fun x => Fdm.effPol env s (some x) a nLag m) f (z + amp) amp hA
    (fun x hx hx' => hf x (by linarith) (by linarith)) N hN
  exact ⟨v, h1, fun k hk => by rw [h2 k hk]; congr 1; ring⟩

/-- The PDM. -/
theorem C107_pdm_samples (env : Env) (s : Stack (FP ℝ) (FP ℂ)) (a : PdmArgs (FP ℝ) (FP ℂ)) (z amp : ℝ) (hA : 0 ≤ amp) (f : ℝ → ℂ)
    (hf : ∀ x, z ≤ x → x ≤ z + 2 * amp → Pdm.effPol env s (some (FP.num x)) a = .ok (FP.num (f x))) (N : ℕ) (hN : N ≠ 0) :
    ∃ v : ℕ → ℂ, (∀ n : ℕ, Pdm.effPolN env s (FP.num amp) (FP.num n) (some (FP.num z)) (some N) a = .ok (FP.num (v n))) ∧
      ∀ k < N, ∑ n ∈ range N, v n * Complex.exp (Complex.I * n * phase N k) = f (z + amp * (1 + Real.cos (phase N k))) := by
  obtain ⟨v, h1, h2, -⟩ := C107_samples env (fun x => Pdm.effPol env s (some x) a) f (z + amp) amp hA
    (fun x hx hx' => hf x (by linarith) (by linarith)) N hN
  exact ⟨v, h1, fun k hk => by rw [h2 k hk]; congr 1; ring⟩

/-! ## Continuous phases -/

theorem lockin_neg (g : ℝ → ℂ) (x0 amp n : ℝ) : lockin g x0 amp (-n) = lockin g x0 amp n := by
  unfold lockin
  congr 1
  have h := intervalIntegral.integral_comp_neg (a := -Real.pi) (b := Real.pi)
    fun θ : ℝ => g (x0 + amp * Real.cos θ) * Complex.exp (-Complex.I * n * θ)
  rw [neg_neg] at h
  rw [← h]
  refine intervalIntegral.integral_congr fun θ _ => ?_
  simp

/-- The cosine series of an analytic signal, and how fast it converges. -/
theorem cosines_error {G : ℂ → ℂ} {x0 amp s M : ℝ} (hA : 0 < amp) (hs : 0 < s)
    (hd : ∀ u ∈ ellipse x0 amp s, DifferentiableAt ℂ G u) (hM : ∀ u ∈ ellipse x0 amp s, ‖G u‖ ≤ M) (K : ℕ) (θ : ℝ) :
    ‖G (x0 + amp * Real.cos θ : ℝ) - cosines (fun n => lockin (fun x => G x) x0 amp n) K θ‖ ≤
      2 * M * Real.exp (-(s * K)) / (Real.exp s - 1) := by
  set c : ℤ → ℂ := fun n => lockin (fun x => G x) x0 amp n with hc
  have hsum : HasSum (fun k : ℤ => c k * mode k θ) (G (x0 + amp * Real.cos θ : ℝ)) := by
    obtain ⟨h1, h2, h3⟩ := strip_regular (H := fun w => G (x0 + amp * Complex.cos w)) hs
      (fun w => by simp only [Complex.cos_add_two_pi])
      (fun w hw => by
        refine DifferentiableAt.differentiableWithinAt ?_
        refine DifferentiableAt.comp w (hd _ (ellipse_cos hA hw)) ?_
        fun_prop)
      (fun w hw => hM _ (ellipse_cos hA hw))
    have e : ∀ k : ℤ, c k = mean (mode (-k) * fun θ : ℝ => G (x0 + amp * Complex.cos θ)) := fun k => by
      rw [hc]
      simp only
      rw [lockin_eq, wave_eq]
      congr 2
      funext θ
      push_cast
      rw [mul_comm (amp : ℂ)]
    have := fourier_hasSum h1 h2 h3 θ
    simp only [← e] at this
    push_cast
    exact this
  have hnat := hsum.nat_add_neg
  have hterm : ∀ n : ℕ, c n * mode n θ + c (-(n : ℤ)) * mode (-(n : ℤ)) θ = 2 * (c n * (Real.cos (n * θ) : ℂ)) := fun n => by
    have e1 : c (-(n : ℤ)) = c n := by
      rw [hc]
      simp only
      push_cast
      exact lockin_neg _ _ _ _
    rw [e1, Complex.ofReal_cos, Complex.cos]
    unfold mode
    push_cast
    ring_nf
  simp only [hterm] at hnat
  have hdec : ∀ n : ℕ, ‖2 * (c n * (Real.cos (n * θ) : ℂ))‖ ≤ 2 * M * Real.exp (-s) ^ n := fun n => by
    have h1 := lockin_decay hA hs hd hM (n : ℤ)
    have h2 := Real.abs_cos_le_one (n * θ)
    rw [norm_mul, norm_mul, Complex.norm_real, Real.norm_eq_abs, Complex.norm_ofNat, ← Real.exp_nat_mul]
    rw [show -(s * |((n : ℤ) : ℝ)|) = n * -s by rw [Int.cast_natCast, Nat.abs_cast]; ring] at h1
    have h3 : ‖c n‖ * |Real.cos (n * θ)| ≤ ‖c n‖ * 1 := mul_le_mul_of_nonneg_left h2 (norm_nonneg _)
    have h4 : ‖c n‖ = ‖lockin (fun x => G x) x0 amp ((n : ℤ) : ℝ)‖ := rfl
    rw [← h4] at h1
    linarith
  have := norm_sub_le_of_geometric_bound_of_hasSum (Real.exp_lt_one_iff.2 (by linarith)) hdec hnat (K + 1)
  rw [sum_range_succ'] at this
  have e : ∑ k ∈ range K, 2 * (c ((k + 1 : ℕ) : ℤ) * (Real.cos ((k + 1 : ℕ) * θ) : ℂ)) +
      2 * (c ((0 : ℕ) : ℤ) * (Real.cos ((0 : ℕ) * θ) : ℂ)) -
      (G (x0 + amp * Real.cos θ : ℝ) + c 0 * mode 0 θ) =
      -(G (x0 + amp * Real.cos θ : ℝ) - cosines (fun n => lockin (fun x => G x) x0 amp n) K θ) := by
    unfold cosines
    rw [← mul_sum, mode_zero]
    simp only [hc]
    push_cast
    simp
    ring
  rw [e, norm_neg] at this
  refine this.trans (le_of_eq ?_)
  have he := Real.exp_pos s
  rw [pow_succ, ← Real.exp_nat_mul, Real.exp_neg s]
  have : Real.exp s - 1 ≠ 0 := by
    have := Real.add_one_lt_exp hs.ne'
    linarith
  rw [show -(s * K) = K * -s by ring]
  field_simp

/-- A few harmonics of a few trapezia rebuild the whole signal. -/
theorem C107_truncated (env : Env) (G : ℂ → ℂ) (x0 amp s M : ℝ) (hA : 0 < amp) (hs : 0 < s)
    (hd : ∀ u ∈ ellipse x0 amp s, DifferentiableAt ℂ G u) (hM : ∀ u ∈ ellipse x0 amp s, ‖G u‖ ≤ M) (N : ℕ) (hN : N ≠ 0) :
    ∃ v : ℕ → ℂ,
      (∀ n : ℕ, demod env (onFinite fun x => G x) (FP.num x0) (FP.num amp) (FP.num n) (some N) = .ok (FP.num (v n))) ∧
      ∀ (K : ℕ) (θ : ℝ), ‖G (x0 + amp * Real.cos θ : ℝ) - cosines v K θ‖ ≤
        2 * M * Real.exp (-(s * K)) / (Real.exp s - 1) + (2 * K + 1) * (2 * M * Real.cosh (s * K) / (Real.exp (s * N) - 1)) := by
  choose v hv hle using fun n : ℕ => C89_bound env G x0 amp s M hA hs hd hM n N hN
  refine ⟨v, fun n => by simpa using hv n, fun K θ => ?_⟩
  set c : ℕ → ℂ := fun n => lockin (fun x => G x) x0 amp n with hc
  set B := 2 * M * Real.cosh (s * K) / (Real.exp (s * N) - 1) with hB
  have hM0 : 0 ≤ M := (norm_nonneg _).trans (hM _ (ellipse_cos (x0 := x0) hA (w := 0) (by simpa using hs)))
  have hN1 : 0 < Real.exp (s * N) - 1 := by
    have : 0 < s * N := mul_pos hs (by exact_mod_cast Nat.pos_of_ne_zero hN)
    linarith [Real.add_one_lt_exp this.ne']
  have hb : ∀ n ≤ K, ‖c n - v n‖ ≤ B := fun n hn => by
    rw [norm_sub_rev]
    refine (by simpa using hle n : _ ≤ 2 * M * Real.cosh (s * n) / (Real.exp (s * N) - 1)).trans ?_
    rw [hB]
    have : Real.cosh (s * n) ≤ Real.cosh (s * K) := by
      rw [Real.cosh_le_cosh, abs_of_nonneg (by positivity), abs_of_nonneg (by positivity)]
      have : (n : ℝ) ≤ K := by exact_mod_cast hn
      gcongr
    gcongr
  have hdiff : ‖cosines c K θ - cosines v K θ‖ ≤ (2 * K + 1) * B := by
    unfold cosines
    have e : c 0 + 2 * ∑ n ∈ range K, c (n + 1) * (Real.cos ((n + 1) * θ) : ℂ) -
        (v 0 + 2 * ∑ n ∈ range K, v (n + 1) * (Real.cos ((n + 1) * θ) : ℂ)) =
        (c 0 - v 0) + 2 * ∑ n ∈ range K, (c (n + 1) - v (n + 1)) * (Real.cos ((n + 1) * θ) : ℂ) := by
      simp only [sub_mul, sum_sub_distrib]
      ring
    rw [e]
    have h1 : ‖∑ n ∈ range K, (c (n + 1) - v (n + 1)) * (Real.cos ((n + 1) * θ) : ℂ)‖ ≤ ∑ n ∈ range K, B := by
      refine norm_sum_le_of_le _ fun n hn => ?_
      rw [norm_mul, Complex.norm_real, Real.norm_eq_abs]
      have h2 := Real.abs_cos_le_one ((n + 1) * θ)
      have h3 := hb (n + 1) (mem_range.1 hn)
      have h4 := mul_le_mul_of_nonneg_left h2 (norm_nonneg (c (n + 1) - v (n + 1)))
      linarith
    rw [sum_const, card_range, nsmul_eq_mul] at h1
    refine (norm_add_le _ _).trans ?_
    rw [norm_mul, Complex.norm_ofNat]
    linarith [hb 0 (Nat.zero_le K)]
  have h1 := cosines_error hA hs hd hM K θ
  have h2 := norm_sub_le_norm_sub_add_norm_sub (G (x0 + amp * Real.cos θ : ℝ)) (cosines c K θ) (cosines v K θ)
  exact h2.trans (add_le_add h1 hdiff)

/-- The exponential function: seven harmonics of 16 trapezia. -/
example (env : Env) := C107_truncated env Complex.exp 0 1 1 (Real.exp (Real.cosh 1)) one_pos one_pos
  (fun u _ => Complex.differentiable_exp u) (fun u hu => by
    rw [Complex.norm_exp, Real.exp_le_exp]
    have := (abs_lt.1 (ellipse_re hu)).2
    linarith) 16 (by norm_num)

/-- The ideal signals of all harmonics rebuild the curve. -/
theorem rebuilt (env : Env) (f : FP ℝ → PyM (FP ℂ)) (z amp : ℝ) (hA : 0 < amp) (G : ℂ → ℂ) (U : Set ℂ) (hU : IsOpen U)
    (hx : ∀ x : ℝ, z + amp - amp ≤ x → x ≤ z + amp + amp → (x : ℂ) ∈ U) (hd : DifferentiableOn ℂ G U)
    (hf : ∀ x : ℝ, z ≤ x → x ≤ z + 2 * amp → f (FP.num x) = .ok (FP.num (G x))) :
    ∃ c : ℕ → ℂ,
      (∀ n : ℕ, ∃ v : ℕ → ℂ, (∀ N ≠ 0, demod env f (FP.num (z + amp)) (FP.num amp) (FP.num n) (some N) = .ok (FP.num (v N))) ∧
        Tendsto v atTop (𝓝 (c n))) ∧
      ∀ θ, Tendsto (fun K => cosines c K θ) atTop (𝓝 (G (z + amp * (1 + Real.cos θ) : ℝ))) := by
  obtain ⟨s, hs, K, hKU, hK, hel⟩ := ellipse_subset hA hU hx
  obtain ⟨M, hM⟩ := hK.exists_bound_of_continuousOn (hd.continuousOn.mono hKU)
  have hd' : ∀ u ∈ ellipse (z + amp) amp s, DifferentiableAt ℂ G u := fun u hu => hd.differentiableAt (hU.mem_nhds (hKU (hel hu)))
  have hM' : ∀ u ∈ ellipse (z + amp) amp s, ‖G u‖ ≤ M := fun u hu => hM u (hel hu)
  have hext : ∀ n N, demod env f (FP.num (z + amp)) (FP.num amp) n (some N) =
      demod env (onFinite fun x => G x) (FP.num (z + amp)) (FP.num amp) n (some N) := fun n N =>
    demod_ext env _ _ (z + amp) hA.le n _ fun x h1 h2 => hf x (by linarith) (by linarith)
  refine ⟨fun n => lockin (fun x => G x) (z + amp) amp n, fun n => ?_, fun θ => ?_⟩
  · refine ⟨fun N => demodSum (fun x => G x) (z + amp) amp n N, fun N hN => ?_, ?_⟩
    · rw [hext, demod_onFinite env _ _ _ _ (some N) hN]
      rfl
    · rw [tendsto_iff_norm_sub_tendsto_zero]
      have h1 : Tendsto (fun N : ℕ => 2 * M * Real.cosh (s * n) / (Real.exp (s * N) - 1)) atTop (𝓝 0) := by
        refine Tendsto.const_div_atTop ?_ _
        refine tendsto_atTop_add_const_right _ _ (Real.tendsto_exp_atTop.comp ?_)
        exact tendsto_natCast_atTop_atTop.const_mul_atTop hs
      refine squeeze_zero' (.of_forall fun _ => norm_nonneg _) ?_ h1
      filter_upwards [eventually_ne_atTop 0] with N hN
      simpa using demodSum_error hA hs hd' hM' (n : ℤ) hN
  · rw [tendsto_iff_norm_sub_tendsto_zero]
    have h1 : Tendsto (fun K : ℕ => 2 * M * Real.exp (-(s * K)) / (Real.exp s - 1)) atTop (𝓝 0) := by
      have : Tendsto (fun K : ℕ => Real.exp (-(s * K))) atTop (𝓝 0) :=
        Real.tendsto_exp_neg_atTop_nhds_zero.comp (tendsto_natCast_atTop_atTop.const_mul_atTop hs)
      simpa using (this.const_mul (2 * M)).div_const (Real.exp s - 1)
    refine squeeze_zero (fun _ => norm_nonneg _) (fun K => ?_) h1
    rw [norm_sub_rev]
    have := cosines_error hA hs hd' hM' K θ
    rwa [show z + amp + amp * Real.cos θ = z + amp * (1 + Real.cos θ) by ring] at this

/-- The PDM, for every sample without a resonance along the oscillation. -/
theorem C107_pdm (env : Env) (s : Stack (FP ℝ) (FP ℂ)) (β : ℂ) (hβ : s.reflCoefQs = .ok (FP.num β)) (z amp r : ℝ)
    (α : ℂ) (hA : 0 < amp) (hrz : 0 < r + z) (hres : ∀ x : ℝ, z ≤ x → x ≤ z + 2 * amp → 1 - Pdm.geom x r α * β ≠ 0) :
    ∃ c : ℕ → ℂ,
      (∀ n : ℕ, ∃ v : ℕ → ℂ, (∀ N ≠ 0,
        Pdm.effPolN env s (FP.num amp) (FP.num n) (some (FP.num z)) (some N) (tip r α) = .ok (FP.num (v N))) ∧
        Tendsto v atTop (𝓝 (c n))) ∧
      ∀ θ, ∃ w, Pdm.effPol env s (some (FP.num (z + amp * (1 + Real.cos θ)))) (tip r α) = .ok (FP.num w) ∧
        Tendsto (fun K => cosines c K θ) atTop (𝓝 w) := by
  obtain ⟨G, U, hU, hx, hd, hval⟩ := pdm_analytic env s β hβ z amp r α hrz hres
  obtain ⟨c, h1, h2⟩ := rebuilt env (fun x => Pdm.effPol env s (some x) (tip r α)) z amp hA G U hU hx hd hval
  exact ⟨c, h1, fun θ => ⟨_, hval _ (by nlinarith [Real.neg_one_le_cos θ]) (by nlinarith [Real.cos_le_one θ]), h2 θ⟩⟩

/-- The FDM, for every sample without layers and without a resonance along the oscillation. -/
theorem C107_fdm (env : Env) (s : Stack (FP ℝ) (FP ℂ)) (hm : s.multilayer = false) (β : ℂ)
    (hβ : s.reflCoefQs = .ok (FP.num β)) (z amp r l : ℝ) (g : ℂ) (d0 d1 dA : ℝ) (hA : 0 < amp)
    (h0 : Fdm.GeomOk z d0 r l) (h1 : Fdm.GeomOk z d1 r l)
    (hres : ∀ x : ℝ, z ≤ x → x ≤ z + 2 * amp → 1 - β * Fdm.geom x d1 r l g ≠ 0) (nLag : Option ℕ)
    (m : Option String) (hmeth : m = none ∨ m = some "bulk") :
    ∃ c : ℕ → ℂ,
      (∀ n : ℕ, ∃ v : ℕ → ℂ, (∀ N ≠ 0,
        Fdm.effPolN env s (FP.num amp) (FP.num n) (some (FP.num z)) (some N) (fdmTip r l g d0 d1 dA) nLag m = .ok (FP.num (v N))) ∧
        Tendsto v atTop (𝓝 (c n))) ∧
      ∀ θ, ∃ w, Fdm.effPol env s (some (FP.num (z + amp * (1 + Real.cos θ)))) (fdmTip r l g d0 d1 dA) nLag m = .ok (FP.num w) ∧
        Tendsto (fun K => cosines c K θ) atTop (𝓝 w) := by
  obtain ⟨G, U, hU, hx, hd, hval⟩ := fdm_analytic env s hm β hβ z amp r l g d0 d1 dA h0 h1 hres nLag m hmeth
  obtain ⟨c, h1, h2⟩ := rebuilt env (fun x => Fdm.effPol env s (some x) (fdmTip r l g d0 d1 dA) nLag m) z amp hA G U hU hx hd hval
  exact ⟨c, h1, fun θ => ⟨_, hval _ (by nlinarith [Real.neg_one_le_cos θ]) (by nlinarith [Real.cos_le_one θ]), h2 θ⟩⟩

private theorem third (e : ℂ) (he : e ≠ 0) : (bulk e (2 * e)).reflCoefQs = .ok (FP.num ((1 / 3 : ℝ) : ℂ)) := by
  rw [C09_refl e (2 * e) none _ (mul_ne_zero two_ne_zero he) (by rw [← add_one_mul]; exact mul_ne_zero (by norm_num) he)]
  congr 2
  push_cast
  rw [div_eq_div_iff (by rw [← add_one_mul]; exact mul_ne_zero (by norm_num) he) (by norm_num)]
  ring

private theorem pdm_res (x : ℝ) (h : 0 ≤ x) : 1 - Pdm.geom x 1 ((4 * Real.pi * 1 ^ 3 : ℝ) : ℂ) * ((1 / 3 : ℝ) : ℂ) ≠ 0 := by
  rw [geom_conductor one_pos h, ← Complex.ofReal_mul]
  have h1 : (1 : ℝ) ≤ (1 + x) ^ 3 := one_le_pow₀ (by linarith)
  have h2 : (1 : ℝ) ^ 3 / (4 * (1 + x) ^ 3) ≤ 1 / 4 := by
    rw [div_le_div_iff₀ (by positivity) (by norm_num)]
    linarith
  have h3 : 1 - (1 : ℝ) ^ 3 / (4 * (1 + x) ^ 3) * (1 / 3) ≠ 0 := by linarith
  exact_mod_cast h3

private theorem fdm_res (x : ℝ) (h : 0 ≤ x) (h' : x ≤ 2) : 1 - ((1 / 3 : ℝ) : ℂ) * Fdm.geom x (1 / 2) 1 300 Complex.I ≠ 0 := by
  have him : (Fdm.geom x (1 / 2) 1 300 Complex.I).im ≠ 0 := by
    unfold Fdm.geom
    rw [Complex.div_ofReal_im, Complex.im_mul_ofReal, Complex.sub_im, Complex.ofReal_im, Complex.I_im]
    have h1 : 0 < Real.log (4 * 300 / (1 + 4 * x + 2 * (1 / 2) * 1)) :=
      Real.log_pos (by rw [lt_div_iff₀ (by linarith)]; linarith)
    have h2 : 0 < Real.log (4 * 300 / 1 : ℝ) := Real.log_pos (by norm_num)
    simp only [sub_zero, one_mul]
    exact (div_pos h1 h2).ne'
  exact sub_ne_zero.2 (example_im_ne him (1 / 3)).symm

example (env : Env) := C107_pdm env (bulk 1 (2 * 1)) _ (third 1 one_ne_zero) 0 1 1 ((4 * Real.pi * 1 ^ 3 : ℝ) : ℂ) one_pos
  (by norm_num) (fun x h _ => pdm_res x h)

example (env : Env) := C107_fdm env (bulk 1 (2 * 1)) rfl _ (third 1 one_ne_zero) 0 1 1 300 Complex.I 1 (1 / 2) 1.4 one_pos
  example_geomOk.1 example_geomOk.2 (fun x h h' => fdm_res x h (by linarith)) none none (.inl rfl)

example (env : Env) := C107_pdm_samples env (bulk 1 (2 * 1)) (tip 1 ((4 * Real.pi * 1 ^ 3 : ℝ) : ℂ)) 0 1 zero_le_one _
  (fun x h _ => Pdm.effPol_val env _ _ x 1 _ _ (pdm_tip env 1 _) (third 1 one_ne_zero) (by linarith) (pdm_res x h)) 5 (by norm_num)

example (env : Env) := C107_fdm_samples env (bulk 1 (2 * 1)) (fdmTip 1 300 Complex.I 1 (1 / 2) 1.4) none (some "bulk") 0 1 zero_le_one _
  (fun x h h' => effPol_val env _ rfl _ (third 1 one_ne_zero) x 1 300 Complex.I 1 (1 / 2) 1.4
    ⟨one_pos, by norm_num, by norm_num, by linarith⟩ ⟨one_pos, by norm_num, by norm_num, by linarith⟩ (fdm_res x h (by linarith)) none) 5
  (by norm_num)

/-! ## What several harmonics determine together -/

/-- Signals that agree at the harmonics `1, …, N/2` come from curves that differ by a constant at the samples. -/
theorem samples_const (env : Env) (f f' : FP ℝ → PyM (FP ℂ)) (g g' : ℝ → ℂ) (z amp : ℝ) (hA : 0 ≤ amp)
    (hf : ∀ x, z ≤ x → x ≤ z + 2 * amp → f (FP.num x) = .ok (FP.num (g x)))
    (hf' : ∀ x, z ≤ x → x ≤ z + 2 * amp → f' (FP.num x) = .ok (FP.num (g' x))) (N : ℕ) (hN : N ≠ 0)
    (h : ∀ n : ℕ, 1 ≤ n → 2 * n ≤ N → demod env f (FP.num (z + amp)) (FP.num amp) (FP.num n) (some N) =
      demod env f' (FP.num (z + amp)) (FP.num amp) (FP.num n) (some N)) :
    ∃ v v', demod env f (FP.num (z + amp)) (FP.num amp) (FP.num 0) (some N) = .ok (FP.num v) ∧
      demod env f' (FP.num (z + amp)) (FP.num amp) (FP.num 0) (some N) = .ok (FP.num v') ∧
      ∀ k < N, g (z + amp * (1 + Real.cos (phase N k))) - g' (z + amp * (1 + Real.cos (phase N k))) = v - v' := by
  obtain ⟨v, h1, h2, -, h4⟩ := C107_samples env f g (z + amp) amp hA (fun x _ _ => hf x (by linarith) (by linarith)) N hN
  obtain ⟨v', h1', h2', -, h4'⟩ := C107_samples env f' g' (z + amp) amp hA (fun x _ _ => hf' x (by linarith) (by linarith)) N hN
  have low : ∀ n, 1 ≤ n → 2 * n ≤ N → v n = v' n := fun n hn hn' => by
    have := (h1 n).symm.trans ((h n hn hn').trans (h1' n))
    injection this with this
    injection this
  have all : ∀ n, 1 ≤ n → n < N → v n = v' n := fun n hn hn' => by
    by_cases hc : 2 * n ≤ N
    · exact low n hn hc
    · have e1 := h4 (N - n) (by omega)
      have e2 := h4' (N - n) (by omega)
      rw [show N - (N - n) = n by omega] at e1 e2
      rw [e1, e2, low (N - n) (by omega) (by omega)]
  refine ⟨v 0, v' 0, by simpa using h1 0, by simpa using h1' 0, fun k hk => ?_⟩
  obtain ⟨M, rfl⟩ := Nat.exists_eq_succ_of_ne_zero hN
  have e1 := h2 k hk
  have e2 := h2' k hk
  rw [show z + amp + amp * Real.cos (phase M.succ k) = z + amp * (1 + Real.cos (phase M.succ k)) by ring] at e1 e2
  rw [← e1, ← e2, Nat.succ_eq_add_one, sum_range_succ', sum_range_succ',
    sum_congr rfl fun n hn => by rw [all (n + 1) (by omega) (by have := mem_range.1 hn; omega)]]
  simp

/-- Three points at which a quadratic vanishes. -/
theorem three_roots {a b c : ℂ} {x y w : ℝ} (hxy : x ≠ y) (hyw : y ≠ w) (hxw : x ≠ w) (h1 : a * x ^ 2 + b * x + c = 0)
    (h2 : a * y ^ 2 + b * y + c = 0) (h3 : a * w ^ 2 + b * w + c = 0) : a = 0 ∧ b = 0 ∧ c = 0 := by
  have dxy : (x : ℂ) - y ≠ 0 := sub_ne_zero.2 (by exact_mod_cast hxy)
  have dyw : (y : ℂ) - w ≠ 0 := sub_ne_zero.2 (by exact_mod_cast hyw)
  have dxw : (x : ℂ) - w ≠ 0 := sub_ne_zero.2 (by exact_mod_cast hxw)
  have e1 : a * (x + y) + b = 0 := mul_left_cancel₀ dxy (by rw [mul_zero]; linear_combination h1 - h2)
  have e2 : a * (x + w) + b = 0 := mul_left_cancel₀ dxw (by rw [mul_zero]; linear_combination h1 - h3)
  have ha : a = 0 := mul_left_cancel₀ dyw (by rw [mul_zero]; linear_combination e1 - e2)
  rw [ha] at e1 h1
  have hb : b = 0 := by simpa using e1
  rw [hb] at h1
  exact ⟨ha, hb, by simpa using h1⟩

/-- The PDM: four or more trapezia; the harmonics `1, …, N/2` together determine the reflection coefficient, without any condition
on its size. -/
theorem C107_pdm_unique (env : Env) (s s' : Stack (FP ℝ) (FP ℂ)) (β β' : ℂ) (hβ : s.reflCoefQs = .ok (FP.num β))
    (hβ' : s'.reflCoefQs = .ok (FP.num β')) (z amp r : ℝ) (α : ℂ) (hα : α ≠ 0) (hA : 0 < amp) (hrz : 0 < r + z)
    (hres : ∀ x : ℝ, z ≤ x → x ≤ z + 2 * amp → 1 - Pdm.geom x r α * β ≠ 0)
    (hres' : ∀ x : ℝ, z ≤ x → x ≤ z + 2 * amp → 1 - Pdm.geom x r α * β' ≠ 0) (N : ℕ) (hN : 4 ≤ N)
    (h : ∀ n : ℕ, 1 ≤ n → 2 * n ≤ N →
      Pdm.effPolN env s (FP.num amp) (FP.num n) (some (FP.num z)) (some N) (tip r α) =
        Pdm.effPolN env s' (FP.num amp) (FP.num n) (some (FP.num z)) (some N) (tip r α)) : β = β' := by
  obtain ⟨v, v', -, -, hk⟩ := samples_const env (fun x => Pdm.effPol env s (some x) (tip r α))
    (fun x => Pdm.effPol env s' (some x) (tip r α)) (fun x => α / (1 - Pdm.geom x r α * β))
    (fun x => α / (1 - Pdm.geom x r α * β')) z amp hA.le
    (fun x h1 h2 => Pdm.effPol_val env s _ x r α β (pdm_tip env r α) hβ (by linarith) (hres x h1 h2))
    (fun x h1 h2 => Pdm.effPol_val env s' _ x r α β' (pdm_tip env r α) hβ' (by linarith) (hres' x h1 h2)) N (by omega) h
  set C := v - v'
  have hpi := Real.pi_pos
  have hNr : (4 : ℝ) ≤ N := by exact_mod_cast hN
  let X : ℕ → ℝ := fun k => z + amp * (1 + Real.cos (phase N k))
  let t : ℕ → ℝ := fun k => (16 * Real.pi * (r + X k) ^ 3)⁻¹
  have hX : ∀ k, z ≤ X k ∧ X k ≤ z + 2 * amp := fun k =>
    ⟨by simp only [X]; nlinarith [Real.neg_one_le_cos (phase N k)], by simp only [X]; nlinarith [Real.cos_le_one (phase N k)]⟩
  have hlt : ∀ i j : ℕ, i < j → j ≤ 2 → t i ≠ t j := fun i j hij hj => by
    have hph : ∀ k : ℕ, k ≤ 2 → -Real.pi ≤ phase N k ∧ phase N k ≤ 0 := fun k hk => by
      have hk' : (k : ℝ) ≤ 2 := by exact_mod_cast hk
      unfold phase
      have h1 : 2 * Real.pi * k / N ≤ Real.pi := by
        rw [div_le_iff₀ (by linarith)]
        nlinarith
      have h2 : 0 ≤ 2 * Real.pi * k / N := by positivity
      constructor <;> linarith
    have hp : phase N i < phase N j := by
      unfold phase
      have : (i : ℝ) < j := by exact_mod_cast hij
      have : 2 * Real.pi * i / N < 2 * Real.pi * j / N := by gcongr
      linarith
    have hcos : Real.cos (phase N i) < Real.cos (phase N j) := by
      rw [← Real.cos_neg (phase N i), ← Real.cos_neg (phase N j)]
      exact Real.cos_lt_cos_of_nonneg_of_le_pi (by linarith [(hph j hj).2]) (by linarith [(hph i (by omega)).1]) (by linarith)
    have hXX : X i < X j := by
      simp only [X]
      nlinarith
    have h0 : 0 < r + X i := by linarith [(hX i).1]
    have : t j < t i := by
      simp only [t]
      apply inv_strictAnti₀ (by positivity)
      gcongr
    exact this.ne'
  have hq : ∀ k < N, (C * β * β' * α ^ 2) * (t k : ℂ) ^ 2 + (-(C * α * (β + β') + α ^ 2 * (β - β'))) * (t k : ℂ) + C = 0 :=
    fun k hk' => by
    have e := hk k hk'
    have hg : Pdm.geom (X k) r α = α * (t k : ℂ) := by
      simp only [t, Pdm.geom]
      push_cast
      rfl
    have r1 := hres (X k) (hX k).1 (hX k).2
    have r2 := hres' (X k) (hX k).1 (hX k).2
    change α / (1 - Pdm.geom (X k) r α * β) - α / (1 - Pdm.geom (X k) r α * β') = C at e
    rw [hg] at e r1 r2
    rw [div_sub_div _ _ r1 r2, div_eq_iff (mul_ne_zero r1 r2)] at e
    linear_combination -e
  obtain ⟨-, hb, hc⟩ := three_roots (hlt 0 1 (by omega) (by omega)) (hlt 1 2 (by omega) (by omega)) (hlt 0 2 (by omega) (by omega))
    (hq 0 (by omega)) (hq 1 (by omega)) (hq 2 (by omega))
  rw [hc] at hb
  have : α ^ 2 * (β - β') = 0 := by simpa using hb
  rcases mul_eq_zero.1 this with h | h
  · exact absurd h (pow_ne_zero 2 hα)
  · exact sub_eq_zero.1 h

example (env : Env) := C107_pdm_unique env (bulk 1 (2 * 1)) (bulk 2 (2 * 2)) _ _ (third 1 one_ne_zero) (third 2 two_ne_zero) 0 1 1
  ((4 * Real.pi * 1 ^ 3 : ℝ) : ℂ) (by exact_mod_cast (by positivity : 4 * Real.pi * 1 ^ 3 ≠ 0)) one_pos (by norm_num)
  (fun x h _ => pdm_res x h) (fun x h _ => pdm_res x h) 4 le_rfl fun n _ _ => by
    simp only [Pdm.effPolN, Pdm.effPol, third 1 one_ne_zero, third 2 two_ne_zero]

/-- The FDM: the harmonics `0, …, N/2` together determine the reflection coefficient. -/
theorem C107_fdm_unique (env : Env) (s s' : Stack (FP ℝ) (FP ℂ)) (hm : s.multilayer = false) (hm' : s'.multilayer = false)
    (β β' : ℂ) (hβ : s.reflCoefQs = .ok (FP.num β)) (hβ' : s'.reflCoefQs = .ok (FP.num β')) (z amp r l : ℝ) (g : ℂ)
    (d0 d1 dA : ℝ) (hA : 0 ≤ amp) (h0 : Fdm.GeomOk z d0 r l) (h1 : Fdm.GeomOk z d1 r l) (hg : Fdm.geom z d0 r l g ≠ 0)
    (hres : ∀ x : ℝ, z ≤ x → x ≤ z + 2 * amp → 1 - β * Fdm.geom x d1 r l g ≠ 0)
    (hres' : ∀ x : ℝ, z ≤ x → x ≤ z + 2 * amp → 1 - β' * Fdm.geom x d1 r l g ≠ 0) (nLag : Option ℕ) (N : ℕ) (hN : N ≠ 0)
    (h : ∀ n : ℕ, 2 * n ≤ N →
      Fdm.effPolN env s (FP.num amp) (FP.num n) (some (FP.num z)) (some N) (fdmTip r l g d0 d1 dA) nLag (some "bulk") =
        Fdm.effPolN env s' (FP.num amp) (FP.num n) (some (FP.num z)) (some N) (fdmTip r l g d0 d1 dA) nLag (some "bulk")) :
    β = β' := by
  have ok : ∀ d x : ℝ, Fdm.GeomOk z d r l → z ≤ x → Fdm.GeomOk x d r l := fun d x h hx =>
    ⟨h.r_pos, h.l_pos, h.ne, by have := h.den; linarith⟩
  obtain ⟨v, v', hv, hv', hk⟩ := samples_const env
    (fun x => Fdm.effPol env s (some x) (fdmTip r l g d0 d1 dA) nLag (some "bulk"))
    (fun x => Fdm.effPol env s' (some x) (fdmTip r l g d0 d1 dA) nLag (some "bulk"))
    _ _ z amp hA
    (fun x q1 q2 => effPol_val env s hm β hβ x r l g d0 d1 dA (ok d0 x h0 q1) (ok d1 x h1 q1) (hres x q1 q2) nLag)
    (fun x q1 q2 => effPol_val env s' hm' β' hβ' x r l g d0 d1 dA (ok d0 x h0 q1) (ok d1 x h1 q1) (hres' x q1 q2) nLag) N hN
    fun n _ hn => h n hn
  have hvv : v = v' := by
    have h00 := h 0 (Nat.zero_le N)
    rw [Nat.cast_zero] at h00
    have := hv.symm.trans (Eq.trans h00 hv')
    injection this with this
    injection this
  have e := hk 0 (Nat.pos_of_ne_zero hN)
  have hp : z + amp * (1 + Real.cos (phase N 0)) = z := by simp [phase]
  have r1 := hres z le_rfl (by linarith)
  have r2 := hres' z le_rfl (by linarith)
  rw [hp, hvv, sub_self, sub_eq_zero, add_right_inj, div_eq_div_iff (mul_ne_zero two_ne_zero r1) (mul_ne_zero two_ne_zero r2)] at e
  have : (2 * Fdm.geom z d0 r l g) * (β - β') = 0 := by linear_combination e
  rcases mul_eq_zero.1 this with h | h
  · exact absurd h (mul_ne_zero two_ne_zero hg)
  · exact sub_eq_zero.1 h

example (env : Env) := C107_fdm_unique env (bulk 1 (2 * 1)) (bulk 2 (2 * 2)) rfl rfl _ _ (third 1 one_ne_zero) (third 2 two_ne_zero) 0 1
  1 300 Complex.I 1 (1 / 2) 1.4 zero_le_one example_geomOk.1 example_geomOk.2 example_geom_ne
  (fun x h h' => fdm_res x h (by linarith)) (fun x h h' => fdm_res x h (by linarith)) none 3 (by norm_num) fun n _ => by
    simp only [Fdm.effPolN, Fdm.effPol_bulk env (bulk 1 (2 * 1)) rfl, Fdm.effPol_bulk env (bulk 2 (2 * 2)) rfl,
      third 1 one_ne_zero, third 2 two_ne_zero]

/-- Limits of sequences that agree again and again. -/
theorem limits_eq {v v' : ℕ → ℂ} {c c' : ℂ} (h : Tendsto v atTop (𝓝 c)) (h' : Tendsto v' atTop (𝓝 c'))
    (he : ∃ᶠ N in atTop, v N = v' N) : c = c' := by
  by_contra hne
  have := (h.sub h').eventually_ne (sub_ne_zero.2 hne)
  exact he (this.mono fun N hN heq => hN (sub_eq_zero.2 heq))

/-- The FDM: the ideal signals at all harmonics from 1 on determine the reflection coefficient, even though they leave the mean of
the curve open. -/
theorem C107_fdm_all (env : Env) (s s' : Stack (FP ℝ) (FP ℂ)) (hm : s.multilayer = false) (hm' : s'.multilayer = false)
    (β β' : ℂ) (hβ : s.reflCoefQs = .ok (FP.num β)) (hβ' : s'.reflCoefQs = .ok (FP.num β')) (z amp r l : ℝ) (g : ℂ)
    (d0 d1 dA : ℝ) (hA : 0 < amp) (h0 : Fdm.GeomOk z d0 r l) (h1 : Fdm.GeomOk z d1 r l) (hg0 : Fdm.geom z d0 r l g ≠ 0)
    (hd : d1 < d0) (hg : g ≠ r / (4 * l))
    (hres : ∀ x : ℝ, z ≤ x → x ≤ z + 2 * amp → 1 - β * Fdm.geom x d1 r l g ≠ 0)
    (hres' : ∀ x : ℝ, z ≤ x → x ≤ z + 2 * amp → 1 - β' * Fdm.geom x d1 r l g ≠ 0) (nLag : Option ℕ)
    (h : ∀ n : ℕ, 1 ≤ n → ∃ᶠ N in atTop,
      Fdm.effPolN env s (FP.num amp) (FP.num n) (some (FP.num z)) (some N) (fdmTip r l g d0 d1 dA) nLag (some "bulk") =
        Fdm.effPolN env s' (FP.num amp) (FP.num n) (some (FP.num z)) (some N) (fdmTip r l g d0 d1 dA) nLag (some "bulk")) :
    β = β' := by
  have ok : ∀ d x : ℝ, Fdm.GeomOk z d r l → z ≤ x → Fdm.GeomOk x d r l := fun d x h hx =>
    ⟨h.r_pos, h.l_pos, h.ne, by have := h.den; linarith⟩
  have hr := h0.r_pos
  have hl := h0.l_pos
  obtain ⟨c, hc1, hc2⟩ := C107_fdm env s hm β hβ z amp r l g d0 d1 dA hA h0 h1 hres nLag (some "bulk") (.inr rfl)
  obtain ⟨c', hc1', hc2'⟩ := C107_fdm env s' hm' β' hβ' z amp r l g d0 d1 dA hA h0 h1 hres' nLag (some "bulk") (.inr rfl)
  have hcc : ∀ n, c (n + 1) = c' (n + 1) := fun n => by
    obtain ⟨v, e, hv⟩ := hc1 (n + 1)
    obtain ⟨v', e', hv'⟩ := hc1' (n + 1)
    refine limits_eq hv hv' (((h (n + 1) (by omega)).and_eventually (eventually_ne_atTop 0)).mono fun N hN => ?_)
    have := (e N hN.2).symm.trans (hN.1.trans (e' N hN.2))
    injection this with this
    injection this
  -- along the oscillation
  have hint : ∀ x, z ≤ x → x ≤ z + 2 * amp → Fdm.geom x d0 r l g * (β - β') =
      2 * (c 0 - c' 0) * ((1 - β * Fdm.geom x d1 r l g) * (1 - β' * Fdm.geom x d1 r l g)) := fun x q1 q2 => by
    have hθ : z + amp * (1 + Real.cos (Real.arccos ((x - z) / amp - 1))) = x := by
      rw [Real.cos_arccos (by rw [le_sub_iff_add_le, neg_add_cancel]; exact div_nonneg (by linarith) hA.le)
        (by rw [sub_le_iff_le_add, div_le_iff₀ hA]; linarith)]
      field_simp
      ring
    obtain ⟨w, e, hw⟩ := hc2 (Real.arccos ((x - z) / amp - 1))
    obtain ⟨w', e', hw'⟩ := hc2' (Real.arccos ((x - z) / amp - 1))
    rw [hθ] at e e'
    have e1 := (effPol_val env s hm β hβ x r l g d0 d1 dA (ok d0 x h0 q1) (ok d1 x h1 q1) (hres x q1 q2) nLag).symm.trans e
    have e2 := (effPol_val env s' hm' β' hβ' x r l g d0 d1 dA (ok d0 x h0 q1) (ok d1 x h1 q1) (hres' x q1 q2) nLag).symm.trans e'
    injection e1 with e1
    injection e1 with e1
    injection e2 with e2
    injection e2 with e2
    have hsub : w - w' = c 0 - c' 0 := by
      refine tendsto_nhds_unique (hw.sub hw') (tendsto_const_nhds.congr fun K => ?_)
      unfold cosines
      simp only [hcc]
      ring
    have r1 := hres x q1 q2
    have r2 := hres' x q1 q2
    rw [← e1, ← e2, add_sub_add_left_eq_sub, div_sub_div _ _ (mul_ne_zero two_ne_zero r1) (mul_ne_zero two_ne_zero r2),
      div_eq_iff (mul_ne_zero (mul_ne_zero two_ne_zero r1) (mul_ne_zero two_ne_zero r2))] at hsub
    linear_combination hsub / 2
  set C := c 0 - c' 0
  have hC : C = 0 ∨ β = β' := by
    by_contra hne
    push Not at hne
    obtain ⟨hC0, hββ⟩ := hne
    -- down to the singularity of the geometry function
    let a : ℝ := -((1 + 2 * d1) * r) / 4
    let U : Set ℂ := {u | a < u.re}
    have hUo : IsOpen U := isOpen_lt continuous_const Complex.continuous_re
    have hUc : IsPreconnected U := (convex_halfSpace_re_gt a).isPreconnected
    have hin : ∀ u ∈ U, 0 < r + 4 * u.re + 2 * d1 * r ∧ 0 < r + 4 * u.re + 2 * d0 * r := fun u hu => by
      have hu : -((1 + 2 * d1) * r) / 4 < u.re := hu
      constructor <;> nlinarith
    have han : ∀ f : ℂ → ℂ, (∀ u ∈ U, DifferentiableAt ℂ f u) → AnalyticOnNhd ℂ f U := fun f hf =>
      DifferentiableOn.analyticOnNhd (fun u hu => (hf u hu).differentiableWithinAt) hUo
    have hD0 : ∀ u ∈ U, DifferentiableAt ℂ (fdmGeomC d0 r l g) u := fun u hu => fdmGeomC_differentiableAt d0 r l g (hin u hu).2
    have hD1 : ∀ u ∈ U, DifferentiableAt ℂ (fdmGeomC d1 r l g) u := fun u hu => fdmGeomC_differentiableAt d1 r l g (hin u hu).1
    have hza : a < z := by
      have := h1.den
      simp only [a]
      linarith
    have hEq := AnalyticOnNhd.eqOn_of_preconnected_of_frequently_eq
      (f := fun u => fdmGeomC d0 r l g u * (β - β'))
      (g := fun u => 2 * C * ((1 - β * fdmGeomC d1 r l g u) * (1 - β' * fdmGeomC d1 r l g u)))
      (han _ fun u hu => (hD0 u hu).mul_const _)
      (han _ fun u hu => ((((hD1 u hu).const_mul β).const_sub 1).mul (((hD1 u hu).const_mul β').const_sub 1)).const_mul _)
      hUc (z₀ := ((z + amp : ℝ) : ℂ)) (by show a < _; rw [Complex.ofReal_re]; linarith) (by
        have ht : Tendsto (fun x : ℝ => (x : ℂ)) (𝓝[≠] (z + amp)) (𝓝[≠] ((z + amp : ℝ) : ℂ)) := by
          refine tendsto_nhdsWithin_of_tendsto_nhds_of_eventually_within _
            (Complex.continuous_ofReal.continuousAt.tendsto.mono_left nhdsWithin_le_nhds) ?_
          filter_upwards [self_mem_nhdsWithin] with x hx
          exact fun e => hx (Complex.ofReal_injective e)
        refine ht.frequently (Eventually.frequently ?_)
        have : Set.Ioo z (z + 2 * amp) ∈ 𝓝 (z + amp) := Ioo_mem_nhds (by linarith) (by linarith)
        filter_upwards [mem_nhdsWithin_of_mem_nhds this] with x hx
        rw [fdmGeomC_ofReal g (ok d0 x h0 hx.1.le), fdmGeomC_ofReal g (ok d1 x h1 hx.1.le)]
        exact hint x hx.1.le hx.2.le)
    have hmem : ∀ t : ℝ, 0 < t → ((a + t : ℝ) : ℂ) ∈ U := fun t ht => by
      show a < _
      rw [Complex.ofReal_re]
      linarith
    have hlim0 : Tendsto (fun t : ℝ => fdmGeomC d0 r l g ((a + t : ℝ) : ℂ) * (β - β')) (𝓝[>] 0)
        (𝓝 (fdmGeomC d0 r l g a * (β - β'))) := by
      have hcont : ContinuousAt (fdmGeomC d0 r l g) (a : ℂ) := by
        refine (fdmGeomC_differentiableAt d0 r l g ?_).continuousAt
        rw [Complex.ofReal_re]
        simp only [a]
        nlinarith
      refine Tendsto.mul_const _ (hcont.tendsto.comp ?_)
      have : Tendsto (fun t : ℝ => ((a + t : ℝ) : ℂ)) (𝓝 0) (𝓝 ((a + 0 : ℝ) : ℂ)) :=
        (Complex.continuous_ofReal.comp (continuous_const.add continuous_id)).tendsto 0
      rw [add_zero] at this
      exact this.mono_left nhdsWithin_le_nhds
    have hL : Real.log (4 * l / r) ≠ 0 := Real.log_ne_zero_of_pos_of_ne_one (by positivity)
      (by rw [Ne, div_eq_one_iff_eq hr.ne']; exact h1.ne.symm)
    have hf1 : ∀ t : ℝ, 0 < t → fdmGeomC d1 r l g ((a + t : ℝ) : ℂ) =
        (g - ((r / 2 + 2 * t : ℝ) : ℂ) / (2 * l)) * (Real.log (l / t) : ℂ) / (Real.log (4 * l / r) : ℂ) := fun t ht => by
      rw [fdmGeomC_ofReal g (⟨hr, hl, h1.ne, by simp only [a]; linarith⟩ : Fdm.GeomOk (a + t) d1 r l)]
      unfold Fdm.geom
      rw [show 4 * l / (r + 4 * (a + t) + 2 * d1 * r) = l / t by simp only [a]; rw [div_eq_div_iff (by linarith) ht.ne']; ring]
      simp only [a]
      push_cast
      congr 3
      ring
    have hlog : Tendsto (fun t : ℝ => Real.log (l / t)) (𝓝[>] 0) atTop := by
      refine Real.tendsto_log_atTop.comp ?_
      exact (tendsto_inv_nhdsGT_zero.const_mul_atTop hl).congr fun t => (div_eq_mul_inv l t).symm
    have hf1lim : Tendsto (fun t : ℝ => ‖fdmGeomC d1 r l g ((a + t : ℝ) : ℂ)‖) (𝓝[>] 0) atTop := by
      have hA1 : Tendsto (fun t : ℝ => ‖(g - ((r / 2 + 2 * t : ℝ) : ℂ) / (2 * l)) / (Real.log (4 * l / r) : ℂ)‖) (𝓝[>] 0)
          (𝓝 ‖(g - ((r / 2 + 2 * 0 : ℝ) : ℂ) / (2 * l)) / (Real.log (4 * l / r) : ℂ)‖) := by
        have hcont : Continuous fun t : ℝ => ‖(g - ((r / 2 + 2 * t : ℝ) : ℂ) / (2 * l)) / (Real.log (4 * l / r) : ℂ)‖ := by
          fun_prop
        exact (hcont.tendsto 0).mono_left nhdsWithin_le_nhds
      have hpos : 0 < ‖(g - ((r / 2 + 2 * 0 : ℝ) : ℂ) / (2 * l)) / (Real.log (4 * l / r) : ℂ)‖ := by
        rw [norm_pos_iff]
        refine div_ne_zero ?_ (by exact_mod_cast hL)
        rw [sub_ne_zero]
        intro e
        apply hg
        rw [e]
        push_cast
        have : (l : ℂ) ≠ 0 := by exact_mod_cast hl.ne'
        field_simp
        ring
      refine (hA1.pos_mul_atTop hpos hlog).congr' ?_
      filter_upwards [self_mem_nhdsWithin, hlog.eventually_ge_atTop 0] with t ht hlt
      rw [hf1 t ht, norm_div, norm_div, norm_mul, Complex.norm_real (Real.log (l / t)), Real.norm_of_nonneg hlt]
      ring
    have hfac : ∀ b : ℂ, b ≠ 0 → Tendsto (fun t : ℝ => ‖1 - b * fdmGeomC d1 r l g ((a + t : ℝ) : ℂ)‖) (𝓝[>] 0) atTop :=
      fun b hb => by
      refine tendsto_atTop_mono (fun t => ?_) (tendsto_atTop_add_const_right _ (-1) (hf1lim.const_mul_atTop (norm_pos_iff.2 hb)))
      have := norm_sub_norm_le (b * fdmGeomC d1 r l g ((a + t : ℝ) : ℂ)) 1
      rw [norm_sub_rev, norm_one, norm_mul] at this
      linarith
    have hprod : Tendsto (fun t : ℝ => ‖2 * C * ((1 - β * fdmGeomC d1 r l g ((a + t : ℝ) : ℂ)) *
        (1 - β' * fdmGeomC d1 r l g ((a + t : ℝ) : ℂ)))‖) (𝓝[>] 0) atTop := by
      simp only [norm_mul (2 * C)]
      refine Tendsto.const_mul_atTop (norm_pos_iff.2 (mul_ne_zero two_ne_zero hC0)) ?_
      simp only [norm_mul]
      by_cases hb : β = 0
      · have hb' : β' ≠ 0 := fun e => hββ (hb.trans e.symm)
        simpa [hb] using hfac β' hb'
      · by_cases hb' : β' = 0
        · simpa [hb'] using hfac β hb
        · simpa only [norm_mul] using (hfac β hb).atTop_mul_atTop₀ (hfac β' hb')
    refine not_tendsto_atTop_of_tendsto_nhds hlim0.norm (hprod.congr' ?_)
    filter_upwards [self_mem_nhdsWithin] with t ht
    exact congrArg norm (hEq (hmem t ht)).symm
  rcases hC with hC | hC
  · have := hint z le_rfl (by linarith)
    rw [hC, mul_zero, zero_mul] at this
    rcases mul_eq_zero.1 this with h | h
    · exact absurd h hg0
    · exact sub_eq_zero.1 h
  · exact hC

example (env : Env) := C107_fdm_all env (bulk 1 (2 * 1)) (bulk 2 (2 * 2)) rfl rfl _ _ (third 1 one_ne_zero) (third 2 two_ne_zero) 0 1
  1 300 Complex.I 1 (1 / 2) 1.4 one_pos example_geomOk.1 example_geomOk.2 example_geom_ne (by norm_num)
  (fun e => by have := congrArg Complex.im e; norm_num at this)
  (fun x h h' => fdm_res x h (by linarith)) (fun x h h' => fdm_res x h (by linarith)) none fun n _ => by
    refine Eventually.frequently (.of_forall fun N => ?_)
    simp only [Fdm.effPolN, Fdm.effPol_bulk env (bulk 1 (2 * 1)) rfl, Fdm.effPol_bulk env (bulk 2 (2 * 2)) rfl,
      third 1 one_ne_zero, third 2 two_ne_zero]

end Snompy.Props
