import Verif.Lemmas.Graded
import Verif.Props.Fields

/-!
# C121: finely layered samples are graded anisotropic films

`Spec/Graded.lean` has the samples and the equations of the film.
-/

namespace Snompy.Props

open Snompy Filter Topology Set

theorem continuousOn_list_sum {S : Set ℝ} (P : List ((ℝ → ℂ) × ℝ)) (g : ℂ → ℂ) (h : ∀ p ∈ P, ContinuousOn (fun y => g (p.1 y)) S) :
    ContinuousOn (fun y => (P.map fun p => (p.2 : ℂ) * g (p.1 y)).sum) S := by
  induction P with
  | nil => simpa using continuousOn_const
  | cons p P ih =>
    simp only [List.map_cons, List.sum_cons]
    exact (continuousOn_const.mul (h p List.mem_cons_self)).add (ih fun p hp => h p (List.mem_cons_of_mem _ hp))

theorem list_bound {T : ℝ} (P : List ((ℝ → ℂ) × ℝ)) (g : ℂ → ℂ) (h : ∀ p ∈ P, ContinuousOn (fun y => g (p.1 y)) (Icc 0 T)) :
    ∃ B : ℝ, 1 ≤ B ∧ ∀ p ∈ P, ∀ y ∈ Icc 0 T, ‖g (p.1 y)‖ ≤ B := by
  induction P with
  | nil => exact ⟨1, le_rfl, by simp⟩
  | cons p P ih =>
    obtain ⟨B, h1, h2⟩ := ih fun p hp => h p (List.mem_cons_of_mem _ hp)
    obtain ⟨C, hC⟩ := isCompact_Icc.exists_bound_of_continuousOn (h p List.mem_cons_self)
    refine ⟨max B C, h1.trans (le_max_left _ _), fun p' hp y hy => ?_⟩
    rcases List.mem_cons.1 hp with rfl | hp
    · exact (hC y hy).trans (le_max_right _ _)
    · exact (h2 p' hp y hy).trans (le_max_left _ _)

theorem mem_fine {P : List ((ℝ → ℂ) × ℝ)} {T : ℝ} (hT : 0 < T) {N : ℕ} {l : ℂ × ℝ} (hl : l ∈ fine P T N) :
    ∃ p ∈ P, ∃ y ∈ Icc 0 T, l = (p.1 y, p.2 * (T / N)) := by
  unfold fine at hl
  obtain ⟨j, hj, hl⟩ := List.mem_flatMap.1 hl
  obtain ⟨p, hp, rfl⟩ := List.mem_map.1 hl
  have hj := List.mem_range.1 hj
  have hN : (0 : ℝ) < N := by exact_mod_cast (by omega : 0 < N)
  refine ⟨p, hp, T * j / N, ⟨by positivity, ?_⟩, rfl⟩
  rw [div_le_iff₀ hN]
  exact mul_le_mul_of_nonneg_left (by exact_mod_cast hj.le) hT.le

/-- Electrostatics.  If `φ` is the potential of the film under a source with the potential `exp(-q y)`, the quasistatic coefficients
of the finely layered samples tend to those of `φ`. -/
theorem C121_static (q T : ℝ) (hq : 0 < q) (hT : 0 < T) (env : ℂ) (P : List ((ℝ → ℂ) × ℝ)) (sub : ℂ) (nu : Option ℝ) (he : env ≠ 0)
    (hs : sub ≠ 0) (hP : ∀ p ∈ P, 0 ≤ p.2 ∧ ContinuousOn p.1 (Icc 0 T) ∧ ∀ y ∈ Icc 0 T, p.1 y ≠ 0) (φ D : ℝ → ℂ) (r c : ℂ)
    (h : IsGradedPotential q env P T sub φ D)
    (h0 : ∀ y < 0, φ y = Complex.exp (-(q : ℂ) * y) - r * Complex.exp ((q : ℂ) * y))
    (h1 : ∀ y > T, φ y = c * Complex.exp (-(q : ℂ) * (y - T))) :
    ∃ z t : ℕ → ℂ, (∀ᶠ N in atTop, (layered env (fine P T N) sub nu).reflCoefQs (FP.num q) = .ok (FP.num (z N)) ∧
      (layered env (fine P T N) sub nu).transCoefQs (FP.num q) = .ok (FP.num (t N))) ∧
      Tendsto z atTop (𝓝 r) ∧ Tendsto t atTop (𝓝 (c * (sub / env))) := by
  have hq' : (q : ℂ) ≠ 0 := by exact_mod_cast hq.ne'
  have inv : ∀ p ∈ P, ContinuousOn (fun y => (p.1 y)⁻¹) (Icc 0 T) := fun p hp => (hP p hp).2.1.inv₀ (hP p hp).2.2
  obtain ⟨B₁, b1, B1⟩ := list_bound P id (fun p hp => (hP p hp).2.1)
  obtain ⟨B₂, b2, B2⟩ := list_bound P (fun e => e⁻¹) inv
  have hv : Continuous fun y => (q : ℂ) ^ 2 * φ y := continuous_const.mul h.cont
  have wave : ∀ (e : ℂ) (S : Set ℝ), Laplace q φ D e S → Wave e⁻¹ (q : ℂ) D (fun y => (q : ℂ) ^ 2 * φ y) S := by
    intro e S h y hy
    obtain ⟨h1, h2⟩ := h y hy
    exact ⟨h2.congr_deriv (by rw [div_inv_eq_mul]; ring), (h1.const_mul _).congr_deriv (by rw [div_eq_mul_inv]; ring)⟩
  have de : ∀ (k : ℂ) (x y : ℝ), HasDerivAt (fun y : ℝ => Complex.exp (k * ((y : ℂ) - x))) (k * Complex.exp (k * (y - x))) y := by
    intro k x y
    have h1 : HasDerivAt (fun y : ℝ => k * ((y : ℂ) - x)) k y := by
      simpa using ((hasDerivAt_id y).ofReal_comp.sub_const (x : ℂ)).const_mul k
    simpa [mul_comm] using h1.cexp
  have lim := graded_amp hT (fun e => e⁻¹) (fun _ => (q : ℂ)) env P sub (B := max (max B₁ B₂) q) (b1.trans ((le_max_left _ _).trans (le_max_left _ _)))
    (fun p hp => (hP p hp).1) (fun p hp y hy => ⟨inv_ne_zero ((hP p hp).2.2 y hy), hq', (B2 p hp y hy).trans ((le_max_right _ _).trans (le_max_left _ _)),
      by rw [inv_inv]; exact (B1 p hp y hy).trans ((le_max_left _ _).trans (le_max_left _ _)), by
        rw [Complex.norm_real, Real.norm_of_nonneg hq.le]
        exact le_max_right _ _⟩)
    (inv_ne_zero hs) hq' (a := epsAlong P) (b := fun y => (q : ℂ) ^ 2 * invAcross P y)
    (continuousOn_list_sum P id fun p hp => (hP p hp).2.1) (continuousOn_const.mul (continuousOn_list_sum P (fun e => e⁻¹) inv))
    (fun y _ => by simp only [epsAlong, inv_inv])
    (fun y _ => by
      unfold invAcross
      rw [← List.sum_map_mul_left]
      congr 1
      refine List.map_congr_left fun p _ => ?_
      ring)
    h.contD hv (fun y hy => by
      obtain ⟨h1, h2⟩ := h.inside y hy
      exact ⟨h2.congr_deriv (by ring), (h1.const_mul _).congr_deriv (by ring)⟩)
  have a0 : amp env⁻¹ (q : ℂ) D (fun y => (q : ℂ) ^ 2 * φ y) 0 = ![-(env * q), -(env * q * r)] := by
    refine form_amp (inv_ne_zero he) hq' h.contD hv isOpen_Iio (wave _ _ h.above) (by rw [closure_Iio]; exact self_mem_Iic) fun y hy => ?_
    have d1 := (h.above y hy).1
    have d2 : HasDerivAt φ (-(q : ℂ) * Complex.exp (-(q : ℂ) * (y - (0 : ℝ))) - r * ((q : ℂ) * Complex.exp ((q : ℂ) * (y - (0 : ℝ))))) y := by
      refine ((de (-(q : ℂ)) 0 y).sub ((de (q : ℂ) 0 y).const_mul r)).congr_of_eventuallyEq ?_
      filter_upwards [isOpen_Iio.mem_nhds hy] with x hx
      simpa using h0 x hx
    have := d1.unique d2
    rw [div_eq_iff he] at this
    rw [this]
    ring
  have a1 : amp sub⁻¹ (q : ℂ) D (fun y => (q : ℂ) ^ 2 * φ y) T = ![-(sub * q * c), 0] := by
    refine form_amp (inv_ne_zero hs) hq' h.contD hv isOpen_Ioi (wave _ _ h.below) (by rw [closure_Ioi]; exact self_mem_Ici) fun y hy => ?_
    have d1 := (h.below y hy).1
    have d2 : HasDerivAt φ (c * (-(q : ℂ) * Complex.exp (-(q : ℂ) * (y - T)))) y := by
      refine ((de (-(q : ℂ)) T y).const_mul c).congr_of_eventuallyEq ?_
      filter_upwards [isOpen_Ioi.mem_nhds hy] with x hx
      exact h1 x hx
    have := d1.unique d2
    rw [div_eq_iff hs] at this
    rw [this]
    ring
  rw [a0, a1] at lim
  obtain ⟨c0, c1, c2⟩ := graded_coefs (neg_ne_zero.2 (mul_ne_zero he hq')) lim
  have thin : ∀ᶠ N : ℕ in atTop, ∀ p ∈ P, q * (p.2 * (T / N)) ≤ maxExpArg := by
    have : ∀ᶠ N : ℕ in atTop, ∀ p ∈ {p | p ∈ P}, q * (p.2 * (T / N)) ≤ maxExpArg := by
      rw [eventually_all_finite (List.finite_toSet P)]
      intro p _
      have h1 : Tendsto (fun N : ℕ => q * (p.2 * (T / N))) atTop (𝓝 0) := by
        have := ((tendsto_const_div_atTop_nhds_zero_nat T).const_mul p.2).const_mul q
        simpa using this
      filter_upwards [h1.eventually (eventually_le_nhds (show (0 : ℝ) < 709 by norm_num))] with N hN
      linarith [maxExpArg_gt]
    exact this
  refine ⟨fun N => fieldMat (fun e => e⁻¹) (fun _ => (q : ℂ)) env (fine P T N) sub 1 0 / fieldMat (fun e => e⁻¹) (fun _ => (q : ℂ)) env (fine P T N) sub 0 0,
    fun N => 1 / fieldMat (fun e => e⁻¹) (fun _ => (q : ℂ)) env (fine P T N) sub 0 0, ?_, ?_, ?_⟩
  · filter_upwards [c0, thin] with N hN ht
    have em := static_mat hq env (fine P T N) sub fun l hl => by
      obtain ⟨p, hp, y, hy, rfl⟩ := mem_fine hT hl
      exact ⟨mul_nonneg (hP p hp).1 (by positivity), ht p hp⟩
    have hL : ∀ l ∈ fine P T N, l.1 ≠ 0 := fun l hl => by
      obtain ⟨p, hp, y, hy, rfl⟩ := mem_fine hT hl
      exact (hP p hp).2.2 y hy
    rw [em] at hN ⊢
    exact ⟨reflCoefQs_num _ _ _ _ _ hL hs hN, transCoefQs_num _ _ _ _ _ hL hs hN⟩
  · convert c1 using 2
    field_simp
  · convert c2 using 2
    field_simp

/-! ## Light -/

theorem frac_sum (P : List ((ℝ → ℂ) × ℝ)) : (P.map fun p => (p.2 : ℂ)).sum = (((P.map fun p => p.2).sum : ℝ) : ℂ) := by
  induction P with
  | nil => simp
  | cons p P ih => simp only [List.map_cons, List.sum_cons, ih, Complex.ofReal_add]

theorem sum_light (P : List ((ℝ → ℂ) × ℝ)) (nu q : ℝ) (y : ℝ) (hP : ∀ p ∈ P, p.1 y ≠ 0) :
    (P.map fun p => (p.2 : ℂ) * ((p.1 y)⁻¹ * (-Complex.I * kz nu q (p.1 y)) ^ 2)).sum =
      (q : ℂ) ^ 2 * invAcross P y - (nu : ℂ) ^ 2 * (((P.map fun p => p.2).sum : ℝ) : ℂ) := by
  unfold invAcross
  rw [← frac_sum]
  induction P with
  | nil => simp
  | cons p P ih =>
    have := hP p List.mem_cons_self
    simp only [List.map_cons, List.sum_cons]
    rw [ih fun p hp => hP p (List.mem_cons_of_mem _ hp), mul_pow, kz_sq, neg_sq, Complex.I_sq]
    field_simp
    ring

theorem sum_light_s (P : List ((ℝ → ℂ) × ℝ)) (nu q : ℝ) (y : ℝ) :
    (P.map fun p => (p.2 : ℂ) * (1 * (-Complex.I * kz nu q (p.1 y)) ^ 2)).sum =
      (q : ℂ) ^ 2 * (((P.map fun p => p.2).sum : ℝ) : ℂ) - (nu : ℂ) ^ 2 * epsAlong P y := by
  unfold epsAlong
  rw [← frac_sum]
  induction P with
  | nil => simp
  | cons p P ih =>
    simp only [List.map_cons, List.sum_cons]
    rw [ih, mul_pow, kz_sq, neg_sq, Complex.I_sq]
    ring

theorem kz_bound {nu q B : ℝ} {e : ℂ} (hB : 1 ≤ B) (h : ‖e * (nu : ℂ) ^ 2 - (q : ℂ) ^ 2‖ ≤ B) : ‖-Complex.I * kz nu q e‖ ≤ B := by
  rw [norm_mul, norm_neg, Complex.norm_I, one_mul]
  have : ‖kz nu q e‖ ^ 2 ≤ B ^ 2 := by
    rw [← norm_pow, kz_sq]
    nlinarith
  exact (pow_le_pow_iff_left₀ (norm_nonneg _) (by linarith) two_ne_zero).1 this

/-- Light with the electric field in the plane of incidence: the amplitudes of the magnetic field. -/
theorem C121_light_p (nu q T : ℝ) (hnu : nu ≠ 0) (hT : 0 < T) (env : ℂ) (P : List ((ℝ → ℂ) × ℝ)) (sub : ℂ) (snu : Option ℝ)
    (he : env ≠ 0 ∧ env * nu ^ 2 ≠ q ^ 2) (hs : sub ≠ 0 ∧ sub * nu ^ 2 ≠ q ^ 2) (hsum : (P.map fun p => p.2).sum = 1)
    (hP : ∀ p ∈ P, 0 ≤ p.2 ∧ ContinuousOn p.1 (Icc 0 T) ∧ ∀ y ∈ Icc 0 T, p.1 y ≠ 0 ∧ p.1 y * nu ^ 2 ≠ q ^ 2)
    (Ex Ey Hz : ℝ → ℂ) (r c : ℂ) (h : IsGradedLightP nu q env P T sub Ex Ey Hz)
    (h0 : ∀ y : ℝ, y < 0 → Hz y = Complex.exp (Complex.I * (Medium.at nu q env).k * y) +
      r * Complex.exp (-Complex.I * (Medium.at nu q env).k * y))
    (h1 : ∀ y : ℝ, y > T → Hz y = c * Complex.exp (Complex.I * (Medium.at nu q sub).k * (y - T))) :
    ∃ z t : ℕ → ℂ, (∀ᶠ N in atTop, (layered env (fine P T N) sub snu).reflCoef (atQ q nu "p") = .ok (FP.num (z N)) ∧
      (layered env (fine P T N) sub snu).transCoef (atQ q nu "p") = .ok (FP.num (t N))) ∧
      Tendsto z atTop (𝓝 r) ∧ Tendsto t atTop (𝓝 c) := by
  have hI := Complex.I_ne_zero
  have hn : (nu : ℂ) ≠ 0 := by exact_mod_cast hnu
  have hk : ∀ {e : ℂ}, e * (nu : ℂ) ^ 2 ≠ (q : ℂ) ^ 2 → kz nu q e ≠ 0 := fun h h0 => h (sub_eq_zero.1 (kz_eq_zero.1 h0))
  have inv : ∀ p ∈ P, ContinuousOn (fun y => (p.1 y)⁻¹) (Icc 0 T) := fun p hp => (hP p hp).2.1.inv₀ fun y hy => ((hP p hp).2.2 y hy).1
  obtain ⟨B₁, b1, B1⟩ := list_bound P id (fun p hp => (hP p hp).2.1)
  obtain ⟨B₂, b2, B2⟩ := list_bound P (fun e => e⁻¹) inv
  obtain ⟨B₃, b3, B3⟩ := list_bound P (fun e => e * (nu : ℂ) ^ 2 - (q : ℂ) ^ 2)
    (fun p hp => ((hP p hp).2.1.mul continuousOn_const).sub continuousOn_const)
  have hv : Continuous fun y => Complex.I * nu * Ex y := continuous_const.mul h.contE
  have lim := graded_amp hT (fun e => e⁻¹) (fun e => -Complex.I * kz nu q e) env P sub (B := max (max B₁ B₂) B₃)
    (b1.trans ((le_max_left _ _).trans (le_max_left _ _))) (fun p hp => (hP p hp).1)
    (fun p hp y hy => ⟨inv_ne_zero ((hP p hp).2.2 y hy).1, mul_ne_zero (neg_ne_zero.2 hI) (hk ((hP p hp).2.2 y hy).2),
      (B2 p hp y hy).trans ((le_max_right _ _).trans (le_max_left _ _)),
      by rw [inv_inv]; exact (B1 p hp y hy).trans ((le_max_left _ _).trans (le_max_left _ _)), (kz_bound b3 (B3 p hp y hy)).trans (le_max_right _ _)⟩)
    (inv_ne_zero hs.1) (mul_ne_zero (neg_ne_zero.2 hI) (hk hs.2)) (a := epsAlong P) (b := fun y => (q : ℂ) ^ 2 * invAcross P y - (nu : ℂ) ^ 2)
    (continuousOn_list_sum P id fun p hp => (hP p hp).2.1)
    ((continuousOn_const.mul (continuousOn_list_sum P (fun e => e⁻¹) inv)).sub continuousOn_const)
    (fun y _ => by simp only [epsAlong, inv_inv])
    (fun y hy => by rw [sum_light P nu q y fun p hp => ((hP p hp).2.2 y hy).1, hsum, Complex.ofReal_one, mul_one])
    h.contH hv (fun y hy => by
      obtain ⟨d1, ⟨Dy, e1, e2⟩, d2⟩ := h.inside y hy
      refine ⟨d1.congr_deriv (by ring), (d2.const_mul _).congr_deriv ?_⟩
      have e3 : (q : ℂ) * Hz y = -(nu * Dy) := by
        linear_combination -Complex.I * e2 + (q * Hz y + nu * Dy) * Complex.I_sq
      rw [e1]
      linear_combination (nu * (nu * Hz y + q * invAcross P y * Dy)) * Complex.I_sq - q * invAcross P y * e3)
  have a0 : amp env⁻¹ (-Complex.I * kz nu q env) Hz (fun y => Complex.I * nu * Ex y) 0 = ![1, r] := by
    refine form_amp (inv_ne_zero he.1) (mul_ne_zero (neg_ne_zero.2 hI) (hk he.2)) h.contH hv isOpen_Iio ((lightP_wave hnu he.1).1 h.above).1
      (by rw [closure_Iio]; exact self_mem_Iic) fun y hy => ?_
    rw [h0 y hy, one_mul]
    simp only [Medium.at, kz, neg_mul, neg_neg, Complex.ofReal_zero, sub_zero]
  have a1 : amp sub⁻¹ (-Complex.I * kz nu q sub) Hz (fun y => Complex.I * nu * Ex y) T = ![c, 0] := by
    refine form_amp (inv_ne_zero hs.1) (mul_ne_zero (neg_ne_zero.2 hI) (hk hs.2)) h.contH hv isOpen_Ioi ((lightP_wave hnu hs.1).1 h.below).1
      (by rw [closure_Ioi]; exact self_mem_Ici) fun y hy => ?_
    rw [h1 y hy]
    simp only [Medium.at, kz, neg_mul, neg_neg, zero_mul, add_zero]
  rw [a0, a1] at lim
  obtain ⟨c0, c1, c2⟩ := graded_coefs one_ne_zero lim
  rw [div_one] at c1 c2
  refine ⟨_, _, ?_, c1, c2⟩
  filter_upwards [c0] with N hN
  have reg : FarRegular "p" nu q env (fine P T N) sub := ⟨⟨hk he.2, fun l hl => by
    obtain ⟨p, hp, y, hy, rfl⟩ := mem_fine hT hl
    exact hk ((hP p hp).2.2 y hy).2⟩, fun _ => ⟨fun l hl => by
    obtain ⟨p, hp, y, hy, rfl⟩ := mem_fine hT hl
    exact ((hP p hp).2.2 y hy).1, hs.1⟩⟩
  rw [light_mat "p" (fun e => e⁻¹) (by simp) nu q env _ sub] at hN ⊢
  rw [reflCoef_eq "p" env _ sub snu nu q (Or.inl rfl) reg, transCoef_eq "p" env _ sub snu nu q (Or.inl rfl) reg, FP.num_div _ hN, FP.num_div _ hN]
  exact ⟨rfl, rfl⟩

/-- Light with the magnetic field in the plane of incidence: the amplitudes of the electric field. -/
theorem C121_light_s (nu q T : ℝ) (hnu : nu ≠ 0) (hT : 0 < T) (env : ℂ) (P : List ((ℝ → ℂ) × ℝ)) (sub : ℂ) (snu : Option ℝ)
    (he : env * nu ^ 2 ≠ q ^ 2) (hs : sub * nu ^ 2 ≠ q ^ 2) (hsum : (P.map fun p => p.2).sum = 1)
    (hP : ∀ p ∈ P, 0 ≤ p.2 ∧ ContinuousOn p.1 (Icc 0 T) ∧ ∀ y ∈ Icc 0 T, p.1 y * nu ^ 2 ≠ q ^ 2)
    (Ez Hx Hy : ℝ → ℂ) (r c : ℂ) (h : IsGradedLightS nu q env P T sub Ez Hx Hy)
    (h0 : ∀ y : ℝ, y < 0 → Ez y = Complex.exp (Complex.I * (Medium.at nu q env).k * y) +
      r * Complex.exp (-Complex.I * (Medium.at nu q env).k * y))
    (h1 : ∀ y : ℝ, y > T → Ez y = c * Complex.exp (Complex.I * (Medium.at nu q sub).k * (y - T))) :
    ∃ z t : ℕ → ℂ, (∀ᶠ N in atTop, (layered env (fine P T N) sub snu).reflCoef (atQ q nu "s") = .ok (FP.num (z N)) ∧
      (layered env (fine P T N) sub snu).transCoef (atQ q nu "s") = .ok (FP.num (t N))) ∧
      Tendsto z atTop (𝓝 r) ∧ Tendsto t atTop (𝓝 c) := by
  have hI := Complex.I_ne_zero
  have hn : (nu : ℂ) ≠ 0 := by exact_mod_cast hnu
  have hk : ∀ {e : ℂ}, e * (nu : ℂ) ^ 2 ≠ (q : ℂ) ^ 2 → kz nu q e ≠ 0 := fun h h0 => h (sub_eq_zero.1 (kz_eq_zero.1 h0))
  obtain ⟨B₃, b3, B3⟩ := list_bound P (fun e => e * (nu : ℂ) ^ 2 - (q : ℂ) ^ 2)
    (fun p hp => ((hP p hp).2.1.mul continuousOn_const).sub continuousOn_const)
  have hv : Continuous fun y => -(Complex.I * nu) * Hx y := continuous_const.mul h.contH
  have h1' : (P.map fun p => (p.2 : ℂ)).sum = 1 := by rw [frac_sum, hsum, Complex.ofReal_one]
  have lim := graded_amp hT (fun _ => 1) (fun e => -Complex.I * kz nu q e) env P sub (B := B₃) b3 (fun p hp => (hP p hp).1)
    (fun p hp y hy => ⟨one_ne_zero, mul_ne_zero (neg_ne_zero.2 hI) (hk ((hP p hp).2.2 y hy)), by simpa using b3, by simpa using b3,
      kz_bound b3 (B3 p hp y hy)⟩)
    one_ne_zero (mul_ne_zero (neg_ne_zero.2 hI) (hk hs)) (a := fun _ => 1) (b := fun y => (q : ℂ) ^ 2 - (nu : ℂ) ^ 2 * epsAlong P y)
    continuousOn_const (continuousOn_const.sub (continuousOn_const.mul (continuousOn_list_sum P id fun p hp => (hP p hp).2.1)))
    (fun y _ => by simp only [inv_one, mul_one, h1'])
    (fun y hy => by rw [sum_light_s P nu q y, hsum, Complex.ofReal_one, mul_one])
    h.contE hv (fun y hy => by
      obtain ⟨d1, e1, d2⟩ := h.inside y hy y rfl
      refine ⟨d1.congr_deriv (by ring), (d2.const_mul _).congr_deriv ?_⟩
      linear_combination -(nu : ℂ) ^ 2 * epsAlong P y * Ez y * (-Complex.I_sq) + q * Complex.I * e1 - q ^ 2 * Ez y * Complex.I_sq)
  have a0 : amp 1 (-Complex.I * kz nu q env) Ez (fun y => -(Complex.I * nu) * Hx y) 0 = ![1, r] := by
    refine form_amp one_ne_zero (mul_ne_zero (neg_ne_zero.2 hI) (hk he)) h.contE hv isOpen_Iio ((lightS_wave hnu).1 h.above).1
      (by rw [closure_Iio]; exact self_mem_Iic) fun y hy => ?_
    rw [h0 y hy, one_mul]
    simp only [Medium.at, kz, neg_mul, neg_neg, Complex.ofReal_zero, sub_zero]
  have a1 : amp 1 (-Complex.I * kz nu q sub) Ez (fun y => -(Complex.I * nu) * Hx y) T = ![c, 0] := by
    refine form_amp one_ne_zero (mul_ne_zero (neg_ne_zero.2 hI) (hk hs)) h.contE hv isOpen_Ioi ((lightS_wave hnu).1 h.below).1
      (by rw [closure_Ioi]; exact self_mem_Ici) fun y hy => ?_
    rw [h1 y hy]
    simp only [Medium.at, kz, neg_mul, neg_neg, zero_mul, add_zero]
  rw [a0, a1] at lim
  obtain ⟨c0, c1, c2⟩ := graded_coefs one_ne_zero lim
  rw [div_one] at c1 c2
  refine ⟨_, _, ?_, c1, c2⟩
  filter_upwards [c0] with N hN
  have reg : FarRegular "s" nu q env (fine P T N) sub := ⟨⟨hk he, fun l hl => by
    obtain ⟨p, hp, y, hy, rfl⟩ := mem_fine hT hl
    exact hk ((hP p hp).2.2 y hy)⟩, fun h => absurd h (by decide)⟩
  rw [light_mat "s" (fun _ => 1) (by simp) nu q env _ sub] at hN ⊢
  rw [reflCoef_eq "s" env _ sub snu nu q (Or.inr rfl) reg, transCoef_eq "s" env _ sub snu nu q (Or.inr rfl) reg, FP.num_div _ hN, FP.num_div _ hN]
  exact ⟨rfl, rfl⟩

/-! ## Superlattices -/

/-- Slices of constant media. -/
noncomputable def lattice (P : List (ℝ × ℝ)) : List ((ℝ → ℂ) × ℝ) := P.map fun p => (fun _ => (p.1 : ℂ), p.2)

theorem lattice_along (P : List (ℝ × ℝ)) (y : ℝ) : epsAlong (lattice P) y = (((P.map fun p => p.2 * p.1).sum : ℝ) : ℂ) := by
  unfold epsAlong lattice
  induction P with
  | nil => simp
  | cons p P ih =>
    simp only [List.map_cons, List.sum_cons, Complex.ofReal_add, Complex.ofReal_mul] at ih ⊢
    rw [ih]

theorem lattice_across (P : List (ℝ × ℝ)) (y : ℝ) : invAcross (lattice P) y = (((P.map fun p => p.2 / p.1).sum : ℝ) : ℂ) := by
  unfold invAcross lattice
  induction P with
  | nil => simp
  | cons p P ih =>
    simp only [List.map_cons, List.sum_cons, Complex.ofReal_add, Complex.ofReal_div] at ih ⊢
    rw [ih, div_eq_mul_inv]

theorem lattice_pos {P : List (ℝ × ℝ)} (hP : ∀ p ∈ P, 0 < p.1 ∧ 0 < p.2) (hne : P ≠ []) :
    0 < (P.map fun p => p.2 * p.1).sum ∧ 0 < (P.map fun p => p.2 / p.1).sum := by
  constructor
  · refine List.sum_pos _ ?_ (by simpa using hne)
    intro x hx
    obtain ⟨p, hp, rfl⟩ := List.mem_map.1 hx
    exact mul_pos (hP p hp).2 (hP p hp).1
  · refine List.sum_pos _ ?_ (by simpa using hne)
    intro x hx
    obtain ⟨p, hp, rfl⟩ := List.mem_map.1 hx
    exact div_pos (hP p hp).2 (hP p hp).1

/-- Quasistatically a superlattice of dielectrics is one film, of another permittivity and another thickness:
`√(eps_along eps_across)` and `T √(eps_along / eps_across)`. -/
theorem C121_superlattice (q T : ℝ) (hq : 0 < q) (hT : 0 < T) (env : ℂ) (P : List (ℝ × ℝ)) (sub : ℂ) (nu : Option ℝ) (he : env ≠ 0)
    (hs : sub ≠ 0) (hne : P ≠ []) (hP : ∀ p ∈ P, 0 < p.1 ∧ 0 < p.2) (along across : ℝ) (h1 : along = (P.map fun p => p.2 * p.1).sum)
    (h2 : across⁻¹ = (P.map fun p => p.2 / p.1).sum) (hc : q * (T * √(along / across)) ≤ maxExpArg) (r τ : ℂ)
    (hr : (layered env [((√(along * across) : ℝ), T * √(along / across))] sub nu).reflCoefQs (FP.num q) = .ok (FP.num r))
    (hτ : (layered env [((√(along * across) : ℝ), T * √(along / across))] sub nu).transCoefQs (FP.num q) = .ok (FP.num τ)) :
    ∃ z t : ℕ → ℂ, (∀ᶠ N in atTop, (layered env (fine (lattice P) T N) sub nu).reflCoefQs (FP.num q) = .ok (FP.num (z N)) ∧
      (layered env (fine (lattice P) T N) sub nu).transCoefQs (FP.num q) = .ok (FP.num (t N))) ∧
      Tendsto z atTop (𝓝 r) ∧ Tendsto t atTop (𝓝 τ) := by
  obtain ⟨pa, pb⟩ := lattice_pos hP hne
  rw [← h1] at pa
  rw [← h2] at pb
  have pb := inv_pos.1 pb
  set s := √(along / across) with hsd
  have s0 : 0 < s := Real.sqrt_pos.2 (div_pos pa pb)
  have m0 : 0 < √(along * across) := Real.sqrt_pos.2 (mul_pos pa pb)
  have e1 : s / √(along * across) = across⁻¹ := by
    rw [hsd, Real.sqrt_div pa.le, Real.sqrt_mul pa.le]
    have ha := Real.sqrt_pos.2 pa
    have hb := Real.sqrt_pos.2 pb
    have hb2 := Real.sq_sqrt pb.le
    field_simp
    nlinarith
  have e2 : s * √(along * across) = along := by
    rw [hsd, Real.sqrt_div pa.le, Real.sqrt_mul pa.le]
    have ha2 := Real.sq_sqrt pa.le
    have hb := Real.sqrt_pos.2 pb
    field_simp
    nlinarith
  have mne : ((√(along * across) : ℝ) : ℂ) ≠ 0 := by exact_mod_cast m0.ne'
  have hth : thickness [(((√(along * across) : ℝ) : ℂ), T * s)] = T * s := by simp [thickness]
  obtain ⟨uni, φ, D, hpot, lim0, lim1⟩ := C117_static q hq env _ sub nu he (by
    intro l hl
    rw [List.mem_singleton] at hl
    subst hl
    exact ⟨mne, by positivity, hc⟩) hs r τ hr hτ
  obtain ⟨up, dn⟩ := uni φ D 1 hpot (by simpa using lim0) lim1
  rw [hth] at dn
  obtain ⟨f0, f1, f2⟩ := hpot.eqn
  -- the depth in the film that corresponds to a depth in the superlattice
  set g : ℝ → ℝ := fun y => min y 0 + s * (max 0 (min y T)) + (max y T - T) with hg
  have gc : Continuous g := by fun_prop
  have g0 : ∀ y ≤ 0, g y = y := fun y hy => by
    simp only [hg]
    rw [min_eq_left hy, min_eq_left (hy.trans hT.le), max_eq_left hy, max_eq_right (hy.trans hT.le)]
    ring
  have g1 : ∀ y, 0 ≤ y → y ≤ T → g y = s * y := fun y h1 h2 => by
    simp only [hg]
    rw [min_eq_right h1, min_eq_left h2, max_eq_right h1, max_eq_right h2]
    ring
  have g2 : ∀ y, T ≤ y → g y = T * s + (y - T) := fun y h => by
    simp only [hg]
    rw [min_eq_right (hT.le.trans h), min_eq_right h, max_eq_right hT.le, max_eq_left h]
    ring
  have near0 : ∀ y < 0, HasDerivAt g 1 y := fun y hy => (hasDerivAt_id y).congr_of_eventuallyEq (by
    filter_upwards [isOpen_Iio.mem_nhds hy] with x hx
    exact g0 x (le_of_lt hx))
  have near1 : ∀ y ∈ Ioo 0 T, HasDerivAt g s y := fun y hy => by
    have : HasDerivAt (fun y : ℝ => s * y) s y := by simpa using (hasDerivAt_id y).const_mul s
    refine this.congr_of_eventuallyEq ?_
    filter_upwards [isOpen_Ioo.mem_nhds hy] with x hx
    exact g1 x hx.1.le hx.2.le
  have near2 : ∀ y > T, HasDerivAt g 1 y := fun y hy => by
    have : HasDerivAt (fun y : ℝ => T * s + (y - T)) 1 y := ((hasDerivAt_id y).sub_const T).const_add (T * s)
    refine this.congr_of_eventuallyEq ?_
    filter_upwards [isOpen_Ioi.mem_nhds hy] with x hx
    exact g2 x (le_of_lt hx)
  have chain : ∀ {f : ℝ → ℂ} {f' : ℂ} {y a : ℝ}, HasDerivAt f f' (g y) → HasDerivAt g a y → HasDerivAt (fun y => f (g y)) (a * f') y := by
    intro f f' y a h1 h2
    have := h1.scomp y h2
    exact this
  have hpot' : IsGradedPotential q env (lattice P) T sub (fun y => φ (g y)) fun y => D (g y) := by
    refine ⟨hpot.cont.comp gc, hpot.contD.comp gc, fun y hy => ?_, fun y hy => ?_, fun y hy => ?_⟩
    · obtain ⟨d1, d2⟩ := f0 y hy
      rw [← g0 y (le_of_lt hy)] at d1 d2
      exact ⟨(chain d1 (near0 y hy)).congr_deriv (by simp), (chain d2 (near0 y hy)).congr_deriv (by simp)⟩
    · have hgy : g y ∈ Ioo 0 (0 + T * s) := by
        rw [g1 y hy.1.le hy.2.le, zero_add]
        exact ⟨mul_pos s0 hy.1, by nlinarith [hy.2]⟩
      obtain ⟨d1, d2⟩ := f1 _ hgy
      refine ⟨(chain d1 (near1 y hy)).congr_deriv ?_, (chain d2 (near1 y hy)).congr_deriv ?_⟩
      · rw [lattice_across, ← h2, ← e1]
        push_cast
        ring
      · have e2' : (along : ℂ) = s * (√(along * across) : ℝ) := by exact_mod_cast e2.symm
        rw [lattice_along, ← h1, show (along : ℂ) * (q : ℂ) ^ 2 * φ (g y) = s * (√(along * across) : ℝ) * (q : ℂ) ^ 2 * φ (g y) by
          rw [← e2']]
        ring
    · have hgy : g y ∈ Ioi (0 + T * s) := by
        have : T < y := hy
        rw [g2 y this.le, zero_add]
        simpa using this
      obtain ⟨d1, d2⟩ := f2 _ hgy
      exact ⟨(chain d1 (near2 y hy)).congr_deriv (by simp), (chain d2 (near2 y hy)).congr_deriv (by simp)⟩
  have key := C121_static q T hq hT env (lattice P) sub nu he hs (by
    intro p hp
    obtain ⟨p', hp', rfl⟩ := List.mem_map.1 hp
    refine ⟨(hP p' hp').2.le, continuousOn_const, fun y _ => ?_⟩
    exact Complex.ofReal_ne_zero.2 (hP p' hp').1.ne') _ _ r (τ * (env / sub)) hpot' (fun y hy => by
      rw [g0 y hy.le, up y hy.le]
      ring) (fun y hy => by
      rw [g2 y hy.le, dn _ (by linarith [show T < y from hy])]
      push_cast
      ring_nf)
  have : τ * (env / sub) * (sub / env) = τ := by field_simp
  rwa [this] at key

/-- A superlattice of `a` and `b` in equal parts does not reflect in a medium `√(a b)`. -/
theorem C121_matched (q T a b m : ℝ) (hq : 0 < q) (hT : 0 < T) (ha : 0 < a) (hb : 0 < b) (hm : 0 < m) (hmm : m ^ 2 = a * b)
    (hc : q * (T * ((a + b) / (2 * m))) ≤ maxExpArg) :
    ∃ z t : ℕ → ℂ, (∀ᶠ N in atTop,
        (layered m (fine (lattice [(a, 1 / 2), (b, 1 / 2)]) T N) m).reflCoefQs (FP.num q) = .ok (FP.num (z N)) ∧
        (layered m (fine (lattice [(a, 1 / 2), (b, 1 / 2)]) T N) m).transCoefQs (FP.num q) = .ok (FP.num (t N))) ∧
      Tendsto z atTop (𝓝 0) ∧ Tendsto t atTop (𝓝 (Real.exp (-(q * (T * ((a + b) / (2 * m))))))) := by
  have e1 : √((a + b) / 2 * (2 * (a * b) / (a + b))) = m := by
    rw [show (a + b) / 2 * (2 * (a * b) / (a + b)) = m ^ 2 by rw [hmm]; field_simp, Real.sqrt_sq hm.le]
  have e2 : √((a + b) / 2 / (2 * (a * b) / (a + b))) = (a + b) / (2 * m) := by
    rw [show (a + b) / 2 / (2 * (a * b) / (a + b)) = ((a + b) / (2 * m)) ^ 2 by rw [div_pow, mul_pow, hmm]; field_simp,
      Real.sqrt_sq (by positivity)]
  have mne : (m : ℂ) ≠ 0 := by exact_mod_cast hm.ne'
  have film := C11_recursion m [((m : ℂ), T * ((a + b) / (2 * m)))] m none q (by simpa using hm.ne') mne 0
    (Real.exp (-(q * (T * ((a + b) / (2 * m)))))) (by
      have h2 : ¬ (m : ℂ) + m = 0 := by
        rw [← two_mul]
        exact mul_ne_zero two_ne_zero mne
      simp [stackCoefs, h2, clipped_of_abs_le (show |q * (T * ((a + b) / (2 * m)))| ≤ maxExpArg by rwa [abs_of_nonneg (by positivity)])])
  refine C121_superlattice q T hq hT m [(a, 1 / 2), (b, 1 / 2)] m none mne mne (by simp) ?_ ((a + b) / 2) (2 * (a * b) / (a + b)) ?_ ?_ ?_ 0 _ ?_ ?_
  · intro p hp
    simp only [List.mem_cons, List.not_mem_nil, or_false] at hp
    rcases hp with rfl | rfl
    · exact ⟨ha, by norm_num⟩
    · exact ⟨hb, by norm_num⟩
  · simp
    ring
  · simp
    field_simp
    ring
  · rwa [e2]
  · rw [e1, e2]
    exact film.1
  · rw [e1, e2]
    exact film.2

example : ∃ z t : ℕ → ℂ, (∀ᶠ N in atTop,
    (layered (4 : ℝ) (fine (lattice [(2, 1 / 2), (8, 1 / 2)]) 10 N) (4 : ℝ)).reflCoefQs (FP.num 1) = .ok (FP.num (z N)) ∧
    (layered (4 : ℝ) (fine (lattice [(2, 1 / 2), (8, 1 / 2)]) 10 N) (4 : ℝ)).transCoefQs (FP.num 1) = .ok (FP.num (t N))) ∧
    Tendsto z atTop (𝓝 0) ∧ Tendsto t atTop (𝓝 (Real.exp (-(1 * (10 * ((2 + 8) / (2 * 4))))))) :=
  C121_matched 1 10 2 8 4 one_pos (by norm_num) (by norm_num) (by norm_num) (by norm_num) (by norm_num) (by linarith [maxExpArg_gt])

/-! ## Examples for light: a superlattice of mean permittivity 1 at normal incidence, in vacuum -/

theorem lattice_example (y : ℝ) : epsAlong (lattice [(1 / 2, 1 / 2), (3 / 2, 1 / 2)]) y = 1 := by
  rw [lattice_along]
  norm_num

theorem vacuum_k : (Medium.at 1 0 1).k = 1 := by
  have h := kz_real (nu := 1) (q := 0) (e := 1) (by norm_num)
  rw [show (Medium.at 1 0 1).k = kz 1 0 ((1 : ℝ) : ℂ) by simp [Medium.at, kz], h]
  norm_num

theorem plane_deriv (y : ℝ) : HasDerivAt (fun y : ℝ => Complex.exp (Complex.I * y)) (Complex.I * Complex.exp (Complex.I * y)) y := by
  have h : HasDerivAt (fun y : ℝ => Complex.I * (y : ℂ)) Complex.I y := by
    simpa using (Complex.ofRealCLM.hasDerivAt (x := y)).const_mul Complex.I
  exact h.cexp.congr_deriv (by ring)

theorem lattice_ok {y : ℝ} (p : (ℝ → ℂ) × ℝ) (hp : p ∈ lattice [(1 / 2, 1 / 2), (3 / 2, 1 / 2)]) :
    0 ≤ p.2 ∧ ContinuousOn p.1 (Icc 0 1) ∧ p.1 y ≠ 0 ∧ p.1 y * ((1 : ℝ) : ℂ) ^ 2 ≠ ((0 : ℝ) : ℂ) ^ 2 := by
  simp only [lattice, List.map_cons, List.map_nil, List.mem_cons, List.not_mem_nil, or_false] at hp
  rcases hp with rfl | rfl <;> exact ⟨by norm_num, continuousOn_const, by norm_num, by norm_num⟩

example : ∃ z t : ℕ → ℂ, (∀ᶠ N in atTop,
    (layered 1 (fine (lattice [(1 / 2, 1 / 2), (3 / 2, 1 / 2)]) 1 N) 1).reflCoef (atQ 0 1 "p") = .ok (FP.num (z N)) ∧
    (layered 1 (fine (lattice [(1 / 2, 1 / 2), (3 / 2, 1 / 2)]) 1 N) 1).transCoef (atQ 0 1 "p") = .ok (FP.num (t N))) ∧
    Tendsto z atTop (𝓝 0) ∧ Tendsto t atTop (𝓝 (Complex.exp Complex.I)) := by
  refine C121_light_p 1 0 1 one_ne_zero one_pos 1 _ 1 none (by norm_num) (by norm_num) (by norm_num [lattice])
    (fun p hp => ⟨(lattice_ok (y := 0) p hp).1, (lattice_ok (y := 0) p hp).2.1, fun y _ => (lattice_ok p hp).2.2⟩)
    (fun y => Complex.exp (Complex.I * y)) (fun _ => 0) (fun y => Complex.exp (Complex.I * y)) 0 _ ?_ ?_ ?_
  · refine ⟨by fun_prop, by fun_prop, fun y _ => ?_, fun y _ => ?_, fun y _ => ?_⟩
    · exact ⟨(plane_deriv y).congr_deriv (by simp), by simp, (plane_deriv y).congr_deriv (by simp)⟩
    · refine ⟨(plane_deriv y).congr_deriv ?_, ⟨0, by simp, by simp⟩, (plane_deriv y).congr_deriv (by simp)⟩
      rw [lattice_example]
      simp
    · exact ⟨(plane_deriv y).congr_deriv (by simp), by simp, (plane_deriv y).congr_deriv (by simp)⟩
  · intro y _
    rw [vacuum_k]
    simp
  · intro y _
    rw [vacuum_k, ← Complex.exp_add]
    push_cast
    ring_nf

example : ∃ z t : ℕ → ℂ, (∀ᶠ N in atTop,
    (layered 1 (fine (lattice [(1 / 2, 1 / 2), (3 / 2, 1 / 2)]) 1 N) 1).reflCoef (atQ 0 1 "s") = .ok (FP.num (z N)) ∧
    (layered 1 (fine (lattice [(1 / 2, 1 / 2), (3 / 2, 1 / 2)]) 1 N) 1).transCoef (atQ 0 1 "s") = .ok (FP.num (t N))) ∧
    Tendsto z atTop (𝓝 0) ∧ Tendsto t atTop (𝓝 (Complex.exp Complex.I)) := by
  refine C121_light_s 1 0 1 one_ne_zero one_pos 1 _ 1 none (by norm_num) (by norm_num) (by norm_num [lattice])
    (fun p hp => ⟨(lattice_ok (y := 0) p hp).1, (lattice_ok (y := 0) p hp).2.1, fun y _ => (lattice_ok p hp).2.2.2⟩)
    (fun y => Complex.exp (Complex.I * y)) (fun y => -Complex.exp (Complex.I * y)) (fun _ => 0) 0 _ ?_ ?_ ?_
  · have all : ∀ S, MaxwellS 1 0 (fun y => Complex.exp (Complex.I * y)) (fun y => -Complex.exp (Complex.I * y)) (fun _ => 0) 1 S :=
      fun S y _ => ⟨(plane_deriv y).congr_deriv (by simp), by simp, (plane_deriv y).neg.congr_deriv (by simp)⟩
    refine ⟨by fun_prop, by fun_prop, all _, fun y _ => ?_, all _⟩
    rw [lattice_example]
    exact all _
  · intro y _
    rw [vacuum_k]
    simp
  · intro y _
    rw [vacuum_k, ← Complex.exp_add]
    push_cast
    ring_nf

/-- A graded film that does not reflect: `eps = exp(3 y / 2)` between `2` and `2 exp(3 / 2)`. -/
example : ∃ z t : ℕ → ℂ, (∀ᶠ N in atTop,
    (layered 2 (fine [(fun y => Complex.exp (3 / 2 * y), 1)] 1 N) (2 * Complex.exp (3 / 2))).reflCoefQs (FP.num 1) = .ok (FP.num (z N)) ∧
    (layered 2 (fine [(fun y => Complex.exp (3 / 2 * y), 1)] 1 N) (2 * Complex.exp (3 / 2))).transCoefQs (FP.num 1) = .ok (FP.num (t N))) ∧
    Tendsto z atTop (𝓝 0) ∧ Tendsto t atTop (𝓝 (Complex.exp (-2) * (2 * Complex.exp (3 / 2) / 2))) := by
  have E := Complex.exp_ne_zero (3 / 2)
  -- the potential is `exp` of `a`, and the field `D` is `-2 exp` of `b`
  have dl : ∀ (k c : ℂ) (y : ℝ), HasDerivAt (fun y : ℝ => Complex.exp (k * y + c)) (k * Complex.exp (k * y + c)) y := fun k c y => by
    have h : HasDerivAt (fun y : ℝ => k * (y : ℂ) + c) k y := by
      simpa using ((Complex.ofRealCLM.hasDerivAt (x := y)).const_mul k).add_const c
    exact h.cexp.congr_deriv (by ring)
  set a : ℝ → ℝ := fun y => -(min y 0) - 2 * (max 0 (min y 1)) - (max y 1 - 1) with had
  set b : ℝ → ℝ := fun y => -(min y 0) - 1 / 2 * (max 0 (min y 1)) - (max y 1 - 1) with hbd
  have ac : Continuous a := by fun_prop
  have bc : Continuous b := by fun_prop
  have v0 : ∀ y ≤ 0, a y = -y ∧ b y = -y := fun y hy => by
    simp only [had, hbd]
    rw [min_eq_left hy, min_eq_left (hy.trans zero_le_one), max_eq_left hy, max_eq_right (hy.trans zero_le_one)]
    constructor <;> ring
  have v1 : ∀ y, 0 ≤ y → y ≤ 1 → a y = -2 * y ∧ b y = -(1 / 2) * y := fun y h1 h2 => by
    simp only [had, hbd]
    rw [min_eq_right h1, min_eq_left h2, max_eq_right h1, max_eq_right h2]
    constructor <;> ring
  have v2 : ∀ y, 1 ≤ y → a y = -y - 1 ∧ b y = -y + 1 / 2 := fun y h => by
    simp only [had, hbd]
    rw [min_eq_right (zero_le_one.trans h), min_eq_right h, max_eq_right zero_le_one, max_eq_left h]
    constructor <;> ring
  have loc : ∀ {f : ℝ → ℝ} {S : Set ℝ} {k c y : ℝ}, IsOpen S → y ∈ S → (∀ x ∈ S, f x = k * x + c) →
      HasDerivAt (fun y => Complex.exp (f y)) (k * Complex.exp (f y)) y := by
    intro f S k c y hS hy hf
    rw [hf y hy]
    push_cast
    refine (dl k c y).congr_of_eventuallyEq ?_
    filter_upwards [hS.mem_nhds hy] with x hx
    rw [hf x hx]
    push_cast
    rfl
  refine C121_static 1 1 one_pos one_pos 2 _ _ none (by norm_num) (mul_ne_zero two_ne_zero E) ?_ (fun y => Complex.exp (a y))
    (fun y => -2 * Complex.exp (b y)) 0 (Complex.exp (-2)) ⟨by fun_prop, by fun_prop, fun y hy => ?_, fun y hy => ?_, fun y hy => ?_⟩
    (fun y hy => ?_) (fun y hy => ?_)
  · intro p hp
    rw [List.mem_singleton] at hp
    subst hp
    exact ⟨zero_le_one, by fun_prop, fun y _ => Complex.exp_ne_zero _⟩
  · have d1 := loc (f := a) (k := -1) (c := 0) isOpen_Iio hy fun x hx => by rw [(v0 x (le_of_lt hx)).1]; ring
    have d2 := loc (f := b) (k := -1) (c := 0) isOpen_Iio hy fun x hx => by rw [(v0 x (le_of_lt hx)).2]; ring
    have e : b y = a y := by rw [(v0 y (le_of_lt hy)).1, (v0 y (le_of_lt hy)).2]
    refine ⟨d1.congr_deriv ?_, (d2.const_mul (-2)).congr_deriv ?_⟩ <;> rw [e] <;> push_cast <;> ring
  · have d1 := loc (f := a) (k := -2) (c := 0) isOpen_Ioo hy fun x hx => by rw [(v1 x hx.1.le hx.2.le).1]; ring
    have d2 := loc (f := b) (k := -(1 / 2)) (c := 0) isOpen_Ioo hy fun x hx => by rw [(v1 x hx.1.le hx.2.le).2]; ring
    have e : Complex.exp (b y) = Complex.exp (3 / 2 * y) * Complex.exp (a y) := by
      rw [(v1 y hy.1.le hy.2.le).1, (v1 y hy.1.le hy.2.le).2, ← Complex.exp_add]
      push_cast
      ring_nf
    have ne := Complex.exp_ne_zero (3 / 2 * y)
    refine ⟨d1.congr_deriv ?_, (d2.const_mul (-2)).congr_deriv ?_⟩ <;> rw [e]
    · simp only [invAcross, List.map_cons, List.map_nil, List.sum_cons, List.sum_nil]
      push_cast
      field_simp
      ring
    · simp only [epsAlong, List.map_cons, List.map_nil, List.sum_cons, List.sum_nil]
      push_cast
      ring
  · have d1 := loc (f := a) (k := -1) (c := -1) isOpen_Ioi hy fun x hx => by rw [(v2 x (le_of_lt hx)).1]; ring
    have d2 := loc (f := b) (k := -1) (c := 1 / 2) isOpen_Ioi hy fun x hx => by rw [(v2 x (le_of_lt hx)).2]; ring
    have e : Complex.exp (b y) = Complex.exp (3 / 2) * Complex.exp (a y) := by
      rw [(v2 y (le_of_lt hy)).1, (v2 y (le_of_lt hy)).2, ← Complex.exp_add]
      push_cast
      ring_nf
    refine ⟨d1.congr_deriv ?_, (d2.const_mul (-2)).congr_deriv ?_⟩ <;> rw [e]
    · push_cast
      field_simp
    · push_cast
      ring
  · rw [(v0 y hy.le).1]
    simp
  · rw [(v2 y hy.le).1, ← Complex.exp_add]
    push_cast
    ring_nf

end Snompy.Props
