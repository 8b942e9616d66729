import Verif.Lemmas.Electrostatics
import Verif.Props.Fdm
import Verif.Props.Pdm

/-!
# C118: the models are self-consistent electrostatics

`Spec/Electrostatics.lean` has Laplace's equation, Coulomb's potential and the conditions at interfaces.
-/

namespace Snompy.Props

open Snompy Filter Topology

/-! ## Image charges -/

theorem hasDerivAt_charge (Q : ℂ) (h x y z : ℝ) (hne : 0 < x ^ 2 + y ^ 2 + (z - h) ^ 2) :
    HasDerivAt (fun z => chargePot Q h x y z) (-(Q * ((z - h : ℝ) : ℂ) / (4 * Real.pi * dist3 x y (z - h) ^ 3))) z := by
  have h1 := ((radInv_first hne).comp_sub_const z h).ofReal_comp.const_mul (Q / (4 * Real.pi))
  have e : (fun z => chargePot Q h x y z) = fun z => Q / (4 * Real.pi) * (((rad (x ^ 2 + y ^ 2) (z - h))⁻¹ : ℝ) : ℂ) := by
    ext z
    unfold chargePot
    rw [dist3_z]
    push_cast
    rw [← div_eq_mul_inv, div_div]
  rw [e]
  refine h1.congr_deriv ?_
  rw [dist3_z]
  push_cast
  rw [mul_neg, div_mul_div_comm]

/-- The potential of a charge at the height `h` above a bulk sample is the one of the charge and of the charge `-β` at the depth `h`,
and below the surface the one of the charge `1 - β` at the height `h`, where `β` is the value of `refl_coef_qs`; with other charges
the conditions at the surface are not met. -/
theorem C118_image (e sub : ℂ) (nu : Option ℝ) (hs : sub ≠ 0) (hsum : sub + e ≠ 0) (h : ℝ) (hh : 0 < h) :
    ∃ β, (bulk e sub nu).reflCoefQs = .ok (FP.num β) ∧
      (∀ b c : ℂ, Interface e sub (fun x y z => chargePot 1 h x y z + chargePot b (-h) x y z) (chargePot c h) ↔
        b = -β ∧ c = 1 - β) ∧
      (∀ x y z : ℝ, 0 ≤ z → (x, y, z) ≠ (0, 0, h) →
        HarmonicAt3 (fun x y z => chargePot 1 h x y z + chargePot (-β) (-h) x y z) x y z) ∧
      ∀ x y z : ℝ, z ≤ 0 → HarmonicAt3 (chargePot (1 - β) h) x y z := by
  refine ⟨_, C09_refl e sub nu _ hs hsum, fun b c => ?_, fun x y z hz hne => ?_, fun x y z hz => ?_⟩
  · have hpi : (Real.pi : ℂ) ≠ 0 := by exact_mod_cast Real.pi_ne_zero
    have hd : ∀ x y : ℝ, (dist3 x y h : ℂ) ≠ 0 := fun x y => by
      have : 0 < dist3 x y h := Real.sqrt_pos.2 (by positivity)
      exact_mod_cast this.ne'
    have hm : ∀ x y : ℝ, dist3 x y (-h) = dist3 x y h := fun x y => by simp [dist3]
    have hh' : (h : ℂ) ≠ 0 := by exact_mod_cast hh.ne'
    have du := fun (Q : ℂ) x y => hasDerivAt_charge Q h x y 0 (by nlinarith [sq_nonneg x, sq_nonneg y, sq_pos_of_pos hh])
    have di := fun (Q : ℂ) x y => hasDerivAt_charge Q (-h) x y 0 (by nlinarith [sq_nonneg x, sq_nonneg y, sq_pos_of_pos hh])
    simp only [zero_sub, sub_neg_eq_add, zero_add, hm] at du di
    have pot : (∀ x y, chargePot 1 h x y 0 + chargePot b (-h) x y 0 = chargePot c h x y 0) ↔ 1 + b = c := by
      unfold chargePot
      simp only [zero_sub, neg_neg, hm]
      constructor
      · intro h0
        have := h0 0 0
        have h3 := hd 0 0
        field_simp at this
        exact this
      · rintro rfl x y
        ring
    have disp : (∀ x y, ∃ u d : ℂ, HasDerivAt (fun z => chargePot 1 h x y z + chargePot b (-h) x y z) u 0 ∧
        HasDerivAt (fun z => chargePot c h x y z) d 0 ∧ e * u = sub * d) ↔ e * (1 - b) = sub * c := by
      constructor
      · intro h0
        obtain ⟨u, d, h1, h2, h3⟩ := h0 0 0
        rw [h1.unique ((du 1 0 0).add (di b 0 0)), h2.unique (du c 0 0)] at h3
        have h4 := hd 0 0
        push_cast at h3
        field_simp at h3
        linear_combination h3
      · intro h0 x y
        refine ⟨_, _, (du 1 x y).add (di b x y), du c x y, ?_⟩
        push_cast
        have := hd x y
        field_simp
        linear_combination h0
    constructor
    · rintro ⟨h1, h2⟩
      have h3 := pot.1 h1
      have h4 := disp.1 h2
      have hb : b = -((sub - e) / (sub + e)) := by
        field_simp
        linear_combination -h4 + sub * h3
      exact ⟨hb, by rw [← h3, hb]; ring⟩
    · rintro ⟨rfl, rfl⟩
      refine ⟨pot.2 (by ring), disp.2 ?_⟩
      field_simp
      ring
  · refine HarmonicAt3.add (harmonic_charge _ ?_) (harmonic_charge _ ?_)
    · by_contra h0
      refine hne ?_
      have h1 : x ^ 2 = 0 := by nlinarith [sq_nonneg x, sq_nonneg y, sq_nonneg (z - h)]
      have h2 : y ^ 2 = 0 := by nlinarith [sq_nonneg x, sq_nonneg y, sq_nonneg (z - h)]
      have h3 : (z - h) ^ 2 = 0 := by nlinarith [sq_nonneg x, sq_nonneg y, sq_nonneg (z - h)]
      rw [pow_eq_zero_iff two_ne_zero] at h1 h2 h3
      rw [h1, h2, sub_eq_zero.1 h3]
    · have : 0 < (z - -h) ^ 2 := by
        have : 0 < z - -h := by linarith
        positivity
      nlinarith [sq_nonneg x, sq_nonneg y]
  · refine harmonic_charge _ ?_
    have : 0 < (z - h) ^ 2 := by
      have : z - h ≠ 0 := by linarith
      positivity
    nlinarith [sq_nonneg x, sq_nonneg y]

example := C118_image 1 2 none two_ne_zero (by norm_num) 3 (by norm_num)

/-- `surf_pot_and_field` is documented to return potential and field at the surface.  They are those at the position of the charge
(times `-4π`): at the surface the image charge gives twice the potential and four times the field. -/
theorem C118_where (env : Env) (e sub : ℂ) (nu : Option ℝ) (hs : sub ≠ 0) (hsum : sub + e ≠ 0) (zQ : ℝ) (hz : 0 < zQ)
    (nLag : Option ℕ) (hr : env.RuleOk nLag) :
    ∃ β φ E, (bulk e sub nu).reflCoefQs = .ok (FP.num β) ∧
      (bulk e sub nu).surfPotAndField env (FP.num zQ) nLag = .ok (FP.num φ, FP.num E) ∧
      φ = -(4 * Real.pi) * chargePot (-β) (-zQ) 0 0 zQ ∧
      HasDerivAt (fun z => 4 * Real.pi * chargePot (-β) (-zQ) 0 0 z) E zQ ∧
      2 * φ = -(4 * Real.pi) * chargePot (-β) (-zQ) 0 0 0 ∧
      HasDerivAt (fun z => 4 * Real.pi * chargePot (-β) (-zQ) 0 0 z) (4 * E) 0 := by
  have hpi : (Real.pi : ℂ) ≠ 0 := by exact_mod_cast Real.pi_ne_zero
  have hzc : (zQ : ℂ) ≠ 0 := by exact_mod_cast hz.ne'
  have hsurf := surf_num env (bulk e sub nu) (fun _ => (sub - e) / (sub + e)) zQ hz.ne' nLag hr.1
    ⟨_, C09_refl e sub nu _ hs hsum⟩ fun xw _ => C09_refl e sub nu _ hs hsum
  rw [sum_const_mul _ (fun xw => xw.2), sum_const_mul _ (fun xw => xw.2 * xw.1), hr.2.sum_w hr.1, hr.2.sum_wx hr.1] at hsurf
  refine ⟨_, _, _, C09_refl e sub nu _ hs hsum, hsurf, ?_, ?_, ?_, ?_⟩
  all_goals generalize (sub - e) / (sub + e) = β
  · have d : dist3 0 0 (zQ - -zQ) = 2 * zQ := by
      rw [dist3, show (0 : ℝ) ^ 2 + 0 ^ 2 + (zQ - -zQ) ^ 2 = (2 * zQ) ^ 2 by ring, Real.sqrt_sq (by linarith)]
    rw [chargePot, d]
    push_cast
    field_simp
  · have d : dist3 0 0 (zQ - -zQ) = 2 * zQ := by
      rw [dist3, show (0 : ℝ) ^ 2 + 0 ^ 2 + (zQ - -zQ) ^ 2 = (2 * zQ) ^ 2 by ring, Real.sqrt_sq (by linarith)]
    have := (hasDerivAt_charge (-β) (-zQ) 0 0 zQ (by nlinarith)).const_mul (4 * (Real.pi : ℂ))
    refine this.congr_deriv ?_
    rw [d]
    push_cast
    field_simp
    ring
  · have d : dist3 0 0 (0 - -zQ) = zQ := by
      rw [dist3, show (0 : ℝ) ^ 2 + 0 ^ 2 + (0 - -zQ) ^ 2 = zQ ^ 2 by ring, Real.sqrt_sq hz.le]
    rw [chargePot, d]
    push_cast
    field_simp
  · have d : dist3 0 0 (0 - -zQ) = zQ := by
      rw [dist3, show (0 : ℝ) ^ 2 + 0 ^ 2 + (0 - -zQ) ^ 2 = zQ ^ 2 by ring, Real.sqrt_sq hz.le]
    have := (hasDerivAt_charge (-β) (-zQ) 0 0 0 (by nlinarith)).const_mul (4 * (Real.pi : ℂ))
    refine this.congr_deriv ?_
    rw [d]
    push_cast
    field_simp
    ring

example (d : Defaults) := C118_where (rule2 d) 1 2 none two_ne_zero (by norm_num) 3 (by norm_num) (some 2) (rule2_ok d)

/-! ## The sphere of the point dipole model -/

/-- A sphere in a homogeneous field `E` along the axis: it answers with the dipole `p` and the inner field `c`. -/
theorem sphere (r : ℝ) (hr : 0 < r) (e s : ℂ) (he : e ≠ 0) (hs : s + 2 * e ≠ 0) (E p c : ℂ) :
    OnSphere r e s (fun x y z => fieldPot E x y z + dipolePot p x y z / e) (fieldPot c) ↔
      p = 4 * Real.pi * r ^ 3 * e * ((s - e) / (s + 2 * e)) * E ∧ c = 3 * e / (s + 2 * e) * E := by
  obtain ⟨D, rfl⟩ : ∃ D, s = D - 2 * e := ⟨s + 2 * e, by ring⟩
  rw [sub_add_cancel] at hs ⊢
  have hpi : (Real.pi : ℂ) ≠ 0 := by exact_mod_cast Real.pi_ne_zero
  have hrc : (r : ℂ) ≠ 0 := by exact_mod_cast hr.ne'
  have ray : ∀ x y z k : ℝ, 0 < k → dist3 (k * x) (k * y) (k * z) = k * dist3 x y z := by
    intro x y z k hk
    unfold dist3
    rw [show (k * x) ^ 2 + (k * y) ^ 2 + (k * z) ^ 2 = k ^ 2 * (x ^ 2 + y ^ 2 + z ^ 2) by ring, Real.sqrt_mul (sq_nonneg k),
      Real.sqrt_sq hk.le]
  have dout : ∀ x y z : ℝ, dist3 x y z = r → HasDerivAt (fun k : ℝ => fieldPot E (k * x) (k * y) (k * z) +
      dipolePot p (k * x) (k * y) (k * z) / e) (-(E * z) - 2 * (p * z / (4 * Real.pi * r ^ 3 * e))) 1 := by
    intro x y z hd
    have h1 : HasDerivAt (fun k : ℝ => -(E * z) * (k : ℂ) + p * z / (4 * Real.pi * r ^ 3 * e) * (((k ^ 2)⁻¹ : ℝ) : ℂ))
        (-(E * z) * 1 + p * z / (4 * Real.pi * r ^ 3 * e) * ((-2 : ℝ) : ℂ)) 1 := by
      refine ((hasDerivAt_id (1 : ℝ)).ofReal_comp.const_mul _).add (HasDerivAt.const_mul _ (HasDerivAt.ofReal_comp ?_))
      refine ((hasDerivAt_pow 2 (1 : ℝ)).inv (by norm_num)).congr_deriv ?_
      norm_num
    refine (h1.congr_of_eventuallyEq ?_).congr_deriv (by push_cast; ring)
    filter_upwards [lt_mem_nhds (zero_lt_one' ℝ)] with k hk
    have hkc : (k : ℂ) ≠ 0 := by exact_mod_cast hk.ne'
    unfold fieldPot dipolePot
    rw [ray x y z k hk, hd]
    push_cast
    field_simp
  have din : ∀ x y z : ℝ, HasDerivAt (fun k : ℝ => fieldPot c (k * x) (k * y) (k * z)) (-(c * z)) 1 := by
    intro x y z
    have h1 : HasDerivAt (fun k : ℝ => -(c * z) * (k : ℂ)) (-(c * z) * 1) 1 :=
      (hasDerivAt_id (1 : ℝ)).ofReal_comp.const_mul _
    refine (h1.congr_of_eventuallyEq (Eventually.of_forall fun k => ?_)).congr_deriv (by ring)
    unfold fieldPot
    push_cast
    ring
  have north : dist3 0 0 r = r := by
    rw [dist3, show (0 : ℝ) ^ 2 + 0 ^ 2 + r ^ 2 = r ^ 2 by ring, Real.sqrt_sq hr.le]
  constructor
  · rintro ⟨h1, h2⟩
    have i1 := h1 0 0 r north
    obtain ⟨u, d, j1, j2, j3⟩ := h2 0 0 r north
    rw [j1.unique (dout 0 0 r north), j2.unique (din 0 0 r)] at j3
    unfold fieldPot dipolePot at i1
    rw [north] at i1
    have k1 : p = 4 * Real.pi * r ^ 3 * e * (E - c) := by
      field_simp at i1
      linear_combination i1
    have k2 : c * D = 3 * e * E := by
      rw [k1] at j3
      field_simp at j3
      linear_combination j3
    have k3 : c = 3 * e / D * E := by
      field_simp
      linear_combination k2
    refine ⟨?_, k3⟩
    rw [k1, k3]
    field_simp
    ring
  · rintro ⟨rfl, rfl⟩
    refine ⟨fun x y z hd => ?_, fun x y z hd => ⟨_, _, dout x y z hd, din x y z, ?_⟩⟩
    · unfold fieldPot dipolePot
      rw [hd]
      field_simp
      ring
    · field_simp
      ring

/-- `alpha_tip` is the polarizability of a sphere of radius `r_tip` and permittivity `eps_tip` in vacuum: it answers to a field `E`
with the dipole `alpha_tip E`, and with no other. -/
theorem C118_sphere (env : Env) (r : ℝ) (hr : 0 < r) (eps : ℂ) (h2 : eps ≠ -2) :
    ∃ α, env.defaults.pdm (R := FP ℝ) (C := FP ℂ) ⟨some (FP.num r), some (FP.num eps), none⟩ = .ok (FP.num r, FP.num α) ∧
      (∀ E p : ℂ, (∃ c, OnSphere r 1 eps (fun x y z => fieldPot E x y z + dipolePot p x y z) (fieldPot c)) ↔ p = α * E) ∧
      (∀ E p : ℂ, ∀ x y z : ℝ, (x, y, z) ≠ (0, 0, 0) → HarmonicAt3 (fun x y z => fieldPot E x y z + dipolePot p x y z) x y z) ∧
      ∀ (c : ℂ) (x y z : ℝ), HarmonicAt3 (fieldPot c) x y z := by
  have h2' : eps + 2 ≠ 0 := fun h0 => h2 (eq_neg_of_add_eq_zero_left h0)
  refine ⟨4 * Real.pi * r ^ 3 * (eps - 1) / (eps + 2), ?_, fun E p => ?_, fun E p x y z hne => ?_, fun c => harmonic_field c⟩
  · simp [Defaults.pdm, slit, snpow, sofR, sclit, FP.num_div _ h2']
  · have := fun c => sphere r hr 1 eps one_ne_zero (by simpa using h2') E p c
    simp only [div_one] at this
    simp only [this]
    constructor
    · rintro ⟨c, rfl, -⟩
      simp only [mul_one]
      ring
    · rintro rfl
      exact ⟨_, by simp only [mul_one]; ring, rfl⟩
  · refine (harmonic_field E x y z).add (harmonic_dipole p ?_)
    by_contra h0
    refine hne ?_
    have h1 : x ^ 2 = 0 := by nlinarith [sq_nonneg x, sq_nonneg y, sq_nonneg z]
    have h2 : y ^ 2 = 0 := by nlinarith [sq_nonneg x, sq_nonneg y, sq_nonneg z]
    have h3 : z ^ 2 = 0 := by nlinarith [sq_nonneg x, sq_nonneg y, sq_nonneg z]
    rw [pow_eq_zero_iff two_ne_zero] at h1 h2 h3
    rw [h1, h2, h3]

example (env : Env) := C118_sphere env 2 (by norm_num) (-3) (by norm_num)

/-- In an environment of permittivity `e` the same formula needs the permittivity of the tip relative to the environment; the code
takes `eps_tip` as it is, whatever the environment of the sample. -/
theorem C118_sphere_env (env : Env) (r : ℝ) (hr : 0 < r) (e eps : ℂ) (he : e ≠ 0) (h2 : eps ≠ -2) :
    ∃ α, env.defaults.pdm (R := FP ℝ) (C := FP ℂ) ⟨some (FP.num r), some (FP.num eps), none⟩ = .ok (FP.num r, FP.num α) ∧
      ∀ E p : ℂ, (∃ c, OnSphere r e (e * eps) (fun x y z => fieldPot E x y z + dipolePot p x y z / e) (fieldPot c)) ↔
        p = e * α * E := by
  have h2' : eps + 2 ≠ 0 := fun h0 => h2 (eq_neg_of_add_eq_zero_left h0)
  refine ⟨4 * Real.pi * r ^ 3 * (eps - 1) / (eps + 2), ?_, fun E p => ?_⟩
  · simp [Defaults.pdm, slit, snpow, sofR, sclit, FP.num_div _ h2']
  · have := fun c => sphere r hr e (e * eps) he (by
      rw [show e * eps + 2 * e = e * (eps + 2) by ring]
      exact mul_ne_zero he h2') E p c
    simp only [this]
    have e1 : 4 * Real.pi * r ^ 3 * e * ((e * eps - e) / (e * eps + 2 * e)) * E =
        e * (4 * Real.pi * r ^ 3 * (eps - 1) / (eps + 2)) * E := by
      rw [show e * eps + 2 * e = e * (eps + 2) by ring, show e * eps - e = e * (eps - 1) by ring, mul_div_mul_left _ _ he]
      ring
    rw [e1]
    exact ⟨fun ⟨c, h, _⟩ => h, fun h => ⟨_, h, rfl⟩⟩

example (env : Env) := C118_sphere_env env 2 (by norm_num) 4 (-3) (by norm_num) (by norm_num)

/-- Without `eps_tip` and `alpha_tip` the tip is a conducting sphere: the potential on it is zero for the dipole `alpha_tip E` and no
other. -/
theorem C118_conductor (env : Env) (r : ℝ) (hr : 0 < r) :
    ∃ α, env.defaults.pdm (R := FP ℝ) (C := FP ℂ) ⟨some (FP.num r), none, none⟩ = .ok (FP.num r, FP.num α) ∧
      ∀ E p : ℂ, (∀ x y z, dist3 x y z = r → fieldPot E x y z + dipolePot p x y z = 0) ↔ p = α * E := by
  have hpi : (Real.pi : ℂ) ≠ 0 := by exact_mod_cast Real.pi_ne_zero
  have hrc : (r : ℂ) ≠ 0 := by exact_mod_cast hr.ne'
  refine ⟨4 * Real.pi * r ^ 3, by simp [Defaults.pdm, slit, snpow, sofR], fun E p => ⟨fun h => ?_, ?_⟩⟩
  · have north : dist3 0 0 r = r := by
      rw [dist3, show (0 : ℝ) ^ 2 + 0 ^ 2 + r ^ 2 = r ^ 2 by ring, Real.sqrt_sq hr.le]
    have := h 0 0 r north
    unfold fieldPot dipolePot at this
    rw [north] at this
    field_simp at this
    linear_combination this
  · rintro rfl x y z hd
    unfold fieldPot dipolePot
    rw [hd]
    field_simp
    ring

example (env : Env) := C118_conductor env 2 (by norm_num)

/-! ## The point dipole model -/

/-- A dipole `p` at the height `h` is the derivative of a charge with respect to its height.  The field of its image at the dipole:
the derivative of the image potential `-β/(4π(z + h'))` with respect to `h'` and `-z`. -/
theorem image_dipole_field (β : ℂ) {h : ℝ} (hh : 0 < h) :
    ∃ φ : ℝ → ℂ, (∀ᶠ z in 𝓝 h, HasDerivAt (fun h' => chargePot (-β) (-h') 0 0 z) (φ z) h) ∧
      HasDerivAt φ (-(β / (16 * Real.pi * h ^ 3))) h := by
  have hpi : (Real.pi : ℂ) ≠ 0 := by exact_mod_cast Real.pi_ne_zero
  have hhc : (h : ℂ) ≠ 0 := by exact_mod_cast hh.ne'
  refine ⟨fun z => β / (4 * Real.pi) * ((((z + h) ^ 2)⁻¹ : ℝ) : ℂ), ?_, ?_⟩
  · filter_upwards [lt_mem_nhds hh] with z hz
    have h1 : HasDerivAt (fun h' : ℝ => -β / (4 * Real.pi) * (((z + h')⁻¹ : ℝ) : ℂ))
        (-β / (4 * Real.pi) * ((-1 / (z + h) ^ 2 : ℝ) : ℂ)) h := by
      refine HasDerivAt.const_mul _ (HasDerivAt.ofReal_comp ?_)
      exact ((hasDerivAt_id h).const_add z).inv (by simp only [id]; linarith)
    refine (h1.congr_of_eventuallyEq ?_).congr_deriv ?_
    · filter_upwards [lt_mem_nhds hh] with k hk
      have d : dist3 0 0 (z - -k) = z + k := by
        rw [dist3, show (0 : ℝ) ^ 2 + 0 ^ 2 + (z - -k) ^ 2 = (z + k) ^ 2 by ring, Real.sqrt_sq (by linarith)]
      rw [chargePot, d]
      push_cast
      rw [← div_eq_mul_inv, div_div]
    · push_cast
      ring
  · have h1 : HasDerivAt (fun z : ℝ => β / (4 * Real.pi) * ((((z + h) ^ 2)⁻¹ : ℝ) : ℂ))
        (β / (4 * Real.pi) * ((-(2 * (h + h)) / ((h + h) ^ 2) ^ 2 : ℝ) : ℂ)) h := by
      refine HasDerivAt.const_mul _ (HasDerivAt.ofReal_comp ?_)
      have h2 := ((hasDerivAt_id h).add_const h).pow 2
      refine (h2.inv (by simp only [Pi.pow_apply, id]; positivity)).congr_deriv ?_
      simp
    refine h1.congr_deriv ?_
    push_cast
    field_simp
    ring

/-- The point dipole model.  The tip at the height `h = r + z` has a dipole that answers to the incident field `E` and to the field
of its own image, whose potential per dipole is the derivative `φ` of the potential of the image charge with respect to the height of
the charge: `p = α (E - p φ')`.  This has exactly the solution `p = eff_pol E`. -/
theorem C118_pdm (env : Env) (s : Stack (FP ℝ) (FP ℂ)) (β : ℂ) (hβ : s.reflCoefQs = .ok (FP.num β)) (z r : ℝ) (α v : ℂ)
    (hh : 0 < r + z) (hv : Pdm.effPol env s (some (FP.num z)) (tip r α) = .ok (FP.num v)) (φ : ℝ → ℂ) (F : ℂ)
    (hφ : ∀ᶠ y in 𝓝 (r + z), HasDerivAt (fun h => chargePot (-β) (-h) 0 0 y) (φ y) (r + z)) (hF : HasDerivAt φ (-F) (r + z))
    (E p : ℂ) : p = α * (E + p * F) ↔ p = v * E := by
  obtain ⟨φ', h1, h2⟩ := image_dipole_field β hh
  have hF' : F = β / (16 * Real.pi * ((r + z : ℝ) : ℂ) ^ 3) := by
    have e : φ =ᶠ[𝓝 (r + z)] φ' := by
      filter_upwards [hφ, h1] with y i j using i.unique j
    have := (hF.congr_of_eventuallyEq e.symm).unique h2
    exact neg_injective this
  rw [Pdm.effPol_num env s (tip r α) z r α β (pdm_tip env r α) hβ hh.ne'] at hv
  have hg : α * F = Pdm.geom z r α * β := by
    rw [hF', Pdm.geom]
    push_cast
    ring
  by_cases h0 : 1 - Pdm.geom z r α * β = 0
  · rw [h0, num_div_zero] at hv
    cases hv
  · rw [FP.num_div _ h0] at hv
    have hv' : α / (1 - Pdm.geom z r α * β) = v := FP.num.inj (Except.ok.inj hv)
    rw [← hv', div_mul_eq_mul_div, eq_div_iff h0, ← hg]
    constructor <;> intro h <;> linear_combination h

example (env : Env) : ∃ (β v F : ℂ) (φ : ℝ → ℂ), (bulk 1 2).reflCoefQs = .ok (FP.num β) ∧
    Pdm.effPol env (bulk 1 2) (some (FP.num 0)) (tip 1 Complex.I) = .ok (FP.num v) ∧
    (∀ᶠ y in 𝓝 (1 + 0 : ℝ), HasDerivAt (fun h => chargePot (-β) (-h) 0 0 y) (φ y) (1 + 0)) ∧ HasDerivAt φ (-F) (1 + 0) ∧ F ≠ 0 := by
  have hβ := C09_refl 1 2 none (FP.num 0) two_ne_zero (by norm_num)
  obtain ⟨φ, h1, h2⟩ := image_dipole_field ((2 - 1) / (2 + 1)) (h := 1 + 0) (by norm_num)
  refine ⟨_, _, _, φ, hβ, Pdm.effPol_val env _ _ 0 1 Complex.I _ (pdm_tip env 1 Complex.I) hβ (by norm_num) ?_, h1, h2, ?_⟩
  · intro h
    have := congrArg Complex.re h
    have e : Pdm.geom 0 1 Complex.I * ((2 - 1) / (2 + 1)) = ((1 / (48 * Real.pi) : ℝ) : ℂ) * Complex.I := by
      unfold Pdm.geom
      push_cast
      ring
    rw [e] at this
    simp at this
  · have : (Real.pi : ℂ) ≠ 0 := by exact_mod_cast Real.pi_ne_zero
    norm_num [this]

/-! ## The finite dipole model -/

/-- The charges of the tip (`docs/guide/fdm.rst`, equation `q_1`): the image of `Q0` and `Q1` induces `Q1`. -/
theorem fdm_charges {β₀ f₀ β₁ f₁ : ℂ} (h : 1 - β₁ * f₁ ≠ 0) {Q₀ : ℂ} (hQ : Q₀ ≠ 0) {l : ℝ} (hl : l ≠ 0) (Q₁ : ℂ) :
    Q₁ = β₀ * f₀ * Q₀ + β₁ * f₁ * Q₁ ↔
      (2 * l * Q₀ + l * Q₁) / (2 * l * Q₀) = 1 + β₀ * f₀ / (2 * (1 - β₁ * f₁)) := by
  have hlc : (l : ℂ) ≠ 0 := by exact_mod_cast hl
  have e : (2 * l * Q₀ + l * Q₁) / (2 * l * Q₀) = 1 + Q₁ / (2 * Q₀) := by
    field_simp
  rw [e, add_right_inj, div_eq_div_iff (mul_ne_zero two_ne_zero hQ) (mul_ne_zero two_ne_zero h)]
  constructor
  · intro h
    linear_combination 2 * h
  · intro h
    linear_combination h / 2

/-- The finite dipole model on a bulk sample.  For every charge `Q0` there is exactly one charge `Q1` with `Q1 = β (f0 Q0 + f1 Q1)`,
and `eff_pol` is the ratio of the dipoles `2 L Q0 + L Q1` with and `2 L Q0` without sample. -/
theorem C118_fdm_bulk (env : Env) (s : Stack (FP ℝ) (FP ℂ)) (hm : s.multilayer = false) (β : ℂ)
    (hβ : s.reflCoefQs = .ok (FP.num β)) (z r l : ℝ) (g : ℂ) (d0 d1 dA : ℝ) (h0 : Fdm.GeomOk z d0 r l)
    (h1 : Fdm.GeomOk z d1 r l) (nLag : Option ℕ) (v : ℂ)
    (hv : Fdm.effPol env s (some (FP.num z)) (fdmTip r l g d0 d1 dA) nLag (some "bulk") = .ok (FP.num v))
    (Q₀ : ℂ) (hQ : Q₀ ≠ 0) (Q₁ : ℂ) :
    Q₁ = β * (Fdm.geom z d0 r l g * Q₀ + Fdm.geom z d1 r l g * Q₁) ↔ (2 * l * Q₀ + l * Q₁) / (2 * l * Q₀) = v := by
  rw [Fdm.effPol_bulk env s hm, hβ, PyM.ok_bind, fdm_fdmTip] at hv
  simp only [Option.getD_some] at hv
  rw [Fdm.geomFunc_num h0, Fdm.geomFunc_num h1] at hv
  have h : 1 - β * Fdm.geom z d1 r l g ≠ 0 := by
    intro h
    simp only [Fdm.effPolFormula, sclit, FP.num_mul, FP.num_sub, h, mul_zero, num_div_zero] at hv
    cases hv
  rw [Fdm.formula_num _ _ _ _ h] at hv
  rw [← FP.num.inj (Except.ok.inj hv), ← fdm_charges h hQ h0.l_pos.ne', mul_add, ← mul_assoc, ← mul_assoc]

theorem example_charges : (1 : ℂ) - (2 - 1) / (2 + 1) * Fdm.geom 0 (1 / 2) 1 300 Complex.I ≠ 0 := by
  have := example_im_ne example_geom_im (1 / 3)
  intro h
  refine this ?_
  push_cast
  linear_combination -h

example (env : Env) (Q₁ : ℂ) := C118_fdm_bulk env (bulk 1 2) (bulk_multilayer _ _ _) _ (C09_refl 1 2 none _ two_ne_zero (by norm_num))
  0 1 300 Complex.I 1 (1 / 2) 1.4 example_geomOk.1 example_geomOk.2 none _
  (effPol_val env (bulk 1 2) (bulk_multilayer _ _ _) _ (C09_refl 1 2 none _ two_ne_zero (by norm_num)) 0 1 300 Complex.I 1 (1 / 2) 1.4
    example_geomOk.1 example_geomOk.2 example_charges none) 1 one_ne_zero Q₁

/-- The charge average: the same with the averaged coefficient. -/
theorem C118_fdm_average (env : Env) (s : Stack (FP ℝ) (FP ℂ)) (z r l : ℝ) (g : ℂ) (d0 d1 dA : ℝ) (h0 : Fdm.GeomOk z d0 r l)
    (h1 : Fdm.GeomOk z d1 r l) (nLag : Option ℕ) (β : ℂ) (hβ : s.reflCoefQsAboveSurf env (FP.num (z + r * dA)) nLag = .ok (FP.num β))
    (v : ℂ) (hv : Fdm.effPol env s (some (FP.num z)) (fdmTip r l g d0 d1 dA) nLag (some "Q_ave") = .ok (FP.num v))
    (Q₀ : ℂ) (hQ : Q₀ ≠ 0) (Q₁ : ℂ) :
    Q₁ = β * (Fdm.geom z d0 r l g * Q₀ + Fdm.geom z d1 r l g * Q₁) ↔ (2 * l * Q₀ + l * Q₁) / (2 * l * Q₀) = v := by
  rw [Fdm.effPol_Qave, fdm_fdmTip] at hv
  simp only [Option.getD_some, FP.num_mul, FP.num_add] at hv
  rw [hβ, PyM.ok_bind, Fdm.geomFunc_num h0, Fdm.geomFunc_num h1] at hv
  have h : 1 - β * Fdm.geom z d1 r l g ≠ 0 := by
    intro h
    simp only [Fdm.effPolFormula, sclit, FP.num_mul, FP.num_sub, h, mul_zero, num_div_zero] at hv
    cases hv
  rw [Fdm.formula_num _ _ _ _ h] at hv
  rw [← FP.num.inj (Except.ok.inj hv), ← fdm_charges h hQ h0.l_pos.ne', mul_add, ← mul_assoc, ← mul_assoc]

example (d : Defaults) (Q₁ : ℂ) := C118_fdm_average (rule2 d) (bulk 1 2) 0 1 300 Complex.I 1 (1 / 2) 1.4 example_geomOk.1
  example_geomOk.2 (some 2) _ ((C28_average (rule2 d) 1 2 none _ (some 2) (rule2_ok d) two_ne_zero (by norm_num)).trans
    (C09_refl 1 2 none _ two_ne_zero (by norm_num))) _
  ((C32_eff_pol (rule2 d) 1 2 none two_ne_zero (by norm_num) (by norm_num) (some 2) (rule2_ok d) 0 1 300 Complex.I 1 (1 / 2) 1.4
    (by norm_num) (by norm_num) (some "Q_ave") (some "bulk") (.inr (.inr (.inr rfl))) (.inr (.inl rfl))).trans
    (effPol_val (rule2 d) (bulk 1 2) (bulk_multilayer _ _ _) _ (C09_refl 1 2 none _ two_ne_zero (by norm_num)) 0 1 300 Complex.I 1
      (1 / 2) 1.4 example_geomOk.1 example_geomOk.2 example_charges (some 2))) 1 one_ne_zero Q₁

/-- The geometry function for an image charge at the depth `d`: `geom` with the depth in place of `z + r d_Q`. -/
noncomputable def depthGeom (z d r l : ℝ) (g : ℂ) : ℂ :=
  (g - ((r + z + d) / (2 * l) : ℝ)) * (Real.log (4 * l / (r + 2 * z + 2 * d)) : ℝ) / (Real.log (4 * l / r) : ℝ)

theorem depthGeom_num {z d r l : ℝ} (hr : 0 < r) (hl : 0 < l) (hne : r ≠ 4 * l) (hden : 0 < r + 2 * z + 2 * d) (g : ℂ) :
    (Fdm.geomFuncMulti (FP.num z) (FP.num d) (FP.num r) (FP.num l) (FP.num g) : FP ℂ) = FP.num (depthGeom z d r l g) := by
  have e : d = z + r * ((d - z) / r) := by
    field_simp
    ring
  have ok : Fdm.GeomOk z ((d - z) / r) r l := ⟨hr, hl, hne, by
    have : 2 * ((d - z) / r) * r = 2 * (d - z) := by field_simp
    linarith⟩
  conv_lhs => rw [e]
  rw [Fdm.geomFuncMulti_bulk, Fdm.geomFunc_num ok, Fdm.geom, depthGeom]
  have e1 : (d - z) / r * r = d - z := by field_simp
  have e2 : 2 * ((d - z) / r) * r = 2 * (d - z) := by field_simp
  rw [e1, e2, show r + 2 * z + (d - z) = r + z + d by ring, show r + 4 * z + 2 * (d - z) = r + 2 * z + 2 * d by ring]

/-- Layered samples: each charge has its own image, at the depth and with the charge of `image_depth_and_charge`. -/
theorem C118_fdm_multi (env : Env) (s : Stack (FP ℝ) (FP ℂ)) (z r l : ℝ) (g : ℂ) (d0 d1 dA : ℝ) (hr : 0 < r) (hl : 0 < l)
    (hne : r ≠ 4 * l) (nLag : Option ℕ) (t₀ t₁ : ℝ) (β₀ β₁ : ℂ)
    (h0 : s.imageDepthAndCharge env (FP.num (z + r * d0)) nLag = .ok (FP.num t₀, FP.num β₀))
    (h1 : s.imageDepthAndCharge env (FP.num (z + r * d1)) nLag = .ok (FP.num t₁, FP.num β₁))
    (p0 : 0 < r + 2 * z + 2 * t₀) (p1 : 0 < r + 2 * z + 2 * t₁) (v : ℂ)
    (hv : Fdm.effPol env s (some (FP.num z)) (fdmTip r l g d0 d1 dA) nLag (some "multi") = .ok (FP.num v))
    (Q₀ : ℂ) (hQ : Q₀ ≠ 0) (Q₁ : ℂ) :
    Q₁ = β₀ * depthGeom z t₀ r l g * Q₀ + β₁ * depthGeom z t₁ r l g * Q₁ ↔ (2 * l * Q₀ + l * Q₁) / (2 * l * Q₀) = v := by
  rw [Fdm.effPol_multi, fdm_fdmTip] at hv
  simp only [Option.getD_some, FP.num_mul, FP.num_add] at hv
  rw [h0, PyM.ok_bind, h1, PyM.ok_bind] at hv
  simp only [depthGeom_num hr hl hne p0, depthGeom_num hr hl hne p1] at hv
  have h : 1 - β₁ * depthGeom z t₁ r l g ≠ 0 := by
    intro h
    simp only [Fdm.effPolFormula, sclit, FP.num_mul, FP.num_sub, h, mul_zero, num_div_zero] at hv
    cases hv
  rw [Fdm.formula_num _ _ _ _ h] at hv
  rw [← FP.num.inj (Except.ok.inj hv), ← fdm_charges h hQ hl.ne']

example (d : Defaults) (Q₁ : ℂ) := C118_fdm_multi (rule2 d) (bulk 1 2) 0 1 300 Complex.I 1 (1 / 2) 1.4 one_pos (by norm_num)
  (by norm_num) (some 2) _ _ _ _
  (C29_image (rule2 d) 1 2 none (0 + 1 * 1) (by norm_num) (some 2) (rule2_ok d) two_ne_zero (by norm_num) (by norm_num))
  (C29_image (rule2 d) 1 2 none (0 + 1 * (1 / 2)) (by norm_num) (some 2) (rule2_ok d) two_ne_zero (by norm_num) (by norm_num))
  (by norm_num) (by norm_num) _
  ((C32_eff_pol (rule2 d) 1 2 none two_ne_zero (by norm_num) (by norm_num) (some 2) (rule2_ok d) 0 1 300 Complex.I 1 (1 / 2) 1.4
    (by norm_num) (by norm_num) (some "multi") (some "bulk") (.inr (.inr (.inl rfl))) (.inr (.inl rfl))).trans
    (effPol_val (rule2 d) (bulk 1 2) (bulk_multilayer _ _ _) _ (C09_refl 1 2 none _ two_ne_zero (by norm_num)) 0 1 300 Complex.I 1
      (1 / 2) 1.4 example_geomOk.1 example_geomOk.2 example_charges (some 2))) 1 one_ne_zero Q₁

end Snompy.Props
