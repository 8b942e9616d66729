import Verif.Spec.Electrostatics
import Mathlib.Analysis.Calculus.Deriv.Inv
import Mathlib.Analysis.Calculus.Deriv.Shift
import Mathlib.Analysis.Calculus.Deriv.Pow
import Mathlib.Analysis.Calculus.Deriv.Mul
import Mathlib.Analysis.Calculus.Deriv.Add
import Mathlib.Analysis.Complex.RealDeriv

/-!
# Potentials of charges and dipoles
-/

namespace Snompy

open Filter Topology

/-- `1/√(a + s²)` and its derivatives. -/
noncomputable def rad (a s : ℝ) : ℝ := √(a + s ^ 2)

theorem rad_pos {a s : ℝ} (h : 0 < a + s ^ 2) : 0 < rad a s := Real.sqrt_pos.2 h

theorem rad_sq {a s : ℝ} (h : 0 < a + s ^ 2) : rad a s ^ 2 = a + s ^ 2 := Real.sq_sqrt h.le

theorem hasDerivAt_rad {a s : ℝ} (h : 0 < a + s ^ 2) : HasDerivAt (rad a) (s / rad a s) s := by
  have h1 : HasDerivAt (fun s : ℝ => a + s ^ 2) (2 * s) s := by
    simpa using ((hasDerivAt_pow 2 s).const_add a)
  have := h1.sqrt h.ne'
  refine this.congr_deriv ?_
  unfold rad
  rw [mul_div_mul_left _ _ two_ne_zero]

theorem hasDerivAt_radInv {a s : ℝ} (h : 0 < a + s ^ 2) (k : ℕ) :
    HasDerivAt (fun s => (rad a s ^ k)⁻¹) (-(k * s / rad a s ^ (k + 2))) s := by
  have hr := (rad_pos h).ne'
  cases k with
  | zero => simpa using hasDerivAt_const s (1 : ℝ)
  | succ k =>
    have := ((hasDerivAt_rad h).pow (k + 1)).inv (pow_ne_zero _ hr)
    refine this.congr_deriv ?_
    simp only [Nat.add_sub_cancel, Pi.pow_apply]
    push_cast
    field_simp
    ring

theorem near_pos {a s : ℝ} (h : 0 < a + s ^ 2) : ∀ᶠ t in 𝓝 s, 0 < a + t ^ 2 :=
  (by fun_prop : Continuous fun t : ℝ => a + t ^ 2).continuousAt.eventually_const_lt h

theorem dist3_x (x y z : ℝ) : dist3 x y z = rad (y ^ 2 + z ^ 2) x := by
  unfold dist3 rad
  congr 1
  ring

theorem dist3_y (x y z : ℝ) : dist3 x y z = rad (x ^ 2 + z ^ 2) y := by
  unfold dist3 rad
  congr 1
  ring

theorem dist3_z (x y z : ℝ) : dist3 x y z = rad (x ^ 2 + y ^ 2) z := rfl

theorem dist3_sq (x y z : ℝ) : dist3 x y z ^ 2 = x ^ 2 + y ^ 2 + z ^ 2 := Real.sq_sqrt (by positivity)

theorem HarmonicAt3.congr {φ ψ : ℝ → ℝ → ℝ → ℂ} {x y z : ℝ} (h : HarmonicAt3 φ x y z) (e : ∀ x y z, φ x y z = ψ x y z) :
    HarmonicAt3 ψ x y z := by
  have : φ = ψ := by
    ext x y z
    exact e x y z
  rwa [← this]

theorem HarmonicAt3.add {φ ψ : ℝ → ℝ → ℝ → ℂ} {x y z : ℝ} (h : HarmonicAt3 φ x y z) (h' : HarmonicAt3 ψ x y z) :
    HarmonicAt3 (fun x y z => φ x y z + ψ x y z) x y z := by
  obtain ⟨fx, fy, fz, a, b, c, h1, h2, h3, h4, h5, h6, h7⟩ := h
  obtain ⟨fx', fy', fz', a', b', c', i1, i2, i3, i4, i5, i6, i7⟩ := h'
  refine ⟨fun s => fx s + fx' s, fun s => fy s + fy' s, fun s => fz s + fz' s, a + a', b + b', c + c', ?_, h2.add i2, ?_,
    h4.add i4, ?_, h6.add i6, by linear_combination h7 + i7⟩
  · filter_upwards [h1, i1] with s j1 j2 using j1.add j2
  · filter_upwards [h3, i3] with s j1 j2 using j1.add j2
  · filter_upwards [h5, i5] with s j1 j2 using j1.add j2

theorem HarmonicAt3.const_mul {φ : ℝ → ℝ → ℝ → ℂ} {x y z : ℝ} (h : HarmonicAt3 φ x y z) (k : ℂ) :
    HarmonicAt3 (fun x y z => k * φ x y z) x y z := by
  obtain ⟨fx, fy, fz, a, b, c, h1, h2, h3, h4, h5, h6, h7⟩ := h
  refine ⟨fun s => k * fx s, fun s => k * fy s, fun s => k * fz s, k * a, k * b, k * c, ?_, h2.const_mul k, ?_,
    h4.const_mul k, ?_, h6.const_mul k, by linear_combination k * h7⟩
  · filter_upwards [h1] with s j1 using j1.const_mul k
  · filter_upwards [h3] with s j1 using j1.const_mul k
  · filter_upwards [h5] with s j1 using j1.const_mul k

/-- Shift along the axis. -/
theorem HarmonicAt3.shift {φ : ℝ → ℝ → ℝ → ℂ} {x y z h : ℝ} (hφ : HarmonicAt3 φ x y (z - h)) :
    HarmonicAt3 (fun x y z => φ x y (z - h)) x y z := by
  obtain ⟨fx, fy, fz, a, b, c, h1, h2, h3, h4, h5, h6, h7⟩ := hφ
  refine ⟨fx, fy, fun s => fz (s - h), a, b, c, h1, h2, h3, h4, ?_, h6.comp_sub_const z h, h7⟩
  have : Tendsto (fun s : ℝ => s - h) (𝓝 z) (𝓝 (z - h)) := (continuous_sub_right h).tendsto z
  filter_upwards [this.eventually h5] with s j1 using j1.comp_sub_const s h

/-- A real function with real derivatives. -/
theorem harmonic_real {φ : ℝ → ℝ → ℝ → ℝ} {x y z : ℝ} (fx fy fz : ℝ → ℝ) (a b c : ℝ)
    (h1 : ∀ᶠ s in 𝓝 x, HasDerivAt (fun s => φ s y z) (fx s) s) (h2 : HasDerivAt fx a x)
    (h3 : ∀ᶠ s in 𝓝 y, HasDerivAt (fun s => φ x s z) (fy s) s) (h4 : HasDerivAt fy b y)
    (h5 : ∀ᶠ s in 𝓝 z, HasDerivAt (fun s => φ x y s) (fz s) s) (h6 : HasDerivAt fz c z) (h7 : a + b + c = 0) :
    HarmonicAt3 (fun x y z => (φ x y z : ℂ)) x y z := by
  refine ⟨fun s => fx s, fun s => fy s, fun s => fz s, a, b, c, ?_, h2.ofReal_comp, ?_, h4.ofReal_comp, ?_, h6.ofReal_comp,
    by exact_mod_cast h7⟩
  · filter_upwards [h1] with s j using j.ofReal_comp
  · filter_upwards [h3] with s j using j.ofReal_comp
  · filter_upwards [h5] with s j using j.ofReal_comp

/-- The second derivative of `1/√(a + s²)`. -/
theorem radInv_second {a s : ℝ} (h : 0 < a + s ^ 2) :
    HasDerivAt (fun s => -(s / rad a s ^ 3)) (3 * s ^ 2 / rad a s ^ 5 - 1 / rad a s ^ 3) s := by
  have hr := (rad_pos h).ne'
  have := ((hasDerivAt_id s).mul (hasDerivAt_radInv h 3)).neg
  have e : (fun s => -(s / rad a s ^ 3)) = -(id * fun s => (rad a s ^ 3)⁻¹) := by
    ext t
    simp [div_eq_mul_inv]
  rw [e]
  refine this.congr_deriv ?_
  simp only [id]
  push_cast
  field_simp
  ring

theorem radInv_first {a s : ℝ} (h : 0 < a + s ^ 2) : HasDerivAt (fun s => (rad a s)⁻¹) (-(s / rad a s ^ 3)) s := by
  simpa using hasDerivAt_radInv h 1

theorem harmonic_inv {x y z : ℝ} (h : 0 < x ^ 2 + y ^ 2 + z ^ 2) : HarmonicAt3 (fun x y z => ((dist3 x y z)⁻¹ : ℝ)) x y z := by
  have hx : 0 < (y ^ 2 + z ^ 2) + x ^ 2 := by linarith
  have hy : 0 < (x ^ 2 + z ^ 2) + y ^ 2 := by linarith
  have hd : dist3 x y z ≠ 0 := (Real.sqrt_pos.2 h).ne'
  refine harmonic_real _ _ _ _ _ _ ?_ (radInv_second hx) ?_ (radInv_second hy) ?_ (radInv_second h) ?_
  · filter_upwards [near_pos hx] with s hs
    simp only [dist3_x]
    exact radInv_first hs
  · filter_upwards [near_pos hy] with s hs
    simp only [dist3_y]
    exact radInv_first hs
  · filter_upwards [near_pos h] with s hs
    simp only [dist3_z]
    exact radInv_first hs
  · rw [← dist3_x, ← dist3_y, ← dist3_z]
    have e := dist3_sq x y z
    field_simp
    linear_combination (-3 : ℝ) * e

/-- Away from the charge. -/
theorem harmonic_charge (Q : ℂ) {h x y z : ℝ} (hne : 0 < x ^ 2 + y ^ 2 + (z - h) ^ 2) : HarmonicAt3 (chargePot Q h) x y z := by
  refine (((harmonic_inv hne).shift).const_mul (Q / (4 * Real.pi))).congr fun x y z => ?_
  unfold chargePot
  push_cast
  rw [← div_eq_mul_inv, div_div]

theorem harmonic_field (E : ℂ) (x y z : ℝ) : HarmonicAt3 (fieldPot E) x y z := by
  refine ⟨fun _ => 0, fun _ => 0, fun _ => -E, 0, 0, 0, ?_, hasDerivAt_const _ _, ?_, hasDerivAt_const _ _, ?_, hasDerivAt_const _ _,
    by simp⟩
  · exact Eventually.of_forall fun s => hasDerivAt_const _ _
  · exact Eventually.of_forall fun s => hasDerivAt_const _ _
  · refine Eventually.of_forall fun s => ?_
    have := ((hasDerivAt_id s).ofReal_comp.const_mul E).neg
    refine this.congr_deriv ?_
    simp

/-- `s/√(a + s²)³` and its derivatives. -/
theorem dip_first {a s : ℝ} (h : 0 < a + s ^ 2) :
    HasDerivAt (fun s => s * (rad a s ^ 3)⁻¹) ((rad a s ^ 3)⁻¹ - 3 * (s ^ 2 * (rad a s ^ 5)⁻¹)) s := by
  have hr := (rad_pos h).ne'
  refine ((hasDerivAt_id s).mul (hasDerivAt_radInv h 3)).congr_deriv ?_
  simp only [id]
  push_cast
  field_simp
  ring

theorem dip_second {a s : ℝ} (h : 0 < a + s ^ 2) :
    HasDerivAt (fun s => (rad a s ^ 3)⁻¹ - 3 * (s ^ 2 * (rad a s ^ 5)⁻¹)) (15 * s ^ 3 / rad a s ^ 7 - 9 * s / rad a s ^ 5) s := by
  have hr := (rad_pos h).ne'
  refine ((hasDerivAt_radInv h 3).sub (((hasDerivAt_pow 2 s).mul (hasDerivAt_radInv h 5)).const_mul 3)).congr_deriv ?_
  push_cast
  field_simp
  ring

theorem side_first (k : ℝ) {a s : ℝ} (h : 0 < a + s ^ 2) :
    HasDerivAt (fun s => k * (rad a s ^ 3)⁻¹) (k * -(3 * s / rad a s ^ 5)) s := by
  exact_mod_cast (hasDerivAt_radInv h 3).const_mul k

theorem side_second (k : ℝ) {a s : ℝ} (h : 0 < a + s ^ 2) :
    HasDerivAt (fun s => k * -(3 * s / rad a s ^ 5)) (k * (15 * s ^ 2 / rad a s ^ 7 - 3 / rad a s ^ 5)) s := by
  have hr := (rad_pos h).ne'
  have := (((hasDerivAt_id s).mul (hasDerivAt_radInv h 5)).const_mul (-(3 * k)))
  have e : (fun s => k * -(3 * s / rad a s ^ 5)) = fun s => -(3 * k) * ((id : ℝ → ℝ) * fun s => (rad a s ^ 5)⁻¹) s := by
    ext t
    simp only [Pi.mul_apply, id, div_eq_mul_inv]
    ring
  rw [e]
  refine this.congr_deriv ?_
  simp only [id]
  push_cast
  field_simp
  ring

theorem harmonic_dipole (p : ℂ) {x y z : ℝ} (h : 0 < x ^ 2 + y ^ 2 + z ^ 2) : HarmonicAt3 (dipolePot p) x y z := by
  have hx : 0 < (y ^ 2 + z ^ 2) + x ^ 2 := by linarith
  have hy : 0 < (x ^ 2 + z ^ 2) + y ^ 2 := by linarith
  have hd : dist3 x y z ≠ 0 := (Real.sqrt_pos.2 h).ne'
  have key : HarmonicAt3 (fun x y z => ((z * (dist3 x y z ^ 3)⁻¹ : ℝ) : ℂ)) x y z := by
    refine harmonic_real _ _ _ _ _ _ ?_ (side_second z hx) ?_ (side_second z hy) ?_ (dip_second h) ?_
    · filter_upwards [near_pos hx] with s hs
      simp only [dist3_x]
      exact side_first z hs
    · filter_upwards [near_pos hy] with s hs
      simp only [dist3_y]
      exact side_first z hs
    · filter_upwards [near_pos h] with s hs
      simp only [dist3_z]
      exact dip_first hs
    · rw [← dist3_x, ← dist3_y, ← dist3_z]
      have e := dist3_sq x y z
      field_simp
      linear_combination (-15 * z : ℝ) * e
  refine (key.const_mul (p / (4 * Real.pi))).congr fun x y z => ?_
  unfold dipolePot
  push_cast
  rw [div_mul_eq_mul_div, ← mul_assoc, ← div_eq_mul_inv, div_div, mul_comm (dist3 x y z ^ 3 : ℂ)]

end Snompy
