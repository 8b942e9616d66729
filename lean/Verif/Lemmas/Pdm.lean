import Verif.Lemmas.DemodScale
import Verif.Model.Pdm
import Verif.Spec.Geometry

/-!
# The PDM in the scalar reading
-/

namespace Snompy.Pdm

open Snompy

theorem geomFunc_num {z r : ℝ} (h : r + z ≠ 0) (α : ℂ) :
    (geomFunc (FP.num z) (FP.num r) (FP.num α) : FP ℂ) = FP.num (geom z r α) := by
  unfold geomFunc geom
  simp only [slit, FP.num_add, snpow, FP.num_mul, sofR]
  have : ((16 * Real.pi * (r + z) ^ 3 : ℝ) : ℂ) ≠ 0 := by
    exact_mod_cast mul_ne_zero (mul_ne_zero (by norm_num) Real.pi_ne_zero) (pow_ne_zero 3 h)
  rw [FP.num_div _ this]
  push_cast
  rfl

theorem effPol_num (env : Env) (s : Stack (FP ℝ) (FP ℂ)) (a : PdmArgs (FP ℝ) (FP ℂ)) (z r : ℝ)
    (α β : ℂ) (ha : env.defaults.pdm a = .ok (FP.num r, FP.num α)) (hβ : s.reflCoefQs = .ok (FP.num β))
    (h : r + z ≠ 0) :
    effPol env s (some (FP.num z)) a = .ok (FP.num α / FP.num (1 - geom z r α * β)) := by
  unfold effPol
  rw [ha, PyM.ok_bind]
  simp only [hβ, PyM.ok_bind, Option.getD_some, geomFunc_num h, sclit, FP.num_mul, FP.num_sub]
  rfl

theorem effPol_val (env : Env) (s : Stack (FP ℝ) (FP ℂ)) (a : PdmArgs (FP ℝ) (FP ℂ)) (z r : ℝ)
    (α β : ℂ) (ha : env.defaults.pdm a = .ok (FP.num r, FP.num α)) (hβ : s.reflCoefQs = .ok (FP.num β))
    (h : r + z ≠ 0) (h1 : 1 - geom z r α * β ≠ 0) :
    effPol env s (some (FP.num z)) a = .ok (FP.num (α / (1 - geom z r α * β))) := by
  rw [effPol_num env s a z r α β ha hβ h, FP.num_div _ h1]

theorem geom_ne_zero {z r : ℝ} {α : ℂ} (h : r + z ≠ 0) (hα : α ≠ 0) : geom z r α ≠ 0 := by
  unfold geom
  have hpi : (Real.pi : ℂ) ≠ 0 := by exact_mod_cast Real.pi_ne_zero
  have hrz : (r + z : ℂ) ≠ 0 := by exact_mod_cast h
  exact div_ne_zero hα (mul_ne_zero (mul_ne_zero (by norm_num) hpi) (pow_ne_zero 3 hrz))

end Snompy.Pdm
