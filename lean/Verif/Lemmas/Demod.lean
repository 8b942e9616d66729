import Verif.Lemmas.GenMat
import Verif.Lemmas.DenReduce
import Verif.Spec.Lockin

/-!
# `demod` in the scalar reading
-/

namespace Snompy

open Finset

theorem thetaGrid_eq (N : ℕ) : thetaGrid N = (List.range (N + 1)).map (phase N) := by
  unfold thetaGrid phase
  refine List.map_congr_left fun k _ => ?_
  ring

theorem list_range_sum {M : Type} [AddCommMonoid M] (f : ℕ → M) (N : ℕ) :
    ((List.range N).map f).sum = ∑ k ∈ range N, f k := by
  induction N with
  | zero => simp
  | succ N ih => rw [List.range_succ, List.map_append, List.sum_append, ih, sum_range_succ]; simp

theorem trapz_range (y : ℕ → ℂ) (N : ℕ) :
    FP.trapz ((List.range (N + 1)).map fun k => FP.num (y k)) =
      FP.num (∑ k ∈ range N, (y (k + 1) + y k) / 2) := by
  unfold FP.trapz
  have h : List.zipWith (fun a b : FP ℂ => (a + b) / FP.num 2)
      ((List.range (N + 1)).map fun k => FP.num (y k)).tail
      ((List.range (N + 1)).map fun k => FP.num (y k)).dropLast =
      (List.range N).map fun k => FP.num ((y (k + 1) + y k) / 2) := by
    apply List.ext_getElem
    · simp
    · intro i h1 h2
      simp [FP.num_div _ (two_ne_zero : (2 : ℂ) ≠ 0)]
  rw [h, FP.sum_num, list_range_sum]

/-- The integrand of `demod` at phase `θ`. -/
noncomputable def wave (g : ℝ → ℂ) (x0 amp n θ : ℝ) : ℂ :=
  g (x0 + Real.cos θ * amp) * Complex.exp (-Complex.I * n * θ)

/-- The trapezium mean over one period. -/
noncomputable def demodSum (g : ℝ → ℂ) (x0 amp n : ℝ) (N : ℕ) : ℂ :=
  (∑ k ∈ range N, (wave g x0 amp n (phase N (k + 1)) + wave g x0 amp n (phase N k)) / 2) / N

theorem demod_unfold (env : Env) (f : FP ℝ → PyM (FP ℂ)) (x0 amp n : FP ℝ) (nT : Option ℕ) :
    demod env f x0 amp n nT = (do
      let _ ← f (x0 + FP.num 0 * amp)
      let vals ← (thetaGrid (nT.getD env.defaults.nTrapz)).mapM fun θ => (do
        let fx ← f (x0 + FP.num (Real.cos θ) * amp)
        pure (fx * CplxOps.exp (FP.num (-Complex.I) * ofR n * FP.num (θ : ℂ))) : PyM (FP ℂ))
      pure (FP.trapz vals / FP.num ((nT.getD env.defaults.nTrapz : ℕ) : ℂ))) := by
  unfold demod
  simp only [CplxOps.trapz0, PyM.pure_eq_ok, bind_assoc]
  rfl

theorem demod_eval (env : Env) (f : FP ℝ → PyM (FP ℂ)) (g : ℝ → ℂ) (x0 amp n : ℝ) (nT : Option ℕ)
    (hN : nT.getD env.defaults.nTrapz ≠ 0)
    (hprobe : ∃ v, f (FP.num x0) = .ok v)
    (hf : ∀ θ : ℝ, f (FP.num (x0 + Real.cos θ * amp)) = .ok (FP.num (g (x0 + Real.cos θ * amp)))) :
    demod env f (FP.num x0) (FP.num amp) (FP.num n) nT =
      .ok (FP.num (demodSum g x0 amp n (nT.getD env.defaults.nTrapz))) := by
  obtain ⟨v, hv⟩ := hprobe
  rw [demod_unfold]
  generalize nT.getD env.defaults.nTrapz = N at hN
  have hNc : (N : ℂ) ≠ 0 := by exact_mod_cast hN
  rw [FP.num_mul, FP.num_add, zero_mul, add_zero, hv, PyM.ok_bind,
    mapM_ok _ _ (fun θ => FP.num (wave g x0 amp n θ)), thetaGrid_eq, List.map_map]
  · have := trapz_range (fun k => wave g x0 amp n (phase N k)) N
    simp only [PyM.ok_bind, Function.comp_def]
    rw [this, FP.num_div _ hNc]
    rfl
  · intro θ _
    simp only [FP.num_mul, FP.num_add, hf, PyM.ok_bind, sofR, sexp]
    rfl

theorem demod_onFinite (env : Env) (g : ℝ → ℂ) (x0 amp n : ℝ) (nT : Option ℕ)
    (hN : nT.getD env.defaults.nTrapz ≠ 0) :
    demod env (onFinite g) (FP.num x0) (FP.num amp) (FP.num n) nT =
      .ok (FP.num (demodSum g x0 amp n (nT.getD env.defaults.nTrapz))) :=
  demod_eval env _ g x0 amp n nT hN ⟨_, rfl⟩ fun _ => rfl

theorem phase_reflect {N k : ℕ} (hN : N ≠ 0) (hk : k ≤ N) : phase N (N - k) = -phase N k := by
  unfold phase
  have : (N : ℝ) ≠ 0 := by exact_mod_cast hN
  rw [Nat.cast_sub hk]
  field_simp
  ring

theorem wave_neg (g : ℝ → ℂ) (x0 amp n θ : ℝ) :
    wave g x0 amp n (-θ) = wave g x0 amp (-n) θ := by
  unfold wave
  rw [Real.cos_neg]
  push_cast
  ring_nf

theorem demodSum_neg (g : ℝ → ℂ) (x0 amp n : ℝ) {N : ℕ} (hN : N ≠ 0) :
    demodSum g x0 amp (-n) N = demodSum g x0 amp n N := by
  unfold demodSum
  congr 1
  rw [← sum_range_reflect]
  refine sum_congr rfl fun k hk => ?_
  have hk := mem_range.1 hk
  rw [← wave_neg, ← wave_neg, ← phase_reflect hN (by omega), ← phase_reflect hN (by omega)]
  rw [show N - (N - 1 - k + 1) = k by omega, show N - (N - 1 - k) = k + 1 by omega, add_comm]

/-- The periodic form, for integer harmonics. -/
theorem demodSum_int (g : ℝ → ℂ) (x0 amp : ℝ) (n : ℤ) {N : ℕ} (hN : N ≠ 0) :
    demodSum g x0 amp n N = (∑ k ∈ range N, wave g x0 amp n (phase N k)) / N := by
  have hper : wave g x0 amp n (phase N N) = wave g x0 amp n (phase N 0) := by
    have h1 : phase N N = -phase N 0 := by
      have := phase_reflect hN (Nat.zero_le N)
      simpa using this
    have h0 : phase N 0 = -Real.pi := by simp [phase]
    rw [h1, h0, neg_neg]
    unfold wave
    rw [Real.cos_neg]
    congr 1
    rw [Complex.exp_eq_exp_iff_exists_int]
    refine ⟨-n, ?_⟩
    push_cast
    ring
  unfold demodSum
  congr 1
  rw [← sum_div, sum_add_distrib]
  have := sum_range_succ' (fun k => wave g x0 amp n (phase N k)) N
  rw [sum_range_succ] at this
  have h2 : ∑ k ∈ range N, wave g x0 amp n (phase N (k + 1)) =
      ∑ k ∈ range N, wave g x0 amp n (phase N k) := by
    rw [hper] at this
    exact (add_right_cancel this).symm
  rw [h2]
  ring

end Snompy
