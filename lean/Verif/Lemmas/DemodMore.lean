import Verif.Lemmas.Trig
import Mathlib.Topology.UniformSpace.HeineCantor

/-!
# Convergence of the trapezium mean; sampled heights
-/

namespace Snompy

open Finset Filter Topology

theorem phase_succ_sub {N : ℕ} (k : ℕ) :
    phase N (k + 1) - phase N k = 2 * Real.pi / N := by
  unfold phase
  push_cast
  ring

theorem phase_le {N k : ℕ} (hN : N ≠ 0) (hk : k ≤ N) : phase N k ≤ Real.pi := by
  unfold phase
  have h1 : (0 : ℝ) < N := by exact_mod_cast Nat.pos_of_ne_zero hN
  have h2 : (k : ℝ) ≤ N := by exact_mod_cast hk
  have : 2 * Real.pi * k / N ≤ 2 * Real.pi := by
    rw [div_le_iff₀ h1]
    exact mul_le_mul_of_nonneg_left h2 (by positivity)
  linarith

theorem le_phase (N k : ℕ) : -Real.pi ≤ phase N k := by
  unfold phase
  have : 0 ≤ 2 * Real.pi * k / N := by positivity
  linarith

theorem phase_zero (N : ℕ) : phase N 0 = -Real.pi := by simp [phase]

theorem phase_self {N : ℕ} (hN : N ≠ 0) : phase N N = Real.pi := by
  have : (N : ℝ) ≠ 0 := by exact_mod_cast hN
  unfold phase
  field_simp
  ring

theorem mean_eq_sum {h : ℝ → ℂ} (hh : Continuous h) {N : ℕ} (hN : N ≠ 0) :
    mean h = ∑ k ∈ range N, 1 / (2 * Real.pi) * ∫ θ in phase N k..phase N (k + 1), h θ := by
  rw [← mul_sum, intervalIntegral.sum_integral_adjacent_intervals
    (fun k _ => hh.intervalIntegrable _ _), phase_zero, phase_self hN]
  rfl

theorem trapz_tendsto {h : ℝ → ℂ} (hh : Continuous h) :
    Tendsto (fun N : ℕ => (∑ k ∈ range N, (h (phase N (k + 1)) + h (phase N k)) / 2) / (N : ℂ))
      atTop (𝓝 (mean h)) := by
  rw [Metric.tendsto_atTop]
  intro ε hε
  have huc := (isCompact_Icc (a := -Real.pi) (b := Real.pi)).uniformContinuousOn_of_continuous
    hh.continuousOn
  obtain ⟨δ, hδ, hu⟩ := Metric.uniformContinuousOn_iff.1 huc (ε / 2) (by linarith)
  obtain ⟨M, hM⟩ := exists_nat_gt (2 * Real.pi / δ)
  refine ⟨M + 1, fun N hMN => ?_⟩
  have hN : N ≠ 0 := by omega
  have hNpos : (0 : ℝ) < N := by exact_mod_cast Nat.pos_of_ne_zero hN
  have hNc : (N : ℂ) ≠ 0 := by exact_mod_cast hN
  have hpi : (Real.pi : ℂ) ≠ 0 := by exact_mod_cast Real.pi_ne_zero
  have hstep : 2 * Real.pi / N < δ := by
    rw [div_lt_iff₀ hδ] at hM
    rw [div_lt_iff₀ hNpos]
    have : (M : ℝ) ≤ N := by exact_mod_cast (by omega : M ≤ N)
    nlinarith
  rw [mean_eq_sum hh hN, dist_eq_norm, sum_div, ← sum_sub_distrib]
  have hterm : ∀ k ∈ range N, ‖(h (phase N (k + 1)) + h (phase N k)) / 2 / (N : ℂ) -
      1 / (2 * Real.pi) * ∫ θ in phase N k..phase N (k + 1), h θ‖ ≤ ε / 2 / N := by
    intro k hk
    have hkN : k < N := mem_range.1 hk
    have hab : phase N k ≤ phase N (k + 1) := by
      have := phase_succ_sub (N := N) k
      have : 0 ≤ 2 * Real.pi / N := by positivity
      linarith
    set c := (h (phase N (k + 1)) + h (phase N k)) / 2 with hc
    have hconst : c / (N : ℂ) = 1 / (2 * Real.pi) * ∫ _ in phase N k..phase N (k + 1), c := by
      rw [intervalIntegral.integral_const, phase_succ_sub, Complex.real_smul]
      push_cast
      field_simp
    rw [hconst, ← mul_sub, ← intervalIntegral.integral_sub (by simp) (hh.intervalIntegrable _ _),
      norm_mul]
    have hb : ∀ θ ∈ Set.uIoc (phase N k) (phase N (k + 1)), ‖c - h θ‖ ≤ ε / 2 := by
      intro θ hθ
      rw [Set.uIoc_of_le hab] at hθ
      have hk1 := phase_le hN hkN
      have hk0 := le_phase N k
      have hs := phase_succ_sub (N := N) k
      have m0 : phase N k ∈ Set.Icc (-Real.pi) Real.pi := ⟨hk0, by linarith⟩
      have m1 : phase N (k + 1) ∈ Set.Icc (-Real.pi) Real.pi := ⟨by linarith, hk1⟩
      have mθ : θ ∈ Set.Icc (-Real.pi) Real.pi := ⟨by linarith [hθ.1], by linarith [hθ.2]⟩
      have d0 := hu _ m0 _ mθ (by rw [Real.dist_eq, abs_lt]; constructor <;> linarith [hθ.1, hθ.2])
      have d1 := hu _ m1 _ mθ (by rw [Real.dist_eq, abs_lt]; constructor <;> linarith [hθ.1, hθ.2])
      rw [dist_eq_norm] at d0 d1
      have : c - h θ = ((h (phase N (k + 1)) - h θ) + (h (phase N k) - h θ)) / 2 := by
        rw [hc]; ring
      rw [this, norm_div]
      have h2 : ‖(2 : ℂ)‖ = 2 := by simp
      rw [h2, div_le_iff₀ two_pos]
      exact (norm_add_le _ _).trans (by linarith)
    have := intervalIntegral.norm_integral_le_of_norm_le_const hb
    rw [phase_succ_sub, abs_of_nonneg (by positivity)] at this
    have hn : ‖(1 / (2 * Real.pi) : ℂ)‖ = 1 / (2 * Real.pi) := by
      rw [show (1 / (2 * Real.pi) : ℂ) = ((1 / (2 * Real.pi) : ℝ) : ℂ) by push_cast; ring,
        Complex.norm_real, Real.norm_eq_abs, abs_of_pos (by positivity)]
    rw [hn]
    calc 1 / (2 * Real.pi) * ‖∫ θ in phase N k..phase N (k + 1), c - h θ‖
        ≤ 1 / (2 * Real.pi) * (ε / 2 * (2 * Real.pi / N)) :=
          mul_le_mul_of_nonneg_left this (by positivity)
      _ = ε / 2 / N := by field_simp
  calc _ ≤ ∑ k ∈ range N, ε / 2 / (N : ℝ) := norm_sum_le_of_le _ hterm
    _ = ε / 2 := by rw [sum_const, card_range, nsmul_eq_mul]; field_simp
    _ < ε := by linarith

/-! ## Sampled heights -/

theorem mapM_ok_inv {α β : Type} {l : List α} {f : α → PyM β} {v : List β}
    (h : l.mapM f = .ok v) : List.Forall₂ (fun a b => f a = .ok b) l v := by
  induction l generalizing v with
  | nil => rw [List.mapM_nil] at h; cases h; exact .nil
  | cons a l ih =>
    rw [List.mapM_cons] at h
    cases hf : f a with
    | error e => rw [hf] at h; cases h
    | ok b =>
      rw [hf] at h
      cases hl : l.mapM f with
      | error e => rw [hl] at h; cases h
      | ok w =>
        rw [hl] at h
        cases h
        exact .cons hf (ih hl)

theorem FP.add_num_inv {a b : FP ℂ} {v : ℂ} (h : a + b = FP.num v) :
    (∃ x, a = FP.num x) ∧ ∃ y, b = FP.num y := by
  cases a <;> cases b <;> simp_all

theorem FP.mul_num_inv {a b : FP ℂ} {v : ℂ} (h : a * b = FP.num v) :
    (∃ x, a = FP.num x) ∧ ∃ y, b = FP.num y := by
  cases a <;> cases b <;> simp_all

theorem FP.div_num_inv {a b : FP ℂ} {v : ℂ} (h : a / b = FP.num v) :
    (∃ x, a = FP.num x) ∧ ∃ y, b = FP.num y ∧ y ≠ 0 := by
  cases a with
  | nan => simp at h
  | num a =>
    cases b with
    | nan => simp at h
    | num b =>
      refine ⟨⟨a, rfl⟩, b, rfl, ?_⟩
      rintro rfl
      simp at h

theorem FP.sum_num_inv {l : List (FP ℂ)} {v : ℂ} (h : FP.sum l = FP.num v) :
    ∀ a ∈ l, ∃ x, a = FP.num x := by
  induction l generalizing v with
  | nil => simp
  | cons a l ih =>
    rw [FP.sum_cons] at h
    obtain ⟨ha, y, hy⟩ := FP.add_num_inv h
    simp only [List.mem_cons, forall_eq_or_imp]
    exact ⟨ha, ih hy⟩

/-- A finite demodulated value means a finite integrand at every sampled phase. -/
theorem demod_finite {env : Env} {f : FP ℝ → PyM (FP ℂ)} {x0 amp n : FP ℝ} {nT : Option ℕ} {v : ℂ}
    (h : demod env f x0 amp n nT = .ok (FP.num v)) :
    nT.getD env.defaults.nTrapz ≠ 0 ∧ ∀ k ≤ nT.getD env.defaults.nTrapz,
      ∃ w, f (x0 + FP.num (Real.cos (phase (nT.getD env.defaults.nTrapz) k)) * amp) =
        .ok (FP.num w) := by
  rw [demod_unfold] at h
  generalize nT.getD env.defaults.nTrapz = N at h
  rw [thetaGrid_eq] at h
  cases hp : f (x0 + FP.num 0 * amp) with
  | error e => rw [hp] at h; cases h
  | ok pr =>
    rw [hp, PyM.ok_bind] at h
    cases hm : ((List.range (N + 1)).map (phase N)).mapM (fun θ => (do
        let fx ← f (x0 + FP.num (Real.cos θ) * amp)
        pure (fx * CplxOps.exp (FP.num (-Complex.I) * ofR n * FP.num (θ : ℂ))) : PyM (FP ℂ))) with
    | error e => rw [hm] at h; cases h
    | ok vals =>
      rw [hm, PyM.ok_bind, PyM.pure_eq_ok] at h
      have h := Except.ok.inj h
      obtain ⟨⟨t, ht⟩, y, hy, hy0⟩ := FP.div_num_inv h
      have hN : N ≠ 0 := by
        rintro rfl
        simp at hy
        exact hy0 hy.symm
      refine ⟨hN, fun k hk => ?_⟩
      have hF := mapM_ok_inv hm
      have hlen : vals.length = N + 1 := by have := hF.length_eq; simpa using this.symm
      have hsum := FP.sum_num_inv ht
      have hval : ∃ w, vals[k]'(by omega) = FP.num w := by
        by_cases hkN : k < N
        · have hmem : (vals[k + 1]'(by omega) + vals[k]'(by omega)) / FP.num 2 ∈
              List.zipWith (fun a b : FP ℂ => (a + b) / FP.num 2) vals.tail vals.dropLast := by
            rw [List.mem_iff_getElem]
            refine ⟨k, by simp; omega, by simp⟩
          obtain ⟨w, hw⟩ := hsum _ hmem
          obtain ⟨⟨s, hs⟩, -⟩ := FP.div_num_inv hw
          exact (FP.add_num_inv hs).2
        · have hkN : k = (k - 1) + 1 := by omega
          have hmem : (vals[(k - 1) + 1]'(by omega) + vals[k - 1]'(by omega)) / FP.num 2 ∈
              List.zipWith (fun a b : FP ℂ => (a + b) / FP.num 2) vals.tail vals.dropLast := by
            rw [List.mem_iff_getElem]
            refine ⟨k - 1, by simp; omega, by simp⟩
          obtain ⟨w, hw⟩ := hsum _ hmem
          obtain ⟨⟨s, hs⟩, -⟩ := FP.div_num_inv hw
          obtain ⟨w, hw⟩ := (FP.add_num_inv hs).1
          exact ⟨w, by simpa [← hkN] using hw⟩
      obtain ⟨w, hw⟩ := hval
      have hk' : (fun θ => (do
        let fx ← f (x0 + FP.num (Real.cos θ) * amp)
        pure (fx * CplxOps.exp (FP.num (-Complex.I) * ofR n * FP.num (θ : ℂ))) : PyM (FP ℂ)))
          (phase N k) = .ok (vals[k]'(by omega)) := by
        have := (List.forall₂_iff_get.1 hF).2 k (by simp; omega) (by omega)
        simpa using this
      cases hfx : f (x0 + FP.num (Real.cos (phase N k)) * amp) with
      | error e => simp only [hfx] at hk'; cases hk'
      | ok fx =>
        simp only [hfx, PyM.ok_bind, PyM.pure_eq_ok, hw] at hk'
        obtain ⟨⟨x, hx⟩, -⟩ := FP.mul_num_inv (Except.ok.inj hk')
        exact ⟨x, by rw [hx]⟩

/-- `demod` only looks at the heights between the turning points. -/
theorem demod_ext (env : Env) (f g : FP ℝ → PyM (FP ℂ)) (x0 : ℝ) {amp : ℝ} (hA : 0 ≤ amp) (n : FP ℝ)
    (nT : Option ℕ) (h : ∀ x, x0 - amp ≤ x → x ≤ x0 + amp → f (FP.num x) = g (FP.num x)) :
    demod env f (FP.num x0) (FP.num amp) n nT = demod env g (FP.num x0) (FP.num amp) n nT := by
  have hc : ∀ c : ℝ, -1 ≤ c → c ≤ 1 → f (FP.num x0 + FP.num c * FP.num amp) =
      g (FP.num x0 + FP.num c * FP.num amp) := fun c h1 h2 => by
    rw [FP.num_mul, FP.num_add]
    exact h _ (by nlinarith) (by nlinarith)
  rw [demod_unfold, demod_unfold, hc 0 (by norm_num) (by norm_num)]
  have hc' : ∀ θ : ℝ, f (FP.num x0 + FP.num (Real.cos θ) * FP.num amp) =
      g (FP.num x0 + FP.num (Real.cos θ) * FP.num amp) :=
    fun θ => hc _ (Real.neg_one_le_cos θ) (Real.cos_le_one θ)
  simp only [hc']

theorem cos_phase_zero (N : ℕ) : Real.cos (phase N 0) = -1 := by
  rw [phase_zero, Real.cos_neg, Real.cos_pi]

theorem cos_phase_half {M : ℕ} (hM : M ≠ 0) : Real.cos (phase (M + M) M) = 1 := by
  have : (M : ℝ) ≠ 0 := by exact_mod_cast hM
  have : phase (M + M) M = 0 := by
    unfold phase
    push_cast
    field_simp
    ring
  rw [this, Real.cos_zero]

theorem sampled_ends {env : Env} {f : FP ℝ → PyM (FP ℂ)} {z amp : ℝ} {n : FP ℝ} {N : ℕ} {v : ℂ}
    (h : demod env f (FP.num (z + amp)) (FP.num amp) n (some N) = .ok (FP.num v)) :
    (∃ w, f (FP.num z) = .ok (FP.num w)) ∧
      (Even N → ∃ w, f (FP.num (z + 2 * amp)) = .ok (FP.num w)) := by
  obtain ⟨hN, hk⟩ := demod_finite h
  rw [Option.getD_some] at hN hk
  constructor
  · obtain ⟨w, hw⟩ := hk 0 (Nat.zero_le _)
    rw [cos_phase_zero, FP.num_mul, FP.num_add] at hw
    exact ⟨w, by rw [← hw]; ring_nf⟩
  · rintro ⟨M, rfl⟩
    obtain ⟨w, hw⟩ := hk M (by omega)
    rw [cos_phase_half (by omega), FP.num_mul, FP.num_add] at hw
    exact ⟨w, by rw [← hw]; ring_nf⟩

end Snompy
