import Verif.Lemmas.Taylor
import Verif.Props.Fdm

/-!
# C47–C49: the Taylor-series versions
-/

namespace Snompy.Props

open Snompy Filter Topology Finset

/-! ## C49 n_tayl is the number of Taylor terms

Stated first since the others use it. -/

/-- The reflection coefficient that `eff_pol_n_taylor(sample, method=m)` uses is `β`. -/
def TaylorBeta (env : Env) (s : Stack (FP ℝ) (FP ℂ)) (m : Option String) (zQ : ℝ) (nLag : Option ℕ)
    (β : ℂ) : Prop :=
  (s.eps.length ≤ 2 ∧ (m = none ∨ m = some "bulk") ∧ s.reflCoefQs = .ok (FP.num β)) ∨
  ((m = some "Q_ave" ∨ (2 < s.eps.length ∧ m = none)) ∧
    s.reflCoefQsAboveSurf env (FP.num zQ) nLag = .ok (FP.num β))

theorem taylorBeta_of (env : Env) (s : Stack (FP ℝ) (FP ℂ)) (m : Option String) (z r l : ℝ) (g : ℂ)
    (d0 d1 dA : ℝ) (nLag : Option ℕ) (β : ℂ) (h : TaylorBeta env s m (z + r * dA) nLag β) :
    Fdm.taylorBeta env s (FP.num z) (env.defaults.fdm (fdmTip r l g d0 d1 dA)) nLag m =
      .ok (FP.num β) := by
  unfold Fdm.taylorBeta
  rw [fdm_fdmTip]
  simp only [FP.num_mul, FP.num_add]
  rcases h with ⟨hl, hm, hβ⟩ | ⟨hm, hβ⟩
  · have hml : s.multilayer = false := by
      unfold Stack.multilayer Stack.nLayers
      simpa using hl
    rcases hm with rfl | rfl <;> simp [hml, hβ]
  · rcases hm with rfl | ⟨hl, rfl⟩
    · simp [hβ]
    · have hml : s.multilayer = true := by
        unfold Stack.multilayer Stack.nLayers
        simpa using hl
      simp [hml, hβ]

theorem taylor_fdm_num (env : Env) (s : Stack (FP ℝ) (FP ℂ)) (m : Option String) {z r l : ℝ} (g : ℂ)
    {d0 d1 : ℝ} (dA : ℝ) (nLag : Option ℕ) (β : ℂ) (h : TaylorBeta env s m (z + r * dA) nLag β)
    (h0 : Fdm.GeomOk z d0 r l) (h1 : Fdm.GeomOk z d1 r l) {A : ℝ} (hA : 0 ≤ A) (n : ℝ) {N : ℕ}
    (hN : N ≠ 0) (J : ℕ) :
    Fdm.effPolNTaylor env s (FP.num A) (FP.num n) (some (FP.num z)) (fdmTip r l g d0 d1 dA) nLag m
      (some N) (some J) = .ok (FP.num (∑ j ∈ range J, Fdm.coef z j A n r l g d0 d1 N * β ^ j)) := by
  unfold Fdm.effPolNTaylor
  simp only [Option.getD_some]
  rw [taylorBeta_of env s m z r l g d0 d1 dA nLag β h, PyM.ok_bind]
  refine series0_num J _ _ _ fun j _ => ?_
  simp only [fdm_fdmTip]
  rw [Fdm.taylorCoef_num env h0 h1 g j hA n hN, PyM.ok_bind, sjpow_nat, FP.num_mul]
  rfl

theorem C49_fdm (env : Env) (z r l : ℝ) (g : ℂ) (d0 d1 dA : ℝ) (h0 : Fdm.GeomOk z d0 r l)
    (h1 : Fdm.GeomOk z d1 r l) (A : ℝ) (hA : 0 ≤ A) (n : ℝ) (N J : ℕ) (hN : N ≠ 0) :
    ∃ p : Polynomial ℂ, p.degree < J ∧
      (∀ j < J, Fdm.taylorCoef env (FP.num z) (j : ℤ) (FP.num A) (FP.num n) (FP.num r) (FP.num l)
        (FP.num g) (FP.num d0) (FP.num d1) (some N) = .ok (FP.num (p.coeff j))) ∧
      ∀ s m nLag β, TaylorBeta env s m (z + r * dA) nLag β →
        Fdm.effPolNTaylor env s (FP.num A) (FP.num n) (some (FP.num z)) (fdmTip r l g d0 d1 dA) nLag m
          (some N) (some J) = .ok (FP.num (p.eval β)) := by
  refine ⟨∑ j ∈ range J, Polynomial.monomial j (Fdm.coef z j A n r l g d0 d1 N), ?_, fun j hj => ?_,
    fun s m nLag β h => ?_⟩
  · exact polynomial_degree_lt J _
  · rw [Fdm.taylorCoef_num env h0 h1 g j hA n hN, polynomial_coeff _ hj]
  · rw [taylor_fdm_num env s m g dA nLag β h h0 h1 hA n hN J, Polynomial.eval_finsetSum]
    simp only [Polynomial.eval_monomial]

example (env : Env) := C49_fdm env 0 1 300 Complex.I 1 (1 / 2) 1.4 example_geomOk.1 example_geomOk.2 2
  (by norm_num) 3 8 5 (by norm_num)
/-- The hypothesis of the last part. -/
example (env : Env) : TaylorBeta env (bulk 1 2) none 1 none ((2 - 1) / (2 + 1)) :=
  .inl ⟨le_rfl, .inl rfl, C09_refl 1 2 none _ two_ne_zero (by norm_num)⟩

theorem taylor_pdm_num (env : Env) (s : Stack (FP ℝ) (FP ℂ)) {z r : ℝ} (α β : ℂ)
    (hβ : s.reflCoefQs = .ok (FP.num β)) (h : 0 < r + z) {A : ℝ} (hA : 0 ≤ A) (n : ℝ) {N : ℕ}
    (hN : N ≠ 0) (J : ℕ) :
    Pdm.effPolNTaylor env s (FP.num A) (FP.num n) (some (FP.num z)) (tip r α) (some N) (some J) =
      .ok (FP.num (∑ j ∈ range J, Pdm.coef z j A n r α N * β ^ j)) := by
  unfold Pdm.effPolNTaylor
  rw [pdm_tip, PyM.ok_bind]
  simp only [Option.getD_some]
  rw [hβ, PyM.ok_bind]
  refine series0_num J _ _ _ fun j _ => ?_
  rw [Pdm.taylorCoef_num env h α j hA n hN, PyM.ok_bind, sjpow_nat, FP.num_mul]
  rfl

theorem C49_pdm (env : Env) (z r : ℝ) (α : ℂ) (h : 0 < r + z) (A : ℝ) (hA : 0 ≤ A) (n : ℝ) (N J : ℕ)
    (hN : N ≠ 0) :
    ∃ p : Polynomial ℂ, p.degree < J ∧
      (∀ j < J, Pdm.taylorCoef env (FP.num z) (j : ℤ) (FP.num A) (FP.num n) (FP.num r) (FP.num α)
        (some N) = .ok (FP.num (p.coeff j))) ∧
      ∀ s β, s.reflCoefQs = .ok (FP.num β) →
        Pdm.effPolNTaylor env s (FP.num A) (FP.num n) (some (FP.num z)) (tip r α) (some N) (some J) =
          .ok (FP.num (p.eval β)) := by
  refine ⟨∑ j ∈ range J, Polynomial.monomial j (Pdm.coef z j A n r α N), polynomial_degree_lt J _,
    fun j hj => ?_, fun s β hβ => ?_⟩
  · rw [Pdm.taylorCoef_num env h α j hA n hN, polynomial_coeff _ hj]
  · rw [taylor_pdm_num env s α β hβ h hA n hN J, Polynomial.eval_finsetSum]
    simp only [Polynomial.eval_monomial]

example (env : Env) := C49_pdm env 0 1 5 (by norm_num) 2 (by norm_num) 3 8 5 (by norm_num)

/-! ## C47 The FDM Taylor series converges to eff_pol_n -/

theorem effPolN_num (env : Env) (s : Stack (FP ℝ) (FP ℂ)) (hm : s.multilayer = false) (β : ℂ)
    (hβ : s.reflCoefQs = .ok (FP.num β)) (z r l : ℝ) (g : ℂ) (d0 d1 dA : ℝ)
    (h0 : Fdm.GeomOk z d0 r l) (h1 : Fdm.GeomOk z d1 r l) (A : ℝ) (hA : 0 ≤ A)
    (hd : ∀ x, z ≤ x → x ≤ z + 2 * A → β * Fdm.geom x d1 r l g ≠ 1) (nLag : Option ℕ) (n : ℝ) (N : ℕ)
    (hN : N ≠ 0) :
    Fdm.effPolN env s (FP.num A) (FP.num n) (some (FP.num z)) (some N) (fdmTip r l g d0 d1 dA) nLag
        (some "bulk") =
      .ok (FP.num (demodSum (fun x => 1 + β * Fdm.geom x d0 r l g / (2 * (1 - β * Fdm.geom x d1 r l g)))
        (z + A) A n N)) := by
  have hval : ∀ x, z ≤ x → x ≤ z + 2 * A → _ := fun x hx hx' =>
    effPol_val env s hm β hβ x r l g d0 d1 dA (h0.mono hx) (h1.mono hx)
      (sub_ne_zero.2 (hd x hx hx').symm) nLag
  unfold Fdm.effPolN
  simp only [Option.getD_some, FP.num_add]
  exact demod_eval env _ _ _ _ _ (some N) hN ⟨_, hval _ (by linarith) (by linarith)⟩ fun θ =>
    hval _ (by nlinarith [Real.neg_one_le_cos θ]) (by nlinarith [Real.cos_le_one θ])

open Classical in
theorem fdm_remainder (z r l : ℝ) (g : ℂ) (d0 d1 : ℝ) (A : ℝ) (hA : 0 ≤ A) (β : ℂ)
    (hd : ∀ x, z ≤ x → x ≤ z + 2 * A → β * Fdm.geom x d1 r l g ≠ 1) (n : ℤ) (N J : ℕ) (hJ : J ≠ 0) :
    demodSum (fun x => 1 + β * Fdm.geom x d0 r l g / (2 * (1 - β * Fdm.geom x d1 r l g)))
        (z + A) A n N =
      ∑ j ∈ range J, Fdm.coef z j A n r l g d0 d1 N * β ^ j +
        demodSum (fun x => β ^ J * Fdm.geom x d0 r l g * Fdm.geom x d1 r l g ^ (J - 1) /
          (2 * (1 - β * Fdm.geom x d1 r l g))) (z + A) A n N +
        (demodSum (fun _ => 1) (z + A) A n N - if n = 0 then 1 else 0) := by
  obtain ⟨J, rfl⟩ := Nat.exists_eq_succ_of_ne_zero hJ
  have hstep : demodSum (fun x => 1 + β * Fdm.geom x d0 r l g / (2 * (1 - β * Fdm.geom x d1 r l g)))
      (z + A) A n N = demodSum (fun x => 1 + ((∑ j ∈ range J, β ^ (j + 1) / 2 *
        (Fdm.geom x d0 r l g * Fdm.geom x d1 r l g ^ j)) + β ^ (J + 1) * Fdm.geom x d0 r l g *
          Fdm.geom x d1 r l g ^ J / (2 * (1 - β * Fdm.geom x d1 r l g)))) (z + A) A n N := by
    refine demodSum_congr hA n N fun x hx hx' => ?_
    rw [Fdm.geomSum β _ _ (sub_ne_zero.2 (hd x (by linarith) (by linarith)).symm) J]
    congr 2
    refine sum_congr rfl fun j _ => ?_
    ring
  have hcoef : ∑ j ∈ range J, demodSum (fun x => β ^ (j + 1) / 2 *
      (Fdm.geom x d0 r l g * Fdm.geom x d1 r l g ^ j)) (z + A) A n N =
      ∑ j ∈ range J, Fdm.coef z (j + 1) A n r l g d0 d1 N * β ^ (j + 1) := by
    refine sum_congr rfl fun j _ => ?_
    rw [demodSum_mul]
    unfold Fdm.coef
    rw [if_neg (Nat.succ_ne_zero j), Nat.add_sub_cancel]
    ring
  have hzero : Fdm.coef z 0 A n r l g d0 d1 N * β ^ 0 = if n = 0 then 1 else 0 := by
    unfold Fdm.coef
    simp
  rw [hstep, demodSum_add, demodSum_add, demodSum_sum, sum_range_succ', hcoef, hzero, Nat.succ_sub_one]
  ring

/-- The error of the series with `J` terms is the demodulated remainder. -/
theorem C47_remainder (env : Env) (s : Stack (FP ℝ) (FP ℂ)) (hs : s.eps.length ≤ 2) (β : ℂ)
    (hβ : s.reflCoefQs = .ok (FP.num β)) (z r l : ℝ) (g : ℂ) (d0 d1 dA : ℝ)
    (h0 : Fdm.GeomOk z d0 r l) (h1 : Fdm.GeomOk z d1 r l) (A : ℝ) (hA : 0 ≤ A)
    (hd : ∀ x, z ≤ x → x ≤ z + 2 * A → β * Fdm.geom x d1 r l g ≠ 1) (nLag : Option ℕ) (n : ℤ) (N : ℕ)
    (hN : N ≠ 0) (hn : n = 0 ∨ ¬ (N : ℤ) ∣ n) (J : ℕ) (hJ : J ≠ 0) :
    ∃ T R, Fdm.effPolNTaylor env s (FP.num A) (FP.num n) (some (FP.num z)) (fdmTip r l g d0 d1 dA) nLag
        (some "bulk") (some N) (some J) = .ok (FP.num T) ∧
      demod env (onFinite fun x => β ^ J * Fdm.geom x d0 r l g * Fdm.geom x d1 r l g ^ (J - 1) /
          (2 * (1 - β * Fdm.geom x d1 r l g))) (FP.num (z + A)) (FP.num A) (FP.num n) (some N) =
        .ok (FP.num R) ∧
      Fdm.effPolN env s (FP.num A) (FP.num n) (some (FP.num z)) (some N) (fdmTip r l g d0 d1 dA) nLag
        (some "bulk") = .ok (FP.num (T + R)) := by
  have hm : s.multilayer = false := by
    unfold Stack.multilayer Stack.nLayers
    simpa using hs
  refine ⟨_, _, taylor_fdm_num env s _ g dA nLag β (.inl ⟨hs, .inr rfl, hβ⟩) h0 h1 hA n hN J,
    demod_onFinite env _ _ _ _ (some N) hN, ?_⟩
  rw [effPolN_num env s hm β hβ z r l g d0 d1 dA h0 h1 A hA hd nLag n N hN,
    fdm_remainder z r l g d0 d1 A hA β hd n N J hJ, demodSum_const 1 _ _ n hN hn, sub_self, add_zero,
    Option.getD_some]

theorem example_im_ne' (x : ℝ) (hx : 0 ≤ x) (hx' : x ≤ 0 + 2 * 2) :
    (((1 / 3 : ℝ) : ℂ)) * Fdm.geom x (1 / 2) 1 300 Complex.I ≠ 1 := by
  refine example_im_ne ?_ _
  unfold Fdm.geom
  have h1 : Real.log (4 * 300 / (1 + 4 * x + 2 * (1 / 2) * 1)) ≠ 0 := by
    apply Real.log_ne_zero_of_pos_of_ne_one (by positivity)
    rw [Ne, div_eq_one_iff_eq (by positivity)]
    intro h
    linarith
  have h2 : Real.log (4 * 300 / 1) ≠ 0 :=
    Real.log_ne_zero_of_pos_of_ne_one (by norm_num) (by norm_num)
  rw [Complex.div_ofReal_im, Complex.im_mul_ofReal]
  refine div_ne_zero (mul_ne_zero ?_ h1) h2
  rw [Complex.sub_im, Complex.I_im, Complex.ofReal_im]
  norm_num

example (env : Env) := C47_remainder env (bulk 1 2) le_rfl ((1 / 3 : ℝ) : ℂ)
  (by rw [C09_refl 1 2 none _ two_ne_zero (by norm_num)]; norm_num) 0 1 300 Complex.I 1 (1 / 2) 1.4
  example_geomOk.1 example_geomOk.2 2 (by norm_num) example_im_ne' none 3 8 (by norm_num)
  (.inr (by norm_num)) 5 (by norm_num)

open Classical in
theorem fdm_converges (env : Env) (s : Stack (FP ℝ) (FP ℂ)) (hs : s.eps.length ≤ 2) (β : ℂ)
    (hβ : s.reflCoefQs = .ok (FP.num β)) (z r l : ℝ) (g : ℂ) (d0 d1 dA : ℝ)
    (h0 : Fdm.GeomOk z d0 r l) (h1 : Fdm.GeomOk z d1 r l) (A : ℝ) (hA : 0 ≤ A)
    (hd : ∀ x, z ≤ x → x ≤ z + 2 * A → ‖β * Fdm.geom x d1 r l g‖ < 1) (nLag : Option ℕ) (n : ℤ) (N : ℕ)
    (hN : N ≠ 0) :
    ∃ v, Fdm.effPolN env s (FP.num A) (FP.num n) (some (FP.num z)) (some N) (fdmTip r l g d0 d1 dA) nLag
        (some "bulk") = .ok (FP.num v) ∧
      EvalTendsto (fun J : ℕ => Fdm.effPolNTaylor env s (FP.num A) (FP.num n) (some (FP.num z))
        (fdmTip r l g d0 d1 dA) nLag (some "bulk") (some N) (some J)) atTop
        (v - (demodSum (fun _ => 1) (z + A) A n N - if n = 0 then 1 else 0)) := by
  have hm : s.multilayer = false := by
    unfold Stack.multilayer Stack.nLayers
    simpa using hs
  have hd' : ∀ x, z ≤ x → x ≤ z + 2 * A → β * Fdm.geom x d1 r l g ≠ 1 := fun x hx hx' h => by
    have := hd x hx hx'
    rw [h, norm_one] at this
    exact lt_irrefl _ this
  refine ⟨_, effPolN_num env s hm β hβ z r l g d0 d1 dA h0 h1 A hA hd' nLag n N hN, _,
    Eventually.of_forall fun J =>
      taylor_fdm_num env s _ g dA nLag β (.inl ⟨hs, .inr rfl, hβ⟩) h0 h1 hA n hN J, ?_⟩
  have hR : Tendsto (fun J : ℕ => demodSum (fun x => β ^ J * Fdm.geom x d0 r l g *
      Fdm.geom x d1 r l g ^ (J - 1) / (2 * (1 - β * Fdm.geom x d1 r l g))) (z + A) A n N) atTop
      (𝓝 (demodSum (fun _ => 0) (z + A) A n N)) := by
    refine demodSum_tendsto hA n N fun x hx hx' => ?_
    have hlt := hd x (by linarith) (by linarith)
    rw [← tendsto_add_atTop_iff_nat 1]
    have h2 := (tendsto_pow_atTop_nhds_zero_of_norm_lt_one hlt).const_mul
      (β * Fdm.geom x d0 r l g / (2 * (1 - β * Fdm.geom x d1 r l g)))
    rw [mul_zero] at h2
    refine h2.congr fun J => ?_
    rw [Nat.add_sub_cancel, mul_pow]
    ring
  have h00 : demodSum (fun _ => 0) (z + A) A n N = 0 := by
    have := demodSum_mul 0 (fun _ => 0) (z + A) A n N
    simpa using this
  rw [h00] at hR
  have h3 := hR.const_sub (demodSum (fun x => 1 + β * Fdm.geom x d0 r l g /
    (2 * (1 - β * Fdm.geom x d1 r l g))) (z + A) A n N -
      (demodSum (fun _ => 1) (z + A) A n N - if n = 0 then 1 else 0))
  rw [sub_zero] at h3
  refine h3.congr' ?_
  filter_upwards [eventually_ne_atTop 0] with J hJ
  rw [fdm_remainder z r l g d0 d1 A hA β hd' n N J hJ]
  ring

theorem C47_converges (env : Env) (s : Stack (FP ℝ) (FP ℂ)) (hs : s.eps.length ≤ 2) (β : ℂ)
    (hβ : s.reflCoefQs = .ok (FP.num β)) (z r l : ℝ) (g : ℂ) (d0 d1 dA : ℝ)
    (h0 : Fdm.GeomOk z d0 r l) (h1 : Fdm.GeomOk z d1 r l) (A : ℝ) (hA : 0 ≤ A)
    (hd : ∀ x, z ≤ x → x ≤ z + 2 * A → ‖β * Fdm.geom x d1 r l g‖ < 1) (nLag : Option ℕ) (n : ℤ) (N : ℕ)
    (hN : N ≠ 0) (hn : n = 0 ∨ ¬ (N : ℤ) ∣ n) :
    ∃ v, Fdm.effPolN env s (FP.num A) (FP.num n) (some (FP.num z)) (some N) (fdmTip r l g d0 d1 dA) nLag
        (some "bulk") = .ok (FP.num v) ∧
      EvalTendsto (fun J : ℕ => Fdm.effPolNTaylor env s (FP.num A) (FP.num n) (some (FP.num z))
        (fdmTip r l g d0 d1 dA) nLag (some "bulk") (some N) (some J)) atTop v := by
  have h := fdm_converges env s hs β hβ z r l g d0 d1 dA h0 h1 A hA hd nLag n N hN
  rw [demodSum_const 1 _ _ n hN hn, sub_self] at h
  simpa only [sub_zero] using h

theorem example_norm_lt (x : ℝ) (hx : 0 ≤ x) (hx' : x ≤ 0 + 2 * 2) :
    ‖((1 / 3 : ℝ) : ℂ) * Fdm.geom x (1 / 2) 1 300 Complex.I‖ < 1 := by
  unfold Fdm.geom
  have hu : 1 ≤ 1 + 4 * x + 2 * (1 / 2) * 1 := by linarith
  have h1 : 0 ≤ Real.log (4 * 300 / (1 + 4 * x + 2 * (1 / 2) * 1)) := by
    apply Real.log_nonneg
    rw [le_div_iff₀ (by positivity)]
    linarith
  have h2 : Real.log (4 * 300 / (1 + 4 * x + 2 * (1 / 2) * 1)) ≤ Real.log (4 * 300 / 1) := by
    apply Real.log_le_log (by positivity)
    exact div_le_div_of_nonneg_left (by norm_num) one_pos hu
  have h3 : 0 < Real.log (4 * 300 / 1) := Real.log_pos (by norm_num)
  have ha : ‖Complex.I - (((1 + 2 * x + 1 / 2 * 1) / (2 * 300) : ℝ) : ℂ)‖ ≤ 2 := by
    refine (norm_sub_le _ _).trans ?_
    rw [Complex.norm_I, Complex.norm_real, Real.norm_eq_abs, abs_of_nonneg (by positivity)]
    have : (1 + 2 * x + 1 / 2 * 1) / (2 * 300) ≤ 1 := by
      rw [div_le_one (by norm_num)]
      linarith
    linarith
  rw [norm_mul, norm_div, norm_mul, Complex.norm_real, Complex.norm_real, Complex.norm_real,
    Real.norm_eq_abs, Real.norm_eq_abs, Real.norm_eq_abs, abs_of_nonneg h1, abs_of_pos h3]
  generalize Real.log (4 * 300 / (1 + 4 * x + 2 * (1 / 2) * 1)) = u at *
  generalize Real.log (4 * 300 / 1) = v at *
  have hb : ‖Complex.I - (((1 + 2 * x + 1 / 2 * 1) / (2 * 300) : ℝ) : ℂ)‖ * u / v ≤ 2 := by
    rw [div_le_iff₀ h3]
    exact mul_le_mul ha h2 h1 (by norm_num)
  rw [abs_of_pos (by norm_num)]
  linarith

example (env : Env) := C47_converges env (bulk 1 2) le_rfl ((1 / 3 : ℝ) : ℂ)
  (by rw [C09_refl 1 2 none _ two_ne_zero (by norm_num)]; norm_num) 0 1 300 Complex.I 1 (1 / 2) 1.4
  example_geomOk.1 example_geomOk.2 2 (by norm_num) example_norm_lt none 3 8 (by norm_num)
  (.inr (by norm_num))

/-- At other multiples of `n_trapz` the constant term aliases in `eff_pol_n` but not in the series:
the series converges to a value that differs by `±1`. -/
theorem C47_alias (env : Env) (s : Stack (FP ℝ) (FP ℂ)) (hs : s.eps.length ≤ 2) (β : ℂ)
    (hβ : s.reflCoefQs = .ok (FP.num β)) (z r l : ℝ) (g : ℂ) (d0 d1 dA : ℝ)
    (h0 : Fdm.GeomOk z d0 r l) (h1 : Fdm.GeomOk z d1 r l) (A : ℝ) (hA : 0 ≤ A)
    (hd : ∀ x, z ≤ x → x ≤ z + 2 * A → ‖β * Fdm.geom x d1 r l g‖ < 1) (nLag : Option ℕ) (n : ℤ) (N : ℕ)
    (hN : N ≠ 0) (hn : n ≠ 0) (hdvd : (N : ℤ) ∣ n) :
    ∃ v, Fdm.effPolN env s (FP.num A) (FP.num n) (some (FP.num z)) (some N) (fdmTip r l g d0 d1 dA) nLag
        (some "bulk") = .ok (FP.num v) ∧
      EvalTendsto (fun J : ℕ => Fdm.effPolNTaylor env s (FP.num A) (FP.num n) (some (FP.num z))
        (fdmTip r l g d0 d1 dA) nLag (some "bulk") (some N) (some J)) atTop (v - (-1) ^ n) := by
  have h := fdm_converges env s hs β hβ z r l g d0 d1 dA h0 h1 A hA hd nLag n N hN
  rw [demodSum_const_alias _ _ n hN hdvd, if_neg hn, sub_zero] at h
  exact h

example (env : Env) := C47_alias env (bulk 1 2) le_rfl ((1 / 3 : ℝ) : ℂ)
  (by rw [C09_refl 1 2 none _ two_ne_zero (by norm_num)]; norm_num) 0 1 300 Complex.I 1 (1 / 2) 1.4
  example_geomOk.1 example_geomOk.2 2 (by norm_num) example_norm_lt none 8 8 (by norm_num)
  (by norm_num) (by norm_num)

/-! ## C48 The PDM Taylor series converges to eff_pol_n

False: the series lacks the factor `alpha_tip`. -/

theorem pdm_effPolN_num (env : Env) (s : Stack (FP ℝ) (FP ℂ)) (β : ℂ)
    (hβ : s.reflCoefQs = .ok (FP.num β)) (z r : ℝ) (α : ℂ) (h : 0 < r + z) (A : ℝ) (hA : 0 ≤ A)
    (hd : ∀ x, z ≤ x → x ≤ z + 2 * A → ‖β * Pdm.geom x r α‖ < 1) (n : ℝ) (N : ℕ) (hN : N ≠ 0) :
    Pdm.effPolN env s (FP.num A) (FP.num n) (some (FP.num z)) (some N) (tip r α) =
      .ok (FP.num (demodSum (fun x => α * (1 - β * Pdm.geom x r α)⁻¹) (z + A) A n N)) := by
  have hval : ∀ x, z ≤ x → x ≤ z + 2 * A → Pdm.effPol env s (some (FP.num x)) (tip r α) =
      .ok (FP.num (α * (1 - β * Pdm.geom x r α)⁻¹)) := fun x hx hx' => by
    rw [Pdm.effPol_val env s _ x r α β (pdm_tip env r α) hβ (by linarith), mul_comm β, div_eq_mul_inv]
    rw [mul_comm]
    refine sub_ne_zero.2 fun h1 => ?_
    have := hd x hx hx'
    rw [← h1, norm_one] at this
    exact lt_irrefl _ this
  unfold Pdm.effPolN
  simp only [Option.getD_some, FP.num_add]
  exact demod_eval env _ (fun x => α * (1 - β * Pdm.geom x r α)⁻¹) _ _ _ (some N) hN
    ⟨_, hval _ (by linarith) (by linarith)⟩ fun θ =>
    hval _ (by nlinarith [Real.neg_one_le_cos θ]) (by nlinarith [Real.cos_le_one θ])

/-- What holds: the series tends to `eff_pol_n / alpha_tip`, for every harmonic. -/
theorem C48_partial (env : Env) (s : Stack (FP ℝ) (FP ℂ)) (β : ℂ)
    (hβ : s.reflCoefQs = .ok (FP.num β)) (z r : ℝ) (α : ℂ) (hα : α ≠ 0) (h : 0 < r + z) (A : ℝ)
    (hA : 0 ≤ A) (hd : ∀ x, z ≤ x → x ≤ z + 2 * A → ‖β * Pdm.geom x r α‖ < 1) (n : ℝ) (N : ℕ)
    (hN : N ≠ 0) :
    ∃ v, Pdm.effPolN env s (FP.num A) (FP.num n) (some (FP.num z)) (some N) (tip r α) = .ok (FP.num v) ∧
      EvalTendsto (fun J : ℕ => Pdm.effPolNTaylor env s (FP.num A) (FP.num n) (some (FP.num z)) (tip r α)
        (some N) (some J)) atTop (v / α) := by
  refine ⟨_, pdm_effPolN_num env s β hβ z r α h A hA hd n N hN, _,
    Eventually.of_forall fun J => taylor_pdm_num env s α β hβ h hA n hN J, ?_⟩
  rw [demodSum_mul, mul_div_cancel_left₀ _ hα]
  have hsum : ∀ J, ∑ j ∈ range J, Pdm.coef z j A n r α N * β ^ j =
      demodSum (fun x => ∑ j ∈ range J, (β * Pdm.geom x r α) ^ j) (z + A) A n N := by
    intro J
    rw [demodSum_sum]
    refine sum_congr rfl fun j _ => ?_
    unfold Pdm.coef
    rw [mul_comm, ← demodSum_mul]
    simp only [mul_pow]
  simp only [hsum]
  refine demodSum_tendsto hA n N fun x hx hx' => ?_
  exact (hasSum_geometric_of_norm_lt_one (hd x (by linarith) (by linarith))).tendsto_sum_nat

theorem example_pdm_lt (x : ℝ) (hx : 0 ≤ x) (_ : x ≤ 0 + 2 * 2) :
    ‖((2 - 1) / (2 + 1) : ℂ) * Pdm.geom x 1 5‖ < 1 := by
  unfold Pdm.geom
  have hpi := Real.two_le_pi
  have h1 : ((2 - 1) / (2 + 1) : ℂ) * (5 / (16 * Real.pi * ((1 : ℝ) + x) ^ 3)) =
      ((5 / (48 * Real.pi * (1 + x) ^ 3) : ℝ) : ℂ) := by
    push_cast
    have : (Real.pi : ℂ) ≠ 0 := by exact_mod_cast Real.pi_ne_zero
    have h2 : (1 + x : ℂ) ≠ 0 := by exact_mod_cast (by positivity : 1 + x ≠ 0)
    field_simp
    norm_num
  rw [h1, Complex.norm_real, Real.norm_eq_abs, abs_of_pos (by positivity), div_lt_one (by positivity)]
  have h3 : 1 ≤ (1 + x) ^ 3 := one_le_pow₀ (by linarith)
  nlinarith

example (env : Env) := C48_partial env (bulk 1 2) _ (C09_refl 1 2 none _ two_ne_zero (by norm_num)) 0 1 5
  (by norm_num) (by norm_num) 2 (by norm_num) example_pdm_lt 3 8 (by norm_num)

/-- So the full statement fails wherever `eff_pol_n` is not zero and `alpha_tip` is not 1. -/
theorem C48_false (env : Env) (s : Stack (FP ℝ) (FP ℂ)) (β : ℂ)
    (hβ : s.reflCoefQs = .ok (FP.num β)) (z r : ℝ) (α : ℂ) (hα : α ≠ 0) (hα1 : α ≠ 1) (h : 0 < r + z)
    (A : ℝ) (hA : 0 ≤ A) (hd : ∀ x, z ≤ x → x ≤ z + 2 * A → ‖β * Pdm.geom x r α‖ < 1) (n : ℝ) (N : ℕ)
    (hN : N ≠ 0) (v : ℂ)
    (hv : Pdm.effPolN env s (FP.num A) (FP.num n) (some (FP.num z)) (some N) (tip r α) = .ok (FP.num v))
    (hv0 : v ≠ 0) :
    ¬ EvalTendsto (fun J : ℕ => Pdm.effPolNTaylor env s (FP.num A) (FP.num n) (some (FP.num z)) (tip r α)
      (some N) (some J)) atTop v := by
  obtain ⟨v', hv', f', hf', h2⟩ := C48_partial env s β hβ z r α hα h A hA hd n N hN
  rw [hv] at hv'
  obtain rfl : v = v' := by simpa using hv'
  rintro ⟨f, hf, h1⟩
  have : f =ᶠ[atTop] f' := by
    filter_upwards [hf, hf'] with z hz hz'
    rw [hz'] at hz
    simpa using hz.symm
  have h3 := tendsto_nhds_unique h1 (h2.congr' this.symm)
  apply hα1
  rw [eq_div_iff hα] at h3
  exact mul_left_cancel₀ hv0 (by rw [h3, mul_one])

/-- The full statement holds exactly where the signal vanishes or `alpha_tip` is 1. -/
theorem C48_exact (env : Env) (s : Stack (FP ℝ) (FP ℂ)) (β : ℂ)
    (hβ : s.reflCoefQs = .ok (FP.num β)) (z r : ℝ) (α : ℂ) (hα : α ≠ 0) (h : 0 < r + z)
    (A : ℝ) (hA : 0 ≤ A) (hd : ∀ x, z ≤ x → x ≤ z + 2 * A → ‖β * Pdm.geom x r α‖ < 1) (n : ℝ) (N : ℕ)
    (hN : N ≠ 0) (v : ℂ)
    (hv : Pdm.effPolN env s (FP.num A) (FP.num n) (some (FP.num z)) (some N) (tip r α) = .ok (FP.num v)) :
    EvalTendsto (fun J : ℕ => Pdm.effPolNTaylor env s (FP.num A) (FP.num n) (some (FP.num z)) (tip r α)
      (some N) (some J)) atTop v ↔ v = 0 ∨ α = 1 := by
  constructor
  · intro ht
    by_contra hc
    obtain ⟨h0, h1⟩ := not_or.1 hc
    exact C48_false env s β hβ z r α hα h1 h A hA hd n N hN v hv h0 ht
  · intro hc
    obtain ⟨v', hv', ht⟩ := C48_partial env s β hβ z r α hα h A hA hd n N hN
    rw [hv] at hv'
    obtain rfl : v = v' := by simpa using hv'
    have : v / α = v := by
      rcases hc with rfl | rfl
      · simp
      · simp
    rwa [this] at ht

/-- A sample and tip where it fails. -/
theorem example_C48 (env : Env) : ∃ v, v ≠ 0 ∧
    Pdm.effPolN env (bulk 1 2) (FP.num 2) (FP.num 0) (some (FP.num 0)) (some 1) (tip 1 5) =
      .ok (FP.num v) := by
  refine ⟨_, ?_, pdm_effPolN_num env (bulk 1 2) _ (C09_refl 1 2 none _ two_ne_zero (by norm_num)) 0 1 5
    (by norm_num) 2 (by norm_num) example_pdm_lt 0 1 one_ne_zero⟩
  have h := example_pdm_lt 0 le_rfl (by norm_num)
  have hne : (1 : ℂ) - (2 - 1) / (2 + 1) * Pdm.geom 0 1 5 ≠ 0 := sub_ne_zero.2 fun h1 => by
    rw [← h1, norm_one] at h
    exact lt_irrefl _ h
  unfold demodSum wave phase
  simpa using hne

example (env : Env) : ∃ v,
    Pdm.effPolN env (bulk 1 2) (FP.num 2) (FP.num 0) (some (FP.num 0)) (some 1) (tip 1 5) =
      .ok (FP.num v) ∧
    ¬ EvalTendsto (fun J : ℕ => Pdm.effPolNTaylor env (bulk 1 2) (FP.num 2) (FP.num 0) (some (FP.num 0))
      (tip 1 5) (some 1) (some J)) atTop v := by
  obtain ⟨v, h0, hv⟩ := example_C48 env
  exact ⟨v, hv, C48_false env (bulk 1 2) _ (C09_refl 1 2 none _ two_ne_zero (by norm_num)) 0 1 5
    (by norm_num) (by norm_num) (by norm_num) 2 (by norm_num) example_pdm_lt 0 1 one_ne_zero v hv h0⟩

end Snompy.Props
