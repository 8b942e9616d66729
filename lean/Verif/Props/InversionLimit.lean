import Verif.Lemmas.TaylorUniform
import Verif.Props.Inversion

/-!
# C69: inverting exact data
-/

namespace Snompy.Props

open Snompy Filter Topology Polynomial

/-- A Python number as an array argument. -/
def scal {α : Type} (x : α) : NDArray (FP α) := NDArray.scalar (FP.num x)

/-- The tip arguments as numbers. -/
def fdmTipArr (r l : ℝ) (g : ℂ) (d0 d1 : ℝ) : Fdm.Args :=
  ⟨some (scal r), some (scal l), some (scal g), some (scal d0), some (scal d1), none⟩

/-- The tip arguments as numbers. -/
def tipArr (r : ℝ) (α : ℂ) : Pdm.Args := ⟨some (scal r), none, some (scal α)⟩

theorem evalTendsto_unique {F : ℕ → PyM (FP ℂ)} {f : ℕ → ℂ} (hF : ∀ J, F J = .ok (FP.num (f J))) {v : ℂ}
    (h : EvalTendsto F atTop v) : Tendsto f atTop (𝓝 v) := by
  obtain ⟨f', h1, h2⟩ := h
  refine h2.congr' ?_
  filter_upwards [h1] with J hJ
  rw [hF, Except.ok.injEq, FP.num_inj] at hJ
  exact hJ.symm

theorem tsum_eq_of_tendsto {c : ℕ → ℂ} {R : ℝ} (hs : Summable fun j => ‖c j‖ * R ^ j) {b v : ℂ} (hb : ‖b‖ < R)
    (h : Tendsto (fun J => ∑ j ∈ Finset.range J, c j * b ^ j) atTop (𝓝 v)) : ∑' j, c j * b ^ j = v := by
  have := (series_uniform hs).tendsto_at (x := b) (by simpa using hb.le)
  exact tendsto_nhds_unique this h

theorem series_of_isSeries {coef : ℕ → PyM (FP ℂ)} {J : ℕ} {c : ℕ → ℂ}
    (h : IsSeries coef J (∑ j ∈ Finset.range J, monomial j (c j))) {p : ℂ[X]} (hp : IsSeries coef J p) (x : ℂ) :
    ∑ j ∈ Finset.range J, c j * x ^ j = p.eval x := by
  rw [eval_series hp.1]
  refine Finset.sum_congr rfl fun j hj => ?_
  have e6 := hp.2 j (Finset.mem_range.1 hj)
  have e7 := h.2 j (Finset.mem_range.1 hj)
  rw [polynomial_coeff _ (Finset.mem_range.1 hj)] at e7
  rw [e7, Except.ok.injEq, FP.num_inj] at e6
  rw [e6]

/-- The acceptance criteria hold around `β` if they hold strictly at `β`. -/
theorem C69_accepts (env : Env) (v : InvArgs) (e β : ℂ) (i : ℕ → ℕ) (he : (v.envEps env).get i = FP.num e)
    (ht : ‖β‖ < v.thr env) (h1 : β ≠ 1) (hIm : v.rejectNegativeEpsImag = true → 0 < (epsOf e β).im)
    (hAbs : v.rejectSubvacuumEpsAbs = true → 1 < ‖epsOf e β‖) : ∀ᶠ x in 𝓝 β, v.Accepts env i x := by
  have hc : ContinuousAt (epsOf e) β := by
    unfold epsOf
    exact ContinuousAt.div (by fun_prop) (by fun_prop) (sub_ne_zero.2 h1.symm)
  have e1 : ∀ᶠ x : ℂ in 𝓝 β, ‖x‖ < v.thr env := continuous_norm.continuousAt.eventually_lt continuousAt_const ht
  have e2 : ∀ᶠ x : ℂ in 𝓝 β, x ≠ 1 := isOpen_ne.mem_nhds h1
  have e3 : v.rejectNegativeEpsImag = true → ∀ᶠ x in 𝓝 β, 0 < (epsOf e x).im := fun h =>
    continuousAt_const.eventually_lt (Complex.continuous_im.continuousAt.comp hc) (hIm h)
  have e4 : v.rejectSubvacuumEpsAbs = true → ∀ᶠ x in 𝓝 β, 1 < ‖epsOf e x‖ := fun h =>
    continuousAt_const.eventually_lt hc.norm (hAbs h)
  have e3' : ∀ᶠ x in 𝓝 β, v.rejectNegativeEpsImag = true → 0 < (epsOf e x).im := eventually_imp_distrib_left.2 e3
  have e4' : ∀ᶠ x in 𝓝 β, v.rejectSubvacuumEpsAbs = true → 1 < ‖epsOf e x‖ := eventually_imp_distrib_left.2 e4
  filter_upwards [e1, e2, e3', e4'] with x h2 h3 h4 h5
  exact ⟨h2.le, fun h => ⟨e, he, .inl ⟨h3, (h4 h).le⟩⟩, fun h => ⟨e, he, .inl ⟨h3, (h5 h).le⟩⟩⟩

section Fdm

variable (env : Env) {sv : Solver} (hs : sv.Correct) (z r l : ℝ) (g : ℂ) (d0 d1 dA : ℝ)
  (h0 : Fdm.GeomOk z d0 r l) (h1 : Fdm.GeomOk z d1 r l) (A : ℝ) (hA : 0 ≤ A) (nLag : Option ℕ) (n : ℤ) (N : ℕ)
  (hN : N ≠ 0) (hn : n = 0 ∨ ¬ (N : ℤ) ∣ n)

include h0 h1 hA hN hn in
theorem fdm_tendsto {s : Stack (FP ℝ) (FP ℂ)} (hl : s.eps.length ≤ 2) {b c : ℂ}
    (hb : s.reflCoefQs = .ok (FP.num b)) (hd : ∀ x, z ≤ x → x ≤ z + 2 * A → ‖b * Fdm.geom x d1 r l g‖ < 1)
    (hc : Fdm.effPolN env s (FP.num A) (FP.num n) (some (FP.num z)) (some N) (fdmTip r l g d0 d1 dA) nLag
      (some "bulk") = .ok (FP.num c)) :
    Tendsto (fun J => ∑ j ∈ Finset.range J, Fdm.coef z j A n r l g d0 d1 N * b ^ j) atTop (𝓝 c) := by
  obtain ⟨c', h2, h3⟩ := C47_converges env s hl b hb z r l g d0 d1 dA h0 h1 A hA hd nLag n N hN hn
  rw [hc, Except.ok.injEq, FP.num_inj] at h2
  subst h2
  exact evalTendsto_unique (fun J => taylor_fdm_num env s _ g dA nLag b (.inl ⟨hl, .inr rfl, hb⟩) h0 h1 hA n hN J) h3

include h0 h1 hA hN in
theorem fdm_isSeries (J : ℕ) : IsSeries (Fdm.coefAt env (scal A) (scal (n : ℝ)) (some (scal z))
    (fdmTipArr r l g d0 d1) (some N) fun _ => 0) J
    (∑ j ∈ Finset.range J, monomial j (Fdm.coef z j A n r l g d0 d1 N)) := by
  refine ⟨polynomial_degree_lt J _, fun j hj => ?_⟩
  rw [polynomial_coeff _ hj]
  exact Fdm.taylorCoef_num env h0 h1 g j hA n hN

include hs h0 h1 hA hN hn

/-- A sample with reflection coefficient `b`, a signal `c` computed with the full model, and any sample with another
signal: as the number of Taylor terms grows, the inversion of `c` returns values that come arbitrarily close to `b`. -/
theorem C69_fdm (s s' : Stack (FP ℝ) (FP ℂ)) (hl : s.eps.length ≤ 2) (hl' : s'.eps.length ≤ 2) (b w c c' : ℂ)
    (hb : s.reflCoefQs = .ok (FP.num b)) (hw : s'.reflCoefQs = .ok (FP.num w))
    (hdb : ∀ x, z ≤ x → x ≤ z + 2 * A → ‖b * Fdm.geom x d1 r l g‖ < 1)
    (hdw : ∀ x, z ≤ x → x ≤ z + 2 * A → ‖w * Fdm.geom x d1 r l g‖ < 1)
    (hc : Fdm.effPolN env s (FP.num A) (FP.num n) (some (FP.num z)) (some N) (fdmTip r l g d0 d1 dA) nLag
      (some "bulk") = .ok (FP.num c))
    (hc' : Fdm.effPolN env s' (FP.num A) (FP.num n) (some (FP.num z)) (some N) (fdmTip r l g d0 d1 dA) nLag
      (some "bulk") = .ok (FP.num c')) (hne : c' ≠ c) (v : InvArgs) (henv : (v.envEps env).rshape = [])
    (hacc : ∀ᶠ x in 𝓝 b, v.Accepts env (fun _ => 0) x) (ε : ℝ) (hε : 0 < ε) :
    ∀ᶠ J in atTop, ∃ M x, Fdm.invert env sv (scal c) (scal A) (scal (n : ℝ)) (some (scal z)) (fdmTipArr r l g d0 d1)
        (some N) (some J) v = .ok M ∧ FP.num x ∈ M.unmasked (fun _ => 0) ∧ ‖x - b‖ < ε := by
  obtain ⟨R, hbR, hwR, hsum⟩ := Fdm.summable_coef h0 h1 hA n N hdb hdw
  have tb := fdm_tendsto env z r l g d0 d1 dA h0 h1 A hA nLag n N hN hn hl hb hdb hc
  have tw := fdm_tendsto env z r l g d0 d1 dA h0 h1 A hA nLag n N hN hn hl' hw hdw hc'
  have eb := tsum_eq_of_tendsto hsum hbR tb
  have ew := tsum_eq_of_tendsto hsum hwR tw
  obtain ⟨δ, hδ, hball⟩ := Metric.eventually_nhds_iff.1 hacc
  filter_upwards [hurwitz_series hsum hbR hwR (by rw [eb, ew]; exact hne) (lt_min hε hδ), eventually_gt_atTop 0,
    tw.eventually_ne hne] with J ⟨x, hx, hroot⟩ hJ hnc
  rw [eb] at hroot
  have hp := fdm_isSeries env z r l g d0 d1 h0 h1 A hA n N hN J
  set p := ∑ j ∈ Finset.range J, monomial j (Fdm.coef z j A n r l g d0 d1 N) with hpdef
  have heval : ∀ y, p.eval y = ∑ j ∈ Finset.range J, Fdm.coef z j A n r l g d0 d1 N * y ^ j := fun y => by
    rw [hpdef, eval_finsetSum]
    simp only [eval_monomial]
  have hsh : Fdm.invShape (scal c) (scal A) (scal (n : ℝ)) (some (scal z)) (fdmTipArr r l g d0 d1) = some [] := rfl
  obtain ⟨M, hM⟩ := C51_fdm_ok (env := env) (sv := sv) hs (α := scal c) (aTip := scal A) (n := scal (n : ℝ))
    (z := some (scal z)) (a := fdmTipArr r l g d0 d1) (nTrapz := some N) (nTayl := some J) (v := v) hsh
    (inBounds_nil _) (by rw [henv]; rfl) p.natDegree hJ fun i _ => ⟨c, p, rfl, hp, rfl⟩
  refine ⟨M, x, hM, ?_, hx.trans_le (min_le_left _ _)⟩
  refine (C51_fdm_partial hs hM hsh (inBounds_nil _) (by rw [henv]; rfl) (c := c) rfl hp ?_
    (fun hd => ⟨c, p, rfl, hp, hd⟩) x).1 (by rw [heval, hroot]) (hball ?_)
  · intro h
    apply hnc
    rw [← heval, h, eval_C]
  · rw [dist_eq_norm]
    exact hx.trans_le (min_le_right _ _)

/-- Nothing else is found in the limit: if solutions for more and more terms converge, and the series converges at their
limit, this limit solves the equation of the full model. -/
theorem C69_fdm_sound (c : ℂ) (v : InvArgs) (J : ℕ → ℕ) (hJ : Tendsto J atTop atTop) (M : ℕ → Masked) (x : ℕ → ℂ)
    (hM : ∀ k, Fdm.invert env sv (scal c) (scal A) (scal (n : ℝ)) (some (scal z)) (fdmTipArr r l g d0 d1)
        (some N) (some (J k)) v = .ok (M k)) (hx : ∀ k, FP.num (x k) ∈ (M k).unmasked fun _ => 0) (b : ℂ)
    (hlim : Tendsto x atTop (𝓝 b)) (hdb : ∀ x, z ≤ x → x ≤ z + 2 * A → ‖b * Fdm.geom x d1 r l g‖ < 1)
    (s : Stack (FP ℝ) (FP ℂ)) (hl : s.eps.length ≤ 2) (hb : s.reflCoefQs = .ok (FP.num b)) :
    Fdm.effPolN env s (FP.num A) (FP.num n) (some (FP.num z)) (some N) (fdmTip r l g d0 d1 dA) nLag
      (some "bulk") = .ok (FP.num c) := by
  obtain ⟨R, hbR, -, hsum⟩ := Fdm.summable_coef h0 h1 hA n N hdb hdb
  obtain ⟨c', h2, h3⟩ := C47_converges env s hl b hb z r l g d0 d1 dA h0 h1 A hA hdb nLag n N hN hn
  have tb := fdm_tendsto env z r l g d0 d1 dA h0 h1 A hA nLag n N hN hn hl hb hdb h2
  rw [h2, ← tsum_eq_of_tendsto hsum hbR tb]
  congr 2
  refine series_sound hsum hbR hJ hlim fun k => ?_
  obtain ⟨β', c'', p, e1, e2, e3, e4, _⟩ := inverts_sound hs (Fdm.inverts env sv _ _ _ _ _ _ _ v) (hM k)
    (s0 := []) rfl (inBounds_nil _) (hx k)
  rw [FP.num_inj] at e1
  subst e1
  have e5 : c = c'' := FP.num_inj.1 e2
  rw [e5, ← e4]
  exact series_of_isSeries (fdm_isSeries env z r l g d0 d1 h0 h1 A hA n N hN (J k)) e3 _

end Fdm

/-! The hypotheses are met by a sample of permittivity 2 and one of permittivity 1 under a resting tip. -/

theorem example_refl_2 : (bulk 1 2).reflCoefQs = .ok (FP.num (((1 / 3 : ℝ) : ℂ))) := by
  rw [C09_refl 1 2 none _ two_ne_zero (by norm_num)]
  norm_num

theorem example_refl_1 : (bulk 1 1).reflCoefQs = .ok (FP.num (0 : ℂ)) := by
  rw [C09_refl 1 1 none _ one_ne_zero (by norm_num)]
  norm_num

theorem example_c69_fdm (env : Env) : ∃ c c' : ℂ, c' ≠ c ∧
    Fdm.effPolN env (bulk 1 2) (FP.num 0) (FP.num ((0 : ℤ) : ℝ)) (some (FP.num 0)) (some 8)
      (fdmTip 1 300 Complex.I 1 (1 / 2) 1.4) none (some "bulk") = .ok (FP.num c) ∧
    Fdm.effPolN env (bulk 1 1) (FP.num 0) (FP.num ((0 : ℤ) : ℝ)) (some (FP.num 0)) (some 8)
      (fdmTip 1 300 Complex.I 1 (1 / 2) 1.4) none (some "bulk") = .ok (FP.num c') := by
  have hne : ∀ x, 0 ≤ x → x ≤ 0 + 2 * (0 : ℝ) → (((1 / 3 : ℝ) : ℂ)) * Fdm.geom x (1 / 2) 1 300 Complex.I ≠ 1 :=
    fun x hx hx' => example_im_ne' x hx (by linarith)
  have e1 := effPolN_num env (bulk 1 2) rfl _ example_refl_2 0 1 300 Complex.I 1 (1 / 2) 1.4 example_geomOk.1
    example_geomOk.2 0 le_rfl hne none ((0 : ℤ) : ℝ) 8 (by norm_num)
  have e2 := effPolN_num env (bulk 1 1) rfl _ example_refl_1 0 1 300 Complex.I 1 (1 / 2) 1.4 example_geomOk.1
    example_geomOk.2 0 le_rfl (fun x _ _ => by simp) none ((0 : ℤ) : ℝ) 8 (by norm_num)
  refine ⟨_, _, ?_, e1, e2⟩
  have hcst : ∀ f : ℝ → ℂ, demodSum f (0 + 0) 0 ((0 : ℤ) : ℝ) 8 = f 0 := fun f => by
    rw [demodSum_congr (g' := fun _ => f 0) le_rfl _ 8 fun x h1 h2 => by
      rw [show x = 0 by linarith]]
    rw [demodSum_const (f 0) (0 + 0) 0 0 (N := 8) (by norm_num) (.inl rfl), if_pos rfl]
  rw [hcst, hcst]
  have hd := sub_ne_zero.2 (hne 0 le_rfl (by norm_num)).symm
  have hf : Fdm.geom 0 1 1 300 Complex.I ≠ 0 := by
    unfold Fdm.geom
    have h1 : Real.log (4 * 300 / (1 + 4 * 0 + 2 * 1 * 1)) ≠ 0 :=
      Real.log_ne_zero_of_pos_of_ne_one (by norm_num) (by norm_num)
    have h2 : Real.log (4 * 300 / 1) ≠ 0 := Real.log_ne_zero_of_pos_of_ne_one (by norm_num) (by norm_num)
    refine div_ne_zero (mul_ne_zero (fun h => ?_) (by exact_mod_cast h1)) (by exact_mod_cast h2)
    have := congrArg Complex.im h
    rw [Complex.sub_im, Complex.I_im, Complex.ofReal_im, Complex.zero_im] at this
    norm_num at this
  intro h
  simp only [zero_mul, zero_div, add_zero] at h
  rw [eq_comm, add_eq_left, div_eq_zero_iff] at h
  rcases h with h | h
  · rcases mul_eq_zero.1 h with h | h
    · norm_num at h
    · exact hf h
  · exact (mul_ne_zero two_ne_zero hd) h

theorem example_c69_conv (env : Env) : ∃ c, ∀ ε > 0, ∀ᶠ J in atTop, ∃ M x, Fdm.invert env exactSolver (scal c) (scal 0)
    (scal ((0 : ℤ) : ℝ)) (some (scal 0)) (fdmTipArr 1 300 Complex.I 1 (1 / 2)) (some 8) (some J)
    { betaThreshold := some 1 } = .ok M ∧ FP.num x ∈ M.unmasked (fun _ => 0) ∧ ‖x - ((1 / 3 : ℝ) : ℂ)‖ < ε := by
  obtain ⟨c, c', hne, h1, h2⟩ := example_c69_fdm env
  refine ⟨c, fun ε hε => C69_fdm env exactSolver_correct 0 1 300 Complex.I 1 (1 / 2) 1.4 example_geomOk.1
    example_geomOk.2 0 le_rfl none 0 8 (by norm_num) (.inl rfl) _ _ le_rfl le_rfl _ _ c c' example_refl_2
    example_refl_1 (fun x hx hx' => example_norm_lt x hx (by linarith)) (fun x _ _ => by simp) h1 h2 hne
    { betaThreshold := some 1 } rfl (C69_accepts env _ env.defaults.epsEnv _ _ rfl ?_ ?_ nofun nofun) ε hε⟩
  · norm_num [InvArgs.thr]
  · norm_num [Complex.ext_iff]

/-- The hypotheses of `C69_fdm_sound`. -/
example (env : Env) : ∃ (c : ℂ) (J : ℕ → ℕ) (M : ℕ → Masked) (x : ℕ → ℂ), Tendsto J atTop atTop ∧
    Tendsto x atTop (𝓝 ((1 / 3 : ℝ) : ℂ)) ∧ ∀ k, Fdm.invert env exactSolver (scal c) (scal 0)
    (scal ((0 : ℤ) : ℝ)) (some (scal 0)) (fdmTipArr 1 300 Complex.I 1 (1 / 2)) (some 8) (some (J k))
    { betaThreshold := some 1 } = .ok (M k) ∧ FP.num (x k) ∈ (M k).unmasked (fun _ => 0) := by
  obtain ⟨c, h⟩ := example_c69_conv env
  have h' : ∀ k : ℕ, ∃ (J : ℕ) (M : Masked) (x : ℂ), k ≤ J ∧ Fdm.invert env exactSolver (scal c) (scal 0)
      (scal ((0 : ℤ) : ℝ)) (some (scal 0)) (fdmTipArr 1 300 Complex.I 1 (1 / 2)) (some 8) (some J)
      { betaThreshold := some 1 } = .ok M ∧ FP.num x ∈ M.unmasked (fun _ => 0) ∧
      ‖x - ((1 / 3 : ℝ) : ℂ)‖ < 1 / ((k : ℝ) + 1) := fun k => by
    obtain ⟨J, ⟨M, x, h1⟩, h2⟩ := ((h _ (by positivity : 0 < 1 / ((k : ℝ) + 1))).and (eventually_ge_atTop k)).exists
    exact ⟨J, M, x, h2, h1⟩
  choose J M x h1 h2 h3 h4 using h'
  refine ⟨c, J, M, x, tendsto_atTop_mono h1 tendsto_id, ?_, fun k => ⟨h2 k, h3 k⟩⟩
  rw [tendsto_iff_norm_sub_tendsto_zero]
  exact squeeze_zero (fun _ => norm_nonneg _) (fun k => (h4 k).le) tendsto_one_div_add_atTop_nhds_zero_nat

section Pdm

variable (env : Env) {sv : Solver} (hs : sv.Correct) (z r : ℝ) (α : ℂ) (hα : α ≠ 0) (h : 0 < r + z) (A : ℝ)
  (hA : 0 ≤ A) (n : ℝ) (N : ℕ) (hN : N ≠ 0)

include h hA hN hα in
theorem pdm_tendsto {s : Stack (FP ℝ) (FP ℂ)} {b c : ℂ} (hb : s.reflCoefQs = .ok (FP.num b))
    (hd : ∀ x, z ≤ x → x ≤ z + 2 * A → ‖b * Pdm.geom x r α‖ < 1)
    (hc : Pdm.effPolN env s (FP.num A) (FP.num n) (some (FP.num z)) (some N) (tip r α) = .ok (FP.num c)) :
    Tendsto (fun J => ∑ j ∈ Finset.range J, Pdm.coef z j A n r α N * b ^ j) atTop (𝓝 (c / α)) := by
  obtain ⟨c', h2, h3⟩ := C48_partial env s b hb z r α hα h A hA hd n N hN
  rw [hc, Except.ok.injEq, FP.num_inj] at h2
  subst h2
  exact evalTendsto_unique (fun J => taylor_pdm_num env s α b hb h hA n hN J) h3

include h hA hN in
theorem pdm_isSeries (J : ℕ) : IsSeries (Pdm.coefAt env (scal A) (scal n) (some (scal z)) (tipArr r α) (some N)
    fun _ => 0) J (∑ j ∈ Finset.range J, monomial j (Pdm.coef z j A n r α N)) := by
  refine ⟨polynomial_degree_lt J _, fun j hj => ?_⟩
  rw [polynomial_coeff _ hj]
  exact Pdm.taylorCoef_num env h α j hA n hN

include hs h hA hN hα

/-- For the point dipole model this holds of the signal divided by `alpha_tip` only, see `C69_pdm_false`. -/
theorem C69_pdm_partial (s s' : Stack (FP ℝ) (FP ℂ)) (b w c c' : ℂ)
    (hb : s.reflCoefQs = .ok (FP.num b)) (hw : s'.reflCoefQs = .ok (FP.num w))
    (hdb : ∀ x, z ≤ x → x ≤ z + 2 * A → ‖b * Pdm.geom x r α‖ < 1)
    (hdw : ∀ x, z ≤ x → x ≤ z + 2 * A → ‖w * Pdm.geom x r α‖ < 1)
    (hc : Pdm.effPolN env s (FP.num A) (FP.num n) (some (FP.num z)) (some N) (tip r α) = .ok (FP.num c))
    (hc' : Pdm.effPolN env s' (FP.num A) (FP.num n) (some (FP.num z)) (some N) (tip r α) = .ok (FP.num c'))
    (hne : c' ≠ c) (v : InvArgs) (henv : (v.envEps env).rshape = [])
    (hacc : ∀ᶠ x in 𝓝 b, v.Accepts env (fun _ => 0) x) (ε : ℝ) (hε : 0 < ε) :
    ∀ᶠ J in atTop, ∃ M x, Pdm.invert env sv (scal (c / α)) (scal A) (scal n) (some (scal z)) (tipArr r α)
        (some N) (some J) v = .ok M ∧ FP.num x ∈ M.unmasked (fun _ => 0) ∧ ‖x - b‖ < ε := by
  obtain ⟨R, hbR, hwR, hsum⟩ := Pdm.summable_coef h hA n N hdb hdw
  have tb := pdm_tendsto env z r α hα h A hA n N hN hb hdb hc
  have tw := pdm_tendsto env z r α hα h A hA n N hN hw hdw hc'
  have eb := tsum_eq_of_tendsto hsum hbR tb
  have ew := tsum_eq_of_tendsto hsum hwR tw
  have hne' : c' / α ≠ c / α := fun h => hne ((div_left_inj' hα).1 h)
  obtain ⟨δ, hδ, hball⟩ := Metric.eventually_nhds_iff.1 hacc
  filter_upwards [hurwitz_series hsum hbR hwR (by rw [eb, ew]; exact hne') (lt_min hε hδ), eventually_gt_atTop 0,
    tw.eventually_ne hne'] with J ⟨x, hx, hroot⟩ hJ hnc
  rw [eb] at hroot
  have hp := pdm_isSeries env z r α h A hA n N hN J
  set p := ∑ j ∈ Finset.range J, monomial j (Pdm.coef z j A n r α N) with hpdef
  have heval : ∀ y, p.eval y = ∑ j ∈ Finset.range J, Pdm.coef z j A n r α N * y ^ j := fun y => by
    rw [hpdef, eval_finsetSum]
    simp only [eval_monomial]
  have hsh : Pdm.invShape (scal (c / α)) (scal A) (scal n) (some (scal z)) (tipArr r α) = some [] := rfl
  obtain ⟨M, hM⟩ := C51_pdm_ok (env := env) (sv := sv) hs (α := scal (c / α)) (aTip := scal A) (n := scal n)
    (z := some (scal z)) (a := tipArr r α) (nTrapz := some N) (nTayl := some J) (v := v) hsh
    (inBounds_nil _) (by rw [henv]; rfl) p.natDegree hJ fun i _ => ⟨c / α, p, rfl, hp, rfl⟩
  refine ⟨M, x, hM, ?_, hx.trans_le (min_le_left _ _)⟩
  refine (C51_pdm_partial hs hM hsh (inBounds_nil _) (by rw [henv]; rfl) (c := c / α) rfl hp ?_
    (fun hd => ⟨c / α, p, rfl, hp, hd⟩) x).1 (by rw [heval, hroot]) (hball ?_)
  · intro h
    apply hnc
    rw [← heval, h, eval_C]
  · rw [dist_eq_norm]
    exact hx.trans_le (min_le_right _ _)

/-- The inversion of the signal itself misses the sample by a finite distance, however many terms are used, unless the
signal vanishes or `alpha_tip` is 1. -/
theorem C69_pdm_false (s : Stack (FP ℝ) (FP ℂ)) (b c : ℂ) (hb : s.reflCoefQs = .ok (FP.num b))
    (hdb : ∀ x, z ≤ x → x ≤ z + 2 * A → ‖b * Pdm.geom x r α‖ < 1)
    (hc : Pdm.effPolN env s (FP.num A) (FP.num n) (some (FP.num z)) (some N) (tip r α) = .ok (FP.num c))
    (hc0 : c ≠ 0) (hα1 : α ≠ 1) (v : InvArgs) :
    ∃ ε > 0, ∀ᶠ J in atTop, ∀ M, Pdm.invert env sv (scal c) (scal A) (scal n) (some (scal z)) (tipArr r α)
      (some N) (some J) v = .ok M → ∀ x, FP.num x ∈ M.unmasked (fun _ => 0) → ε ≤ ‖x - b‖ := by
  obtain ⟨R, hbR, -, hsum⟩ := Pdm.summable_coef h hA n N hdb hdb
  have eb := tsum_eq_of_tendsto hsum hbR (pdm_tendsto env z r α hα h A hA n N hN hb hdb hc)
  obtain ⟨ε, hε, hav⟩ := series_avoids hsum hbR (v := c) (by
    rw [eb, Ne, div_eq_iff hα]
    intro e
    apply hα1
    have : c * (α - 1) = 0 := by linear_combination -e
    exact sub_eq_zero.1 ((mul_eq_zero.1 this).resolve_left hc0))
  refine ⟨ε, hε, ?_⟩
  filter_upwards [hav] with J hJ M hM x hx
  by_contra hlt
  refine hJ x (not_le.1 hlt) ?_
  obtain ⟨β', c'', p, e1, e2, e3, e4, _⟩ := inverts_sound hs (pdm_inverts hM) hM (s0 := []) rfl (inBounds_nil _) hx
  rw [FP.num_inj] at e1
  subst e1
  have e5 : c = c'' := FP.num_inj.1 e2
  rw [e5, ← e4]
  exact series_of_isSeries (pdm_isSeries env z r α h A hA n N hN J) e3 _

end Pdm

theorem example_c69_pdm (env : Env) (b : ℂ) (hb : ‖b‖ < 1) (s : Stack (FP ℝ) (FP ℂ))
    (h : s.reflCoefQs = .ok (FP.num b)) : (∀ x, 0 ≤ x → x ≤ 0 + 2 * (0 : ℝ) → ‖b * Pdm.geom x 1 5‖ < 1) ∧
    Pdm.effPolN env s (FP.num 0) (FP.num 0) (some (FP.num 0)) (some 8) (tip 1 5) =
      .ok (FP.num (5 * (1 - b * Pdm.geom 0 1 5)⁻¹)) := by
  have hlt : ∀ x, 0 ≤ x → x ≤ 0 + 2 * (0 : ℝ) → ‖b * Pdm.geom x 1 5‖ < 1 := fun x hx hx' => by
    obtain rfl : x = 0 := by linarith
    unfold Pdm.geom
    rw [norm_mul]
    have hg : ‖(5 / (16 * Real.pi * ((1 : ℝ) + (0 : ℝ) : ℂ) ^ 3) : ℂ)‖ ≤ 1 := by
      have hp := Real.two_le_pi
      rw [show (5 / (16 * Real.pi * ((1 : ℝ) + (0 : ℝ) : ℂ) ^ 3) : ℂ) = ((5 / (16 * Real.pi) : ℝ) : ℂ) by
        push_cast; ring_nf, Complex.norm_real, Real.norm_eq_abs, abs_of_pos (by positivity),
        div_le_one (by positivity)]
      linarith
    calc _ ≤ ‖b‖ * 1 := by gcongr
      _ < 1 := by rwa [mul_one]
  refine ⟨hlt, ?_⟩
  rw [pdm_effPolN_num env s b h 0 1 5 (by norm_num) 0 le_rfl hlt 0 8 (by norm_num)]
  congr 2
  rw [demodSum_congr (g' := fun _ => 5 * (1 - b * Pdm.geom 0 1 5)⁻¹) le_rfl _ 8 fun x h1 h2 => by
    rw [show x = 0 by linarith]]
  have := demodSum_const (5 * (1 - b * Pdm.geom 0 1 5)⁻¹) (0 + 0) 0 0 (N := 8) (by norm_num) (.inl rfl)
  rw [if_pos rfl, Int.cast_zero] at this
  exact this

example (env : Env) : ∃ c : ℂ, (∀ ε > 0, ∀ᶠ J in atTop, ∃ M x, Pdm.invert env exactSolver (scal (c / 5)) (scal 0)
    (scal 0) (some (scal 0)) (tipArr 1 5) (some 8) (some J)
    { betaThreshold := some 1 } = .ok M ∧ FP.num x ∈ M.unmasked (fun _ => 0) ∧ ‖x - ((1 / 3 : ℝ) : ℂ)‖ < ε) ∧
    ∃ ε > 0, ∀ᶠ J in atTop, ∀ M, Pdm.invert env exactSolver (scal c) (scal 0) (scal 0) (some (scal 0)) (tipArr 1 5)
      (some 8) (some J) {} = .ok M → ∀ x, FP.num x ∈ M.unmasked (fun _ => 0) → ε ≤ ‖x - ((1 / 3 : ℝ) : ℂ)‖ := by
  obtain ⟨h1, h2⟩ := example_c69_pdm env ((1 / 3 : ℝ) : ℂ) (by norm_num) _ example_refl_2
  obtain ⟨h3, h4⟩ := example_c69_pdm env 0 (by norm_num) _ example_refl_1
  have hg : Pdm.geom 0 1 5 ≠ 0 := Pdm.geom_ne_zero (by norm_num) (by norm_num)
  have hd : 1 - ((1 / 3 : ℝ) : ℂ) * Pdm.geom 0 1 5 ≠ 0 := sub_ne_zero.2 fun h => by
    have := h1 0 le_rfl (by norm_num)
    rw [← h, norm_one] at this
    exact lt_irrefl _ this
  refine ⟨_, fun ε hε => C69_pdm_partial env exactSolver_correct 0 1 5 (by norm_num) (by norm_num) 0 le_rfl 0 8
    (by norm_num) _ _ _ _ _ _ example_refl_2 example_refl_1 h1 h3 h2 h4 ?_ { betaThreshold := some 1 } rfl
    (C69_accepts env _ env.defaults.epsEnv _ _ rfl ?_ ?_ nofun nofun) ε hε,
    C69_pdm_false env exactSolver_correct 0 1 5 (by norm_num) (by norm_num) 0 le_rfl 0 8
    (by norm_num) _ _ _ example_refl_2 h1 h2 (mul_ne_zero (by norm_num) (inv_ne_zero hd)) (by norm_num) _⟩
  · intro h
    rw [mul_right_inj' (by norm_num), inv_inj, zero_mul, sub_right_inj, eq_comm, mul_eq_zero] at h
    rcases h with h | h
    · norm_num at h
    · exact hg h
  · norm_num [InvArgs.thr]
  · norm_num [Complex.ext_iff]

end Snompy.Props
