import Verif.Props.Taylor

/-!
# C71: the Taylor series of a layered sample

`fdm.eff_pol_n_taylor(method="Q_ave")` evaluates the charge-averaged reflection coefficient once, at the lowest
position of the tip, while `fdm.eff_pol_n(method="Q_ave")` evaluates it at every position of the oscillating tip.
-/

namespace Snompy.Props

open Snompy Filter Topology Finset

/-! ## C71 The Taylor series of a layered sample converges to eff_pol_n

Full statement (false, see `C71_false`): if the series converges, it converges to `eff_pol_n` with the same
method.  True is that it converges to `eff_pol_n` of the bulk sample that reflects as the layered one does seen from
the lowest position of the tip. -/

/-- Whatever the arguments, the series of a layered sample is the series of any bulk sample whose reflection coefficient
is the charge average at the lowest position of the tip. -/
theorem C71_frozen (env : Env) (s s' : Stack (FP ℝ) (FP ℂ)) (hs' : s'.eps.length ≤ 2) (A n z r dA : FP ℝ)
    (a : FdmArgs (FP ℝ) (FP ℂ)) (nLag nT nTayl : Option ℕ)
    (hβ : s'.reflCoefQs = s.reflCoefQsAboveSurf env (z + r * dA) nLag) :
    Fdm.effPolNTaylor env s A n (some z) { a with rTip := some r, dQa := some dA } nLag (some "Q_ave") nT nTayl =
      Fdm.effPolNTaylor env s' A n (some z) { a with rTip := some r, dQa := some dA } nLag (some "bulk") nT
        nTayl := by
  have hm : s'.multilayer = false := by
    unfold Stack.multilayer Stack.nLayers
    simpa using hs'
  unfold Fdm.effPolNTaylor
  have e : Fdm.taylorBeta env s z (env.defaults.fdm { a with rTip := some r, dQa := some dA }) nLag
      (some "Q_ave") = Fdm.taylorBeta env s' z
        (env.defaults.fdm { a with rTip := some r, dQa := some dA }) nLag (some "bulk") := by
    unfold Fdm.taylorBeta
    simp [hm, hβ, Defaults.fdm]
  simp only [Option.getD_some]
  rw [e]

/-- `eff_pol_n` where the charge average at distance `x` is `B x`. -/
theorem effPolN_qave (env : Env) (s : Stack (FP ℝ) (FP ℂ)) (B : ℝ → ℂ) (z r l : ℝ) (g : ℂ) (d0 d1 dA : ℝ)
    (h0 : Fdm.GeomOk z d0 r l) (h1 : Fdm.GeomOk z d1 r l) (A : ℝ) (hA : 0 ≤ A) (nLag : Option ℕ)
    (hB : ∀ x, z ≤ x → x ≤ z + 2 * A →
      s.reflCoefQsAboveSurf env (FP.num (x + r * dA)) nLag = .ok (FP.num (B x)))
    (hd : ∀ x, z ≤ x → x ≤ z + 2 * A → B x * Fdm.geom x d1 r l g ≠ 1) (n : ℝ) (N : ℕ) (hN : N ≠ 0) :
    Fdm.effPolN env s (FP.num A) (FP.num n) (some (FP.num z)) (some N) (fdmTip r l g d0 d1 dA) nLag
        (some "Q_ave") =
      .ok (FP.num (demodSum
        (fun x => 1 + B x * Fdm.geom x d0 r l g / (2 * (1 - B x * Fdm.geom x d1 r l g))) (z + A) A n N)) := by
  have hval : ∀ x, z ≤ x → x ≤ z + 2 * A →
      Fdm.effPol env s (some (FP.num x)) (fdmTip r l g d0 d1 dA) nLag (some "Q_ave") =
        .ok (FP.num (1 + B x * Fdm.geom x d0 r l g / (2 * (1 - B x * Fdm.geom x d1 r l g)))) := by
    intro x hx hx'
    rw [Fdm.effPol_Qave env s, fdm_fdmTip]
    simp only [Option.getD_some, FP.num_mul, FP.num_add]
    rw [hB x hx hx', PyM.ok_bind, Fdm.geomFunc_num (h0.mono hx), Fdm.geomFunc_num (h1.mono hx),
      Fdm.formula_num _ _ _ _ (sub_ne_zero.2 (hd x hx hx').symm)]
  unfold Fdm.effPolN
  simp only [Option.getD_some, FP.num_add]
  exact demod_eval env _ _ _ _ _ (some N) hN ⟨_, hval _ (by linarith) (by linarith)⟩ fun θ =>
    hval _ (by nlinarith [Real.neg_one_le_cos θ]) (by nlinarith [Real.cos_le_one θ])

/-- What is true: the limit is `eff_pol_n` of the bulk sample `s'` that reflects like `s` seen from the lowest position
of the tip (missing: it is not `eff_pol_n` of `s` itself). -/
theorem C71_partial (env : Env) (s s' : Stack (FP ℝ) (FP ℂ)) (hs' : s'.eps.length ≤ 2) (β : ℂ)
    (hβ' : s'.reflCoefQs = .ok (FP.num β)) (z r l : ℝ) (g : ℂ) (d0 d1 dA : ℝ) (nLag : Option ℕ)
    (hβ : s.reflCoefQsAboveSurf env (FP.num (z + r * dA)) nLag = .ok (FP.num β))
    (h0 : Fdm.GeomOk z d0 r l) (h1 : Fdm.GeomOk z d1 r l) (A : ℝ) (hA : 0 ≤ A)
    (hd : ∀ x, z ≤ x → x ≤ z + 2 * A → ‖β * Fdm.geom x d1 r l g‖ < 1) (n : ℤ) (N : ℕ)
    (hN : N ≠ 0) (hn : n = 0 ∨ ¬ (N : ℤ) ∣ n) :
    ∃ v, Fdm.effPolN env s' (FP.num A) (FP.num n) (some (FP.num z)) (some N) (fdmTip r l g d0 d1 dA) nLag
        (some "bulk") = .ok (FP.num v) ∧
      EvalTendsto (fun J : ℕ => Fdm.effPolNTaylor env s (FP.num A) (FP.num n) (some (FP.num z))
        (fdmTip r l g d0 d1 dA) nLag (some "Q_ave") (some N) (some J)) atTop v := by
  obtain ⟨v, hv, ht⟩ := C47_converges env s' hs' β hβ' z r l g d0 d1 dA h0 h1 A hA hd nLag n N hN hn
  refine ⟨v, hv, ?_⟩
  have e : ∀ J : ℕ, Fdm.effPolNTaylor env s (FP.num A) (FP.num n) (some (FP.num z))
      (fdmTip r l g d0 d1 dA) nLag (some "Q_ave") (some N) (some J) = _ := fun J =>
    C71_frozen env s s' hs' (FP.num A) (FP.num n) (FP.num z) (FP.num r) (FP.num dA) (fdmTip r l g d0 d1 dA)
      nLag (some N) (some J) (by rw [hβ']; exact hβ.symm)
  simp only [e]
  exact ht

/-- Two samples per period: the difference between the upper and the lower turning point. -/
theorem demodSum_two (f : ℝ → ℂ) (x0 A : ℝ) :
    demodSum f x0 A ((1 : ℤ) : ℝ) 2 = (f (x0 + A) - f (x0 - A)) / 2 := by
  unfold demodSum
  rw [sum_range_succ, sum_range_one]
  have p0 : phase 2 0 = -Real.pi := by simp [phase]
  have p1 : phase 2 (0 + 1) = 0 := by simp [phase]
  have p2 : phase 2 (1 + 1) = Real.pi := by
    simp [phase]
    ring
  have w0 : wave f x0 A ((1 : ℤ) : ℝ) (phase 2 0) = -f (x0 - A) := by
    unfold wave
    rw [p0, Real.cos_neg, Real.cos_pi]
    simp only [Int.cast_one, Complex.ofReal_one, Complex.ofReal_neg, mul_one, mul_neg, neg_mul, neg_neg]
    rw [mul_comm Complex.I, Complex.exp_pi_mul_I, one_mul, ← sub_eq_add_neg, mul_neg, mul_one]
  have w1 : wave f x0 A ((1 : ℤ) : ℝ) (phase 2 (0 + 1)) = f (x0 + A) := by
    unfold wave
    rw [p1]
    simp
  have w2 : wave f x0 A ((1 : ℤ) : ℝ) (phase 2 (1 + 1)) = -f (x0 - A) := by
    unfold wave
    rw [p2, Real.cos_pi]
    simp only [Int.cast_one, Complex.ofReal_one, mul_one, neg_mul]
    rw [Complex.exp_neg, mul_comm Complex.I, Complex.exp_pi_mul_I, one_mul, ← sub_eq_add_neg]
    simp
  rw [w0, w1, w2]
  push_cast
  ring

/-- How far from true it is: with two samples per period the limit at the first harmonic differs from `eff_pol_n` for
*every* sample whose charge averages at the two turning points differ (unless the tip does not respond to the
sample there at all, or the lower average is exactly -1, which no bulk sample has). -/
theorem C71_differs (env : Env) (s : Stack (FP ℝ) (FP ℂ)) (B : ℝ → ℂ) (z r l : ℝ) (g : ℂ) (d0 d1 dA : ℝ)
    (h0 : Fdm.GeomOk z d0 r l) (h1 : Fdm.GeomOk z d1 r l) (A : ℝ) (hA : 0 ≤ A) (nLag : Option ℕ)
    (hB : ∀ x, z ≤ x → x ≤ z + 2 * A →
      s.reflCoefQsAboveSurf env (FP.num (x + r * dA)) nLag = .ok (FP.num (B x)))
    (hd : ∀ x, z ≤ x → x ≤ z + 2 * A → ‖B z * Fdm.geom x d1 r l g‖ < 1)
    (hd' : ∀ x, z ≤ x → x ≤ z + 2 * A → B x * Fdm.geom x d1 r l g ≠ 1)
    (hm1 : B z ≠ -1) (hne : B z ≠ B (z + 2 * A)) (hg : Fdm.geom (z + 2 * A) d0 r l g ≠ 0) :
    ∃ v w, Fdm.effPolN env s (FP.num A) (FP.num ((1 : ℤ) : ℝ)) (some (FP.num z)) (some 2)
        (fdmTip r l g d0 d1 dA) nLag (some "Q_ave") = .ok (FP.num v) ∧
      EvalTendsto (fun J : ℕ => Fdm.effPolNTaylor env s (FP.num A) (FP.num ((1 : ℤ) : ℝ)) (some (FP.num z))
        (fdmTip r l g d0 d1 dA) nLag (some "Q_ave") (some 2) (some J)) atTop w ∧ w ≠ v := by
  -- a bulk sample that reflects as `B z`
  obtain ⟨s', hs', hβ'⟩ : ∃ s' : Stack (FP ℝ) (FP ℂ), s'.eps.length ≤ 2 ∧
      s'.reflCoefQs = .ok (FP.num (B z)) := by
    refine ⟨bulk (1 - B z) (1 + B z), le_rfl, ?_⟩
    rw [C09_refl _ _ _ _ (fun h => hm1 (by linear_combination h))
      (by rw [show 1 + B z + (1 - B z) = 2 by ring]; norm_num)]
    congr 2
    rw [div_eq_iff (by rw [show 1 + B z + (1 - B z) = 2 by ring]; norm_num)]
    ring
  obtain ⟨w, hw, ht⟩ := C71_partial env s s' hs' (B z) hβ' z r l g d0 d1 dA nLag
    (hB z le_rfl (by linarith)) h0 h1 A hA hd 1 2 two_ne_zero (.inr (by norm_num))
  refine ⟨_, w, effPolN_qave env s B z r l g d0 d1 dA h0 h1 A hA nLag hB hd' _ 2 two_ne_zero, ht, ?_⟩
  have hm : s'.multilayer = false := by
    unfold Stack.multilayer Stack.nLayers
    simpa using hs'
  have hdz : ∀ x, z ≤ x → x ≤ z + 2 * A → B z * Fdm.geom x d1 r l g ≠ 1 := fun x hx hx' h => by
    have := hd x hx hx'
    rw [h, norm_one] at this
    exact lt_irrefl _ this
  rw [effPolN_num env s' hm (B z) hβ' z r l g d0 d1 dA h0 h1 A hA hdz nLag _ 2 two_ne_zero] at hw
  simp only [Except.ok.injEq, FP.num_inj] at hw
  rw [← hw, demodSum_two, demodSum_two, add_sub_cancel_right, add_assoc, ← two_mul]
  have e1 : 1 - B z * Fdm.geom (z + 2 * A) d1 r l g ≠ 0 :=
    sub_ne_zero.2 (hdz _ (by linarith) le_rfl).symm
  have e2 : 1 - B (z + 2 * A) * Fdm.geom (z + 2 * A) d1 r l g ≠ 0 :=
    sub_ne_zero.2 (hd' _ (by linarith) le_rfl).symm
  generalize Fdm.geom (z + 2 * A) d1 r l g = f1 at *
  generalize Fdm.geom (z + 2 * A) d0 r l g = f0 at *
  intro h
  have h2 : B z * f0 / (2 * (1 - B z * f1)) = B (z + 2 * A) * f0 / (2 * (1 - B (z + 2 * A) * f1)) := by
    linear_combination 2 * h
  rw [div_eq_div_iff (mul_ne_zero two_ne_zero e1) (mul_ne_zero two_ne_zero e2)] at h2
  apply hne
  have h3 : f0 * (B z - B (z + 2 * A)) = 0 := by linear_combination h2 / 2
  exact sub_eq_zero.1 ((mul_eq_zero.1 h3).resolve_left hg)

/-- The first-order Gauss-Laguerre rule. -/
def rule1 (d : Defaults) : Env := ⟨d, fun _ => [(1, 1)]⟩

theorem rule1_ok (d : Defaults) : (rule1 d).RuleOk (some 1) := by
  refine ⟨one_ne_zero, ⟨rfl, by simp [rule1], by simp [rule1], fun k hk => ?_⟩⟩
  have hk : k < 2 := hk
  interval_cases k <;> simp [rule1]

/-- The charge average over a free-standing slab in the witness below. -/
noncomputable def slabAverage (x : ℝ) : ℝ :=
  1 / 2 * (1 - Real.exp (-(1 / 2) / (x + 1))) / (1 - 1 / 4 * Real.exp (-(1 / 2) / (x + 1)))

theorem slab_above_surf (d : Defaults) (x : ℝ) (hx : 0 ≤ x) :
    (layered 1 [(3, 1 / 2)] 1).reflCoefQsAboveSurf (rule1 d) (FP.num (x + 1 * 1)) (some 1) =
      .ok (FP.num (slabAverage x : ℂ)) := by
  have hx1 : 0 < x + 1 * 1 := by linarith
  rw [aboveSurf_num (rule1 d) (layered 1 [(3, 1 / 2)] 1) (fun q =>
    ((1 / 2 - 1 / 2 * (Real.exp (-(q * (1 / 2))) : ℂ) ^ 2) /
        (1 + 1 / 2 * (-1 / 2) * (Real.exp (-(q * (1 / 2))) : ℂ) ^ 2))) (x + 1 * 1) hx1.ne' (some 1) one_ne_zero]
  · simp only [rule1, List.map_cons, List.map_nil, List.sum_cons, List.sum_nil]
    congr 2
    have e : (Real.exp (-(1 / (2 * (x + 1 * 1)) * (1 / 2))) : ℂ) ^ 2 =
        (Real.exp (-(1 / 2) / (x + 1)) : ℂ) := by
      rw [← Complex.ofReal_pow, ← Real.exp_nat_mul]
      congr 2
      push_cast
      field_simp
    rw [e]
    unfold slabAverage
    push_cast
    ring
  · exact reflCoefQs_ok _ (by simp [layered]) _
  · intro xw hxw
    have : xw = (1, 1) := by simpa [rule1] using hxw
    subst this
    refine slab_refl _ _ (by positivity) (by norm_num) ?_
    have h709 := maxExpArg_gt
    have : 1 / (2 * (x + 1 * 1)) ≤ 1 := by
      rw [div_le_one (by linarith)]
      linarith
    linarith

theorem slabAverage_bound (x : ℝ) (hx : 0 ≤ x) : 0 < slabAverage x ∧ slabAverage x ≤ 1 / 3 := by
  have h1 : Real.exp (-(1 / 2) / (x + 1)) < 1 := by
    rw [Real.exp_lt_one_iff]
    apply div_neg_of_neg_of_pos <;> linarith
  have h2 : 1 / 2 ≤ Real.exp (-(1 / 2) / (x + 1)) := by
    have := Real.add_one_le_exp (-(1 / 2) / (x + 1))
    have h3 : -(1 / 2) ≤ -(1 / 2) / (x + 1) := by
      rw [le_div_iff₀ (by linarith)]
      linarith
    linarith
  unfold slabAverage
  generalize Real.exp (-(1 / 2) / (x + 1)) = E at *
  constructor
  · apply div_pos <;> linarith
  · rw [div_le_div_iff₀ (by linarith) (by norm_num)]
    linarith

theorem slabAverage_ne {x y : ℝ} (hx : 0 ≤ x) (hxy : x < y) : slabAverage x ≠ slabAverage y := by
  have h1 : ∀ x : ℝ, 0 ≤ x → Real.exp (-(1 / 2) / (x + 1)) < 1 := fun x hx => by
    rw [Real.exp_lt_one_iff]
    apply div_neg_of_neg_of_pos <;> linarith
  have h2 : Real.exp (-(1 / 2) / (x + 1)) < Real.exp (-(1 / 2) / (y + 1)) := by
    apply Real.exp_lt_exp.2
    rw [div_lt_div_iff₀ (by linarith) (by linarith)]
    linarith
  have hx1 := h1 x hx
  have hy1 := h1 y (by linarith)
  unfold slabAverage
  generalize Real.exp (-(1 / 2) / (x + 1)) = E at *
  generalize Real.exp (-(1 / 2) / (y + 1)) = F at *
  rw [Ne, div_eq_div_iff (by linarith) (by linarith)]
  intro h
  linarith

theorem slab_norm_lt (x y : ℝ) (hy : 0 ≤ y) (hx : 0 ≤ x) (hx' : x ≤ 0 + 2 * 2) :
    ‖(slabAverage y : ℂ) * Fdm.geom x (1 / 2) 1 300 Complex.I‖ < 1 := by
  refine lt_of_le_of_lt ?_ (example_norm_lt x hx hx')
  obtain ⟨h1, h2⟩ := slabAverage_bound y hy
  rw [norm_mul, norm_mul]
  apply mul_le_mul_of_nonneg_right _ (norm_nonneg _)
  rw [Complex.norm_real, Complex.norm_real, Real.norm_eq_abs, Real.norm_eq_abs, abs_of_pos h1,
    abs_of_pos (by norm_num)]
  exact h2

theorem slab_geom_ne : Fdm.geom (0 + 2 * 2) 1 1 300 Complex.I ≠ 0 := by
  unfold Fdm.geom
  have h1 : Real.log (4 * 300 / (1 + 4 * (0 + 2 * 2) + 2 * 1 * 1)) ≠ 0 :=
    Real.log_ne_zero_of_pos_of_ne_one (by norm_num) (by norm_num)
  have h2 : Real.log (4 * 300 / 1) ≠ 0 :=
    Real.log_ne_zero_of_pos_of_ne_one (by norm_num) (by norm_num)
  refine div_ne_zero (mul_ne_zero ?_ (by exact_mod_cast h1)) (by exact_mod_cast h2)
  intro h
  have := congrArg Complex.im h
  rw [Complex.sub_im, Complex.ofReal_im] at this
  simp at this

/-- The hypotheses of `C71_partial` are met by the same sample. -/
example (d : Defaults) (s' : Stack (FP ℝ) (FP ℂ)) (hs' : s'.eps.length ≤ 2)
    (h : s'.reflCoefQs = .ok (FP.num (slabAverage 0 : ℂ))) :=
  C71_partial (rule1 d) (layered 1 [(3, 1 / 2)] 1) s' hs' _ h 0 1 300 Complex.I 1 (1 / 2) 1 (some 1)
  (slab_above_surf d 0 le_rfl) example_geomOk.1 example_geomOk.2 2 (by norm_num)
  (fun x hx hx' => slab_norm_lt x 0 le_rfl hx hx') 3 8 (by norm_num) (.inr (by norm_num))

/-- The statement is false: a free-standing slab, two samples per period, one quadrature node. -/
theorem C71_false : ¬ ∀ (env : Env) (e : ℂ) (L : List (ℂ × ℝ)) (sub : ℂ) (nLag : ℕ) (z r l : ℝ) (g : ℂ)
    (d0 d1 dA A : ℝ) (n : ℤ) (N : ℕ) (v w : ℂ),
    env.RuleOk (some nLag) → Passive e → Passive sub → (∀ p ∈ L, Passive p.1 ∧ 0 < p.2) →
    Fdm.GeomOk z d0 r l → Fdm.GeomOk z d1 r l → 0 ≤ A → N ≠ 0 → ¬ (N : ℤ) ∣ n →
    Fdm.effPolN env (layered e L sub) (FP.num A) (FP.num n) (some (FP.num z)) (some N)
      (fdmTip r l g d0 d1 dA) (some nLag) (some "Q_ave") = .ok (FP.num v) →
    EvalTendsto (fun J : ℕ => Fdm.effPolNTaylor env (layered e L sub) (FP.num A) (FP.num n) (some (FP.num z))
      (fdmTip r l g d0 d1 dA) (some nLag) (some "Q_ave") (some N) (some J)) atTop w →
    w = v := by
  intro h
  obtain ⟨v, w, hv, hw, hne⟩ := C71_differs (rule1 Defaults.initial) (layered 1 [(3, 1 / 2)] 1)
      (fun x => (slabAverage x : ℂ)) 0 1 300 Complex.I 1 (1 / 2) 1 example_geomOk.1 example_geomOk.2 2
      (by norm_num) (some 1) (fun x hx _ => slab_above_surf _ x hx)
      (fun x hx hx' => slab_norm_lt x 0 le_rfl hx hx')
      (fun x hx hx' h => by
        have := slab_norm_lt x x hx hx hx'
        rw [h, norm_one] at this
        exact lt_irrefl _ this)
      (fun h => by
        have h0 := (slabAverage_bound 0 le_rfl).1
        have := congrArg Complex.re h
        simp at this
        linarith)
      (fun h => slabAverage_ne le_rfl (by norm_num : (0 : ℝ) < 0 + 2 * 2) (Complex.ofReal_injective h))
      slab_geom_ne
  exact hne (h (rule1 Defaults.initial) 1 [(3, 1 / 2)] 1 1 0 1 300 Complex.I 1 (1 / 2) 1 2 1 2 v w
    (rule1_ok _) (by simp [Passive]) (by simp [Passive]) (by simp [Passive]) example_geomOk.1 example_geomOk.2
    (by norm_num) two_ne_zero (by norm_num) hv hw)

end Snompy.Props
