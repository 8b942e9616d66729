import Verif.Lemmas.DoubleNan

/-!
# C82: thick layers in double precision

The code clips the exponent of a layer at the logarithm of the largest double.  The property says that this keeps the
quasistatic reflection coefficient usable for layers of any thickness.  It is false: the product of the transfer
matrices still overflows.  It holds for one layer between media of increasing permittivity.
-/

namespace Snompy.Props

open Snompy

variable {L : Libm}

/-- The property: for lossless media and any thickness the computed coefficient is a number close to the exact one. -/
def ThickLayersFine (refl : ℝ → List (ℝ × ℝ) → ℝ → ℝ → ℂ → Prop) : Prop :=
  ∀ (env : ℝ) (layers : List (ℝ × ℝ)) (sub q : ℝ) (r : ℂ), 0 ≤ q → (∀ l ∈ layers, 0 ≤ l.2) →
    (∀ e ∈ env :: (layers.map Prod.fst ++ [sub]), 1 ≤ e ∧ e ≤ 20) →
    (layered env (layers.map fun l => ((l.1 : ℂ), l.2)) sub).reflCoefQs (FP.num q) = .ok (FP.num r) →
    ∃ z, refl env layers sub q z ∧ ‖z - r‖ ≤ 1 / 10

/-- The computed coefficient is the number `z`; real arrays. -/
def reflIsF64 (L : Libm) (env : ℝ) (layers : List (ℝ × ℝ)) (sub q : ℝ) (z : ℂ) : Prop :=
  ∃ x : ℝ, z = x ∧ (layeredF64 L env layers sub).reflCoefQs (.fin q) = .ok (.fin x)

/-- The computed coefficient is the number `z`; complex arrays. -/
def reflIsC128 (L : Libm) (env : ℝ) (layers : List (ℝ × ℝ)) (sub q : ℝ) (z : ℂ) : Prop :=
  (layeredC128 L env (layers.map fun l => ((l.1 : ℂ), l.2)) sub).reflCoefQs (.fin q) = .ok ⟨.fin z.re, .fin z.im⟩

theorem moderate_real {e : ℝ} (h1 : 1 ≤ e) (h2 : e ≤ 2 ^ 500) : Moderate e := by
  unfold Moderate
  rw [Complex.norm_real, Real.norm_eq_abs, abs_of_nonneg (by linarith)]
  exact ⟨le_trans (pow_le_one₀ (by norm_num) (by norm_num)) h1, h2⟩

/-- The exact reflection of a thick suspended film is that of its surface. -/
theorem film_exact {e q t : ℝ} (he : 1 ≤ e) (hqt : 710 ≤ q * t) :
    ∃ r : ℝ, (layered 1 [((e : ℂ), t)] 1).reflCoefQs (FP.num q) = .ok (FP.num (r : ℂ)) ∧
      |r - (e - 1) / (e + 1)| ≤ 1 / 2 ^ 1000 := by
  obtain ⟨m0, m1⟩ := slab_mat 1 e 1 (clipped (q * t))
  have hq : qsMat q (1 : ℂ) [((e : ℂ), t)] 1 = gen ((1 : ℝ) : ℂ) [((e : ℂ), (clipped (q * t) : ℂ))] ((1 : ℝ) : ℂ) := by
    rw [Complex.ofReal_one]; rfl
  have hw : Real.exp (-(2 * clipped (q * t))) ≤ 1 / 2 ^ 1000 := by
    rw [clipped_thick hqt, Real.exp_neg, two_mul, Real.exp_add, exp_maxExpArg, ← one_div]
    refine one_div_le_one_div_of_le (by positivity) ?_
    have h1 := pow_le_max (n := 1000) (by norm_num)
    have h2 := F64.one_le_max
    generalize (2 : ℝ) ^ 1000 = P at h1
    nlinarith
  have hw1 : (1 : ℝ) / 2 ^ 1000 ≤ 1 := by
    rw [div_le_one (by positivity)]
    exact one_le_pow₀ (by norm_num)
  have hw0 := Real.exp_pos (-(2 * clipped (q * t)))
  have hE := Real.exp_pos (clipped (q * t))
  generalize Real.exp (clipped (q * t)) = E at *
  generalize Real.exp (-(2 * clipped (q * t))) = w at *
  generalize (1 : ℝ) / 2 ^ 1000 = P at *
  have he0 : 0 < e := by linarith
  have hd : 0 < (e + 1) ^ 2 - (e - 1) ^ 2 * w := by nlinarith [sq_nonneg (e - 1)]
  have hden : (1 + 1 / e) * (1 + e / 1) + (1 - 1 / e) * (1 - e / 1) * w = ((e + 1) ^ 2 - (e - 1) ^ 2 * w) / e := by
    field_simp; ring
  have hnum : (1 - 1 / e) * (1 + e / 1) + (1 + 1 / e) * (1 - e / 1) * w = ((e ^ 2 - 1) * (1 - w)) / e := by
    field_simp; ring
  rw [hden] at m0
  rw [hnum] at m1
  have hne : E / 4 * (((e + 1) ^ 2 - (e - 1) ^ 2 * w) / e) ≠ 0 := by positivity
  refine ⟨(e ^ 2 - 1) * (1 - w) / ((e + 1) ^ 2 - (e - 1) ^ 2 * w), ?_, ?_⟩
  · rw [reflCoefQs_num _ _ _ _ _ (by simpa using he0.ne') one_ne_zero (by
      rw [hq, m0]; exact_mod_cast hne), hq, m0, m1, ← Complex.ofReal_div, mul_div_mul_left _ _ (by positivity),
      div_div_div_cancel_right₀ he0.ne']
  · have h1 : (e ^ 2 - 1) * (1 - w) / ((e + 1) ^ 2 - (e - 1) ^ 2 * w) - (e - 1) / (e + 1) =
        -((e - 1) * (4 * e * w)) / ((e + 1) * ((e + 1) ^ 2 - (e - 1) ^ 2 * w)) := by
      rw [div_sub_div _ _ hd.ne' (by linarith), div_eq_div_iff (by positivity) (by positivity)]
      ring
    rw [h1, abs_div, abs_neg, abs_of_nonneg (mul_nonneg (by linarith) (by positivity)), abs_of_pos (by positivity)]
    refine le_trans ?_ hw
    rw [div_le_iff₀ (by positivity)]
    have h2 : 4 * e ≤ (e + 1) ^ 2 - (e - 1) ^ 2 * w := by nlinarith [sq_nonneg (e - 1)]
    calc (e - 1) * (4 * e * w) ≤ (e + 1) * (((e + 1) ^ 2 - (e - 1) ^ 2 * w) * w) :=
        mul_le_mul (by linarith) (mul_le_mul_of_nonneg_right h2 hw0.le) (by positivity) (by linarith)
      _ = _ := by ring

/-- Both kinds of arrays at once. -/
theorem film_refl {C : Type} [CplxOps (F64 L) ℤ C] (A : Arith L C) (O : Overflow A) (emb : ℂ → C) (e q t : ℝ)
    (h1 : A.Val (emb 1) 1) (he : A.Val (emb e) e) (hqt : 710 ≤ q * t) (hl : 3 / 2 ≤ e) (hm : Moderate e) :
    (e ≤ 4 → ∃ c, (Arith.layeredWith (L := L) emb 1 [((e : ℂ), t)] 1).reflCoefQs (.fin q) = .ok c ∧ A.Val c 0) ∧
    (5 ≤ e → (Arith.layeredWith (L := L) emb 1 [((e : ℂ), t)] 1).reflCoefQs (.fin q) = .ok O.nan) := by
  obtain ⟨X, hX, h00, h4, h5⟩ := A.film O emb e q t h1 he (clip64_thick hqt) hl hm
  constructor
  · intro h
    obtain ⟨z, hz, hz'⟩ := h4 h
    refine ⟨X.m10 / X.m00, ?_, ?_⟩
    · unfold Stack.reflCoefQs
      rw [hX]
      rfl
    · rw [h00]
      refine O.div_inf _ _ hz ?_
      rw [Complex.ofReal_re]
      have hu := uro_pos
      have hu' := uro_lt
      have he := eta_lt
      have hm := F64.one_le_max
      have : |z| * (1 + uro) ≤ 95 / 100 * maxDouble * (1 + 1 / 100) :=
        mul_le_mul hz' (by linarith) (by linarith) (by linarith)
      linarith
  · intro h
    unfold Stack.reflCoefQs
    rw [hX]
    show Except.ok (X.m10 / X.m00) = _
    rw [h00, h5 h, O.inf_div]

theorem film_both (e q t : ℝ) (h1 : 3 / 2 ≤ e) (h2 : e ≤ 2 ^ 500) (hqt : 710 ≤ q * t) :
    (e ≤ 4 → (layeredF64 L 1 [(e, t)] 1).reflCoefQs (.fin q) = .ok (.fin 0) ∧
      (layeredC128 L 1 [((e : ℂ), t)] 1).reflCoefQs (.fin q) = .ok ⟨.fin 0, .fin 0⟩) ∧
    (5 ≤ e → (layeredF64 L 1 [(e, t)] 1).reflCoefQs (.fin q) = .ok .nan ∧
      (layeredC128 L 1 [((e : ℂ), t)] 1).reflCoefQs (.fin q) = .ok ⟨.nan, .nan⟩) := by
  have hm : Moderate e := moderate_real (by linarith) h2
  obtain ⟨a1, a2⟩ := film_refl (realArith L) (realOverflow L) (fun z => .fin z.re) e q t ⟨1, rfl, by simp⟩ ⟨e, rfl, rfl⟩
    hqt h1 hm
  obtain ⟨b1, b2⟩ := film_refl (cplxRealArith L) (cplxOverflow L) (C128.mk' L) e q t ⟨1, by simp, by simp⟩ ⟨e, rfl, rfl⟩
    hqt h1 hm
  have hF : layeredF64 L 1 [(e, t)] 1 = Arith.layeredWith (fun z : ℂ => (.fin z.re : F64 L)) 1 [((e : ℂ), t)] 1 := by
    rw [layeredF64_with]; simp
  rw [hF]
  refine ⟨fun h => ⟨?_, ?_⟩, fun h => ⟨a2 h, b2 h⟩⟩
  · obtain ⟨c, hc, x, rfl, hx⟩ := a1 h
    rw [hc, ← Complex.ofReal_injective (Complex.ofReal_zero.trans hx)]
  · obtain ⟨c, hc, x, rfl, hx⟩ := b1 h
    rw [← Complex.ofReal_injective (Complex.ofReal_zero.trans hx)] at hc
    refine hc.trans ?_
    simp [C128.mk']

/-- The reflection coefficient of a suspended film of moderate contrast is lost. -/
theorem C82_zero (e q t : ℝ) (h1 : 3 / 2 ≤ e) (h2 : e ≤ 4) (hqt : 710 ≤ q * t) :
    (layeredF64 L 1 [(e, t)] 1).reflCoefQs (.fin q) = .ok (.fin 0) ∧
    (layeredC128 L 1 [((e : ℂ), t)] 1).reflCoefQs (.fin q) = .ok ⟨.fin 0, .fin 0⟩ ∧
    ∃ r : ℝ, (layered 1 [((e : ℂ), t)] 1).reflCoefQs (FP.num q) = .ok (FP.num (r : ℂ)) ∧ 19 / 100 ≤ r := by
  have h4 : (4 : ℝ) ≤ 2 ^ 500 := le_trans (by norm_num : (4 : ℝ) ≤ 2 ^ 2) (pow_le_pow_right₀ (by norm_num) (by norm_num))
  obtain ⟨a, b⟩ := (film_both (L := L) e q t h1 (h2.trans h4) hqt).1 h2
  obtain ⟨r, hr, hr'⟩ := film_exact (by linarith : 1 ≤ e) hqt
  refine ⟨a, b, r, hr, ?_⟩
  have h5 : (1 : ℝ) / 2 ^ 1000 ≤ 1 / 100 :=
    one_div_le_one_div_of_le (by norm_num) (le_trans (by norm_num : (100 : ℝ) ≤ 2 ^ 7) (pow_le_pow_right₀ (by norm_num) (by norm_num)))
  have h6 : 1 / 5 ≤ (e - 1) / (e + 1) := by rw [div_le_div_iff₀ (by norm_num) (by linarith)]; linarith
  have h7 := (abs_le.1 (hr'.trans h5)).1
  linarith

example : (layeredF64 L 1 [(2, 100)] 1).reflCoefQs (.fin 8) = .ok (.fin 0) :=
  (C82_zero 2 8 100 (by norm_num) (by norm_num) (by norm_num)).1

/-- At higher contrast it is `nan`. -/
theorem C82_nan (e q t : ℝ) (h1 : 5 ≤ e) (h2 : e ≤ 2 ^ 500) (hqt : 710 ≤ q * t) :
    (layeredF64 L 1 [(e, t)] 1).reflCoefQs (.fin q) = .ok .nan ∧
    (layeredC128 L 1 [((e : ℂ), t)] 1).reflCoefQs (.fin q) = .ok ⟨.nan, .nan⟩ ∧
    ∃ r : ℝ, (layered 1 [((e : ℂ), t)] 1).reflCoefQs (FP.num q) = .ok (FP.num (r : ℂ)) ∧ 65 / 100 ≤ r := by
  obtain ⟨a, b⟩ := (film_both (L := L) e q t (by linarith) h2 hqt).2 h1
  obtain ⟨r, hr, hr'⟩ := film_exact (by linarith : 1 ≤ e) hqt
  refine ⟨a, b, r, hr, ?_⟩
  have h5 : (1 : ℝ) / 2 ^ 1000 ≤ 1 / 100 :=
    one_div_le_one_div_of_le (by norm_num) (le_trans (by norm_num : (100 : ℝ) ≤ 2 ^ 7) (pow_le_pow_right₀ (by norm_num) (by norm_num)))
  have h6 : 2 / 3 ≤ (e - 1) / (e + 1) := by rw [div_le_div_iff₀ (by norm_num) (by linarith)]; linarith
  have h7 := (abs_le.1 (hr'.trans h5)).1
  linarith

example : (layeredF64 L 1 [(12, 100)] 1).reflCoefQs (.fin 8) = .ok .nan :=
  (C82_nan 12 8 100 (by norm_num) (le_trans (by norm_num : (12 : ℝ) ≤ 2 ^ 4) (pow_le_pow_right₀ (by norm_num) (by norm_num)))
    (by norm_num)).1

/-- The property is false of the code, whatever the library of elementary functions. -/
theorem C82_false : ¬ ThickLayersFine (reflIsF64 L) ∧ ¬ ThickLayersFine (reflIsC128 L) := by
  obtain ⟨a, b, r, hr, hr'⟩ := C82_zero (L := L) 2 8 100 (by norm_num) (by norm_num) (by norm_num)
  have hr2 : (layered (1 : ℝ) ([((2 : ℝ), (100 : ℝ))].map fun l => ((l.1 : ℂ), l.2)) (1 : ℝ)).reflCoefQs (FP.num 8) =
      .ok (FP.num (r : ℂ)) := by simpa using hr
  constructor
  · intro h
    obtain ⟨z, ⟨x, rfl, hx⟩, hz⟩ := h 1 [(2, 100)] 1 8 r (by norm_num) (by simp) (by norm_num) hr2
    rw [a] at hx
    injection hx with hx
    injection hx with hx
    rw [← hx, Complex.ofReal_zero, zero_sub, norm_neg, Complex.norm_real, Real.norm_eq_abs, abs_of_nonneg (by linarith)] at hz
    linarith
  · intro h
    obtain ⟨z, hx, hz⟩ := h 1 [(2, 100)] 1 8 r (by norm_num) (by simp) (by norm_num) hr2
    unfold reflIsC128 at hx
    have hb : (layeredC128 L (1 : ℝ) ([((2 : ℝ), (100 : ℝ))].map fun l => ((l.1 : ℂ), l.2)) (1 : ℝ)).reflCoefQs (.fin 8) =
      .ok ⟨.fin 0, .fin 0⟩ := by simpa using b
    rw [hb] at hx
    injection hx with hx
    injection hx with hx1 hx2
    injection hx1 with hx1
    injection hx2 with hx2
    have hz0 : z = 0 := Complex.ext hx1.symm hx2.symm
    rw [hz0, zero_sub, norm_neg, Complex.norm_real, Real.norm_eq_abs, abs_of_nonneg (by linarith)] at hz
    linarith

/-- One layer between media of increasing permittivity: the clip does its job for every thickness and momentum.
Missing: several layers, and layers on media of lower permittivity (false by `C82_false`). -/
theorem C82_partial (env e sub q t : ℝ) (h0 : 0 < env) (h1 : env ≤ e) (h2 : e ≤ sub) (hm : Moderate env) (hm' : Moderate sub)
    (hq : 0 ≤ q) (ht : 0 ≤ t) :
    ∃ x y r : ℝ, (layered env [((e : ℂ), t)] sub).reflCoefQs (FP.num q) = .ok (FP.num (r : ℂ)) ∧
      (layeredF64 L env [(e, t)] sub).reflCoefQs (.fin q) = .ok (.fin x) ∧
      (layeredC128 L env [((e : ℂ), t)] sub).reflCoefQs (.fin q) = .ok ⟨.fin y, .fin 0⟩ ∧
      |x - r| ≤ 2 / 10 ^ 12 ∧ |y - r| ≤ 2 / 10 ^ 12 := by
  have hme : Moderate e := by
    have a := hm.1
    have b := hm'.2
    unfold Moderate
    rw [Complex.norm_real, Real.norm_eq_abs, abs_of_pos (by linarith)] at a b ⊢
    exact ⟨a.trans h1, h2.trans b⟩
  have hmod : ∀ x : ℝ, x ∈ [env, e, sub] → Moderate x := by
    intro x hx
    simp only [List.mem_cons, List.not_mem_nil, or_false] at hx
    rcases hx with rfl | rfl | rfl <;> assumption
  obtain ⟨c, _, hc, ⟨x, rfl, rfl⟩, hx⟩ := (realArith L).thick_layer (by show (1 : ℝ) ≤ 16; norm_num)
    (by show (1 : ℝ) ≤ _; linarith [uro_pos]) (fun z => .fin z.re) h0 h1 h2
    (fun x hx => ⟨⟨x, rfl, rfl⟩, hmod x hx⟩) hq ht
  obtain ⟨c', _, hc', ⟨y, rfl, rfl⟩, hy⟩ := (cplxRealArith L).thick_layer le_rfl le_rfl (C128.mk' L) h0 h1 h2
    (fun x hx => ⟨⟨x, rfl, rfl⟩, hmod x hx⟩) hq ht
  rw [← Complex.ofReal_sub, Complex.norm_real, Real.norm_eq_abs] at hx hy
  refine ⟨x, y, _, slab_exact h0 h1 h2 q t, ?_, ?_, hx, hy⟩
  · rw [layeredF64_with]
    simpa using hc
  · rw [layeredC128_with, hc']
    simp [C128.mk']

example : ∃ x y r : ℝ, (layered (1 : ℝ) [(((2 : ℝ) : ℂ), 100)] (12 : ℝ)).reflCoefQs (FP.num 8) = .ok (FP.num (r : ℂ)) ∧
      (layeredF64 L 1 [(2, 100)] 12).reflCoefQs (.fin 8) = .ok (.fin x) ∧
      (layeredC128 L (1 : ℝ) [(((2 : ℝ) : ℂ), 100)] (12 : ℝ)).reflCoefQs (.fin 8) = .ok ⟨.fin y, .fin 0⟩ ∧
      |x - r| ≤ 2 / 10 ^ 12 ∧ |y - r| ≤ 2 / 10 ^ 12 :=
  C82_partial 1 2 12 8 100 (by norm_num) (by norm_num) (by norm_num) (moderate_real le_rfl (one_le_pow₀ (by norm_num)))
    (moderate_real (by norm_num) (le_trans (by norm_num : (12 : ℝ) ≤ 2 ^ 4) (pow_le_pow_right₀ (by norm_num) (by norm_num))))
    (by norm_num) (by norm_num)

/-! ## Consequences: sums over momenta

One thick node of the Gauss-Laguerre rule spoils the whole sum. -/

/-- A suspended film and a node whose decay is beyond the limit (`x / (2 z) * t ≥ 750`). -/
structure ThickNode (env : Env) (nLag : Option ℕ) (e t z : ℝ) : Prop where
  contrast : 5 ≤ e
  contrast_le : e ≤ 2 ^ 500
  positive : nLag.getD env.defaults.nLag ≠ 0
  height : (1 / 2) ^ 500 ≤ z ∧ z ≤ 2 ^ 500
  node : ∃ x w, (x, w) ∈ env.laggauss (nLag.getD env.defaults.nLag) ∧ (1 / 2) ^ 500 ≤ x ∧ x ≤ 2 ^ 500 ∧ 1500 * z ≤ x * t

theorem ThickNode.nodes {env : Env} {nLag : Option ℕ} {e t z : ℝ} (h : ThickNode env nLag e t z) :
    (∃ p ∈ env.laggauss (nLag.getD env.defaults.nLag),
      (layeredF64 L 1 [(e, t)] 1).reflCoefQs (F64.ofReal p.1 / (lit 2 * .fin z)) = .ok .nan) ∧
    (∃ p ∈ env.laggauss (nLag.getD env.defaults.nLag),
      (layeredC128 L 1 [((e : ℂ), t)] 1).reflCoefQs (F64.ofReal p.1 / (lit 2 * .fin z)) = .ok (C128.nan L)) := by
  obtain ⟨x, w, hm, hx, hx', ht⟩ := h.node
  obtain ⟨q, hq, hqt⟩ := node_momentum (L := L) h.height.1 h.height.2 hx hx' ht
  obtain ⟨a, b, -⟩ := C82_nan (L := L) e q t h.contrast h.contrast_le hqt
  exact ⟨⟨_, hm, by rw [hq]; exact a⟩, ⟨_, hm, by rw [hq]; exact b⟩⟩

/-- The momentum-averaged reflection coefficient is `nan`. -/
theorem C82_above_surface (env : Env) (nLag : Option ℕ) (e t z : ℝ) (h : ThickNode env nLag e t z) :
    (layeredF64 L 1 [(e, t)] 1).reflCoefQsAboveSurf env (.fin z) nLag = .ok .nan ∧
    (layeredC128 L 1 [((e : ℂ), t)] 1).reflCoefQsAboveSurf env (.fin z) nLag = .ok ⟨.nan, .nan⟩ :=
  ⟨aboveSurf_absorbs absorbsF64 (reflCoefQs_scalar_ok _ rfl) h.positive h.nodes.1,
    aboveSurf_absorbs absorbsC128 (reflCoefQs_scalar_ok _ rfl) h.positive h.nodes.2⟩

/-- A rule with the node 100, a film of thickness 1 and a charge at height 1/16. -/
theorem thickNode_example (d : Defaults) : ThickNode ⟨d, fun _ => [(1, 1), (100, 1)]⟩ (some 2) 12 1 (1 / 16) := by
  have h : ∀ x : ℝ, x ≤ 2 ^ 7 → x ≤ 2 ^ 500 := fun x hx => hx.trans (pow_le_pow_right₀ (by norm_num) (by norm_num))
  have h' : ∀ x : ℝ, (1 / 2) ^ 7 ≤ x → (1 / 2) ^ 500 ≤ x := fun x hx =>
    (pow_le_pow_of_le_one (by norm_num) (by norm_num) (by norm_num)).trans hx
  exact ⟨by norm_num, h _ (by norm_num), by simp, ⟨h' _ (by norm_num), h _ (by norm_num)⟩,
    ⟨100, 1, by simp, h' _ (by norm_num), h _ (by norm_num), by norm_num⟩⟩

example (d : Defaults) : (layeredF64 L 1 [(12, 1)] 1).reflCoefQsAboveSurf ⟨d, fun _ => [(1, 1), (100, 1)]⟩ (.fin (1 / 16)) (some 2) =
    .ok .nan := (C82_above_surface _ _ _ _ _ (thickNode_example d)).1

theorem effPol_nan {C : Type} [CplxOps (F64 L) ℤ C] {n : C} (hn : Absorbs (L := L) n) (s : Stack (F64 L) C) (env : Env)
    (nLag : Option ℕ) (zTip : F64 L) (a : FdmArgs (F64 L) C) (z : ℝ) (hm : s.multilayer = true)
    (hs : ∀ q, ∃ v, s.reflCoefQs q = .ok v) (h0 : nLag.getD env.defaults.nLag ≠ 0)
    (hnode : ∃ p ∈ env.laggauss (nLag.getD env.defaults.nLag), s.reflCoefQs (F64.ofReal p.1 / (lit 2 * .fin z)) = .ok n) :
    (zTip + (env.defaults.fdm a).rTip * (env.defaults.fdm a).dQ0 = .fin z →
      Fdm.effPol env s (some zTip) a nLag none = .ok n) ∧
    (zTip + (env.defaults.fdm a).rTip * (env.defaults.fdm a).dQa = .fin z →
      Fdm.effPol env s (some zTip) a nLag (some "Q_ave") = .ok n) := by
  obtain ⟨d, hd⟩ := image_absorbs hn hs h0 hnode
  have hav := aboveSurf_absorbs hn hs h0 hnode
  constructor
  · intro hz
    obtain ⟨⟨d', b'⟩, hd'⟩ := image_scalar_ok hn hs h0 (zQ := zTip + (env.defaults.fdm a).rTip * (env.defaults.fdm a).dQ1)
    have e1 : ("multi" = "bulk") = False := by decide
    simp only [Fdm.effPol, Option.getD_some, Option.getD_none, hm, if_true, e1, if_false, hz, hd, hd', PyM.ok_bind,
      Fdm.effPolFormula, hn.mul_left, hn.div_left, hn.add_right]
    rfl
  · intro hz
    have e1 : ("Q_ave" = "bulk") = False := by decide
    have e2 : ("Q_ave" = "multi") = False := by decide
    simp only [Fdm.effPol, Option.getD_some, e1, e2, if_false, if_true, hz, hav, PyM.ok_bind, Fdm.effPolFormula,
      hn.mul_left, hn.div_left, hn.add_right]
    rfl

/-- The effective polarizability above a thick film is `nan`, with both methods for layered samples. -/
theorem C82_eff_pol (env : Env) (nLag : Option ℕ) (e t z : ℝ) (zTip : F64 L) (h : ThickNode env nLag e t z) :
    (∀ a : FdmArgs (F64 L) (F64 L),
      (zTip + (env.defaults.fdm a).rTip * (env.defaults.fdm a).dQ0 = .fin z →
        Fdm.effPol env (layeredF64 L 1 [(e, t)] 1) (some zTip) a nLag none = .ok .nan) ∧
      (zTip + (env.defaults.fdm a).rTip * (env.defaults.fdm a).dQa = .fin z →
        Fdm.effPol env (layeredF64 L 1 [(e, t)] 1) (some zTip) a nLag (some "Q_ave") = .ok .nan)) ∧
    (∀ a : FdmArgs (F64 L) (C128 L),
      (zTip + (env.defaults.fdm a).rTip * (env.defaults.fdm a).dQ0 = .fin z →
        Fdm.effPol env (layeredC128 L 1 [((e : ℂ), t)] 1) (some zTip) a nLag none = .ok ⟨.nan, .nan⟩) ∧
      (zTip + (env.defaults.fdm a).rTip * (env.defaults.fdm a).dQa = .fin z →
        Fdm.effPol env (layeredC128 L 1 [((e : ℂ), t)] 1) (some zTip) a nLag (some "Q_ave") = .ok ⟨.nan, .nan⟩)) :=
  ⟨fun a => effPol_nan absorbsF64 _ env nLag zTip a z rfl (reflCoefQs_scalar_ok _ rfl) h.positive h.nodes.1,
    fun a => effPol_nan absorbsC128 _ env nLag zTip a z rfl (reflCoefQs_scalar_ok _ rfl) h.positive h.nodes.2⟩

example (d : Defaults) : Fdm.effPol ⟨d, fun _ => [(1, 1), (100, 1)]⟩ (layeredF64 L 1 [(12, 1)] 1) (some (.fin (1 / 16)))
    { dQ0 := some (.fin 0), rTip := some (.fin 1) } (some 2) none = .ok .nan := by
  refine ((C82_eff_pol _ _ _ _ _ _ (thickNode_example d)).1 _).1 ?_
  show (.fin (1 / 16) + .fin 1 * .fin 0 : F64 L) = _
  rw [F64.fin_mul, mul_zero, F64.ofReal_zero, F64.fin_add, add_zero]
  refine F64.ofReal_rep ⟨1, -4, by norm_num, by norm_num, by norm_num⟩ ?_
  rw [abs_of_pos (by norm_num)]
  linarith [F64.one_le_max]

end Snompy.Props
