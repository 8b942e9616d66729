import Verif.Lemmas.DoubleAccuracy
import Verif.Lemmas.DoubleOverflow

/-!
# A single layer of any thickness in double precision
-/

namespace Snompy

variable {L : Libm}

attribute [local irreducible] maxDouble uro eta

/-- Layers beyond the limit of the exponent. -/
theorem clip64_thick {y : ℝ} (h : 710 ≤ y) : clip64 y = expLimit := by
  have h1 := rnd_err y
  rw [abs_of_nonneg (show 0 ≤ y by linarith)] at h1
  have hu := uro_lt
  have hu0 := uro_pos
  have he := eta_lt
  have hl : expLimit ≤ 7098 / 10 := by unfold expLimit; norm_num
  have h0 := expLimit_pos
  have h2 : expLimit ≤ rnd y := by
    have := (abs_le.1 h1).1
    nlinarith
  unfold clip64
  rw [max_eq_left (by linarith), min_eq_right h2]

theorem clipped_thick {y : ℝ} (h : 710 ≤ y) : clipped y = maxExpArg := by
  have h1 := maxExpArg_bounds.2
  have h2 := log_two_near
  rw [abs_le] at h2
  have h3 : maxExpArg ≤ y := by linarith
  have h0 := maxExpArg_pos
  unfold clipped
  rcases le_total y (-maxExpArg) with h4 | h4
  · linarith
  · rw [max_eq_left h4, min_eq_right h3]

/-- Exponential decay is a contraction. -/
theorem exp_neg_lipschitz {p x : ℝ} (hp : 0 ≤ p) (hx : 0 ≤ x) : |Real.exp (-(2 * p)) - Real.exp (-(2 * x))| ≤ 2 * |p - x| := by
  have key : ∀ a b : ℝ, 0 ≤ a → a ≤ b → Real.exp (-(2 * a)) - Real.exp (-(2 * b)) ≤ 2 * (b - a) := by
    intro a b ha hab
    have h1 := Real.add_one_le_exp (-(2 * (b - a)))
    have h2 : Real.exp (-(2 * b)) = Real.exp (-(2 * a)) * Real.exp (-(2 * (b - a))) := by
      rw [← Real.exp_add]; congr 1; ring
    have h3 : Real.exp (-(2 * a)) ≤ 1 := Real.exp_le_one_iff.2 (by linarith)
    have h4 := Real.exp_pos (-(2 * a))
    rw [h2]
    nlinarith
  rcases le_total p x with h | h
  · have h5 : Real.exp (-(2 * x)) ≤ Real.exp (-(2 * p)) := Real.exp_le_exp.2 (by linarith)
    rw [abs_of_nonneg (by linarith), abs_of_nonpos (by linarith)]
    linarith [key p x hp h]
  · have h5 : Real.exp (-(2 * p)) ≤ Real.exp (-(2 * x)) := Real.exp_le_exp.2 (by linarith)
    rw [abs_of_nonpos (by linarith), abs_of_nonneg (by linarith)]
    linarith [key x p hx h]

/-- The reflection of a layer as a function of the decay factor. -/
noncomputable def slabRefl (a b w : ℝ) : ℝ :=
  ((1 - a) * (1 + b) + (1 + a) * (1 - b) * w) / ((1 + a) * (1 + b) + (1 - a) * (1 - b) * w)

theorem slab_den {a b w : ℝ} (ha : 0 < a) (ha1 : a ≤ 1) (hb : 0 < b) (hb1 : b ≤ 1) (hw : 0 ≤ w) :
    1 ≤ (1 + a) * (1 + b) + (1 - a) * (1 - b) * w := by
  have h1 : 0 ≤ (1 - a) * (1 - b) * w := mul_nonneg (mul_nonneg (by linarith) (by linarith)) hw
  nlinarith [mul_pos ha hb]

theorem slabRefl_lipschitz {a b w w' : ℝ} (ha : 0 < a) (ha1 : a ≤ 1) (hb : 0 < b) (hb1 : b ≤ 1) (hw : 0 ≤ w) (hw' : 0 ≤ w') :
    |slabRefl a b w - slabRefl a b w'| ≤ 4 * |w - w'| := by
  have d1 := slab_den ha ha1 hb hb1 hw
  have d2 := slab_den ha ha1 hb hb1 hw'
  unfold slabRefl
  rw [div_sub_div _ _ (by linarith) (by linarith), abs_div]
  have hnum : ((1 - a) * (1 + b) + (1 + a) * (1 - b) * w) * ((1 + a) * (1 + b) + (1 - a) * (1 - b) * w') -
      ((1 + a) * (1 + b) + (1 - a) * (1 - b) * w) * ((1 - a) * (1 + b) + (1 + a) * (1 - b) * w') =
      4 * a * (1 - b ^ 2) * (w - w') := by ring
  have hd : 1 ≤ |((1 + a) * (1 + b) + (1 - a) * (1 - b) * w) * ((1 + a) * (1 + b) + (1 - a) * (1 - b) * w')| := by
    rw [abs_of_nonneg (by nlinarith)]
    exact one_le_mul_of_one_le_of_one_le d1 d2
  rw [hnum, abs_mul, div_le_iff₀ (by linarith), abs_of_nonneg (mul_nonneg (by linarith) (by nlinarith))]
  have h1 : 4 * a * (1 - b ^ 2) ≤ 4 := by nlinarith [mul_nonneg ha.le (sq_nonneg b)]
  have h2 : 4 * a * (1 - b ^ 2) * |w - w'| ≤ 4 * |w - w'| := mul_le_mul_of_nonneg_right h1 (abs_nonneg _)
  have h3 : 4 * |w - w'| * 1 ≤ 4 * |w - w'| * |((1 + a) * (1 + b) + (1 - a) * (1 - b) * w) *
      ((1 + a) * (1 + b) + (1 - a) * (1 - b) * w')| := mul_le_mul_of_nonneg_left hd (by positivity)
  linarith

theorem slabRefl_abs {a b w : ℝ} (ha : 0 < a) (ha1 : a ≤ 1) (hb : 0 < b) (hb1 : b ≤ 1) (hw : 0 ≤ w) (hw1 : w ≤ 1) :
    |slabRefl a b w| ≤ 1 := by
  have d1 := slab_den ha ha1 hb hb1 hw
  have h1 : 0 ≤ (1 - a) * (1 + b) := mul_nonneg (by linarith) (by linarith)
  have h2 : 0 ≤ (1 + a) * (1 - b) := mul_nonneg (by linarith) (by linarith)
  unfold slabRefl
  rw [abs_of_nonneg (div_nonneg (add_nonneg h1 (mul_nonneg h2 hw)) (by linarith)), div_le_one (by linarith)]
  nlinarith [mul_pos ha hb, mul_nonneg h2 hw, mul_nonneg (mul_nonneg ha.le (sub_nonneg.2 hb1)) hw]

theorem slab_mat (env e sub p : ℝ) :
    gen (env : ℂ) [((e : ℂ), (p : ℂ))] (sub : ℂ) 0 0 =
      ((Real.exp p / 4 * ((1 + env / e) * (1 + e / sub) + (1 - env / e) * (1 - e / sub) * Real.exp (-(2 * p))) : ℝ) : ℂ) ∧
    gen (env : ℂ) [((e : ℂ), (p : ℂ))] (sub : ℂ) 1 0 =
      ((Real.exp p / 4 * ((1 - env / e) * (1 + e / sub) + (1 + env / e) * (1 - e / sub) * Real.exp (-(2 * p))) : ℝ) : ℂ) := by
  have h1 : Real.exp p * Real.exp (-(2 * p)) = Real.exp (-p) := by rw [← Real.exp_add]; congr 1; ring
  have h2 : (Real.exp p : ℂ) * (Real.exp (-(2 * p)) : ℂ) = (Real.exp (-p) : ℂ) := by exact_mod_cast h1
  simp only [gen, TM, PM, Matrix.mul_apply, Fin.sum_univ_two, Matrix.of_apply, Matrix.cons_val', Matrix.cons_val_zero,
    Matrix.cons_val_one, Matrix.cons_val_fin_one]
  push_cast at h2 ⊢
  constructor
  · linear_combination ((1 - (env : ℂ) / e) * (1 - (e : ℂ) / sub) / 4) * (-h2)
  · linear_combination ((1 + (env : ℂ) / e) * (1 - (e : ℂ) / sub) / 4) * (-h2)

theorem thick_rho {u k : ℝ} (hu : 0 < u) (hu' : u ≤ 112 / 10 ^ 18) (k1 : 1 ≤ k) (hk : k ≤ 16) :
    (1 + (2 * k + 24) * u) ^ 2 * (1 + 8 * u) ^ 3 * (1 + 9 * u) ≤ 1 + 150 * u := by
  have h3 : 1 + (2 * k + 24) * u ≤ 1 + 56 * u := by nlinarith
  have h4 : (1 + (2 * k + 24) * u) ^ 2 ≤ (1 + 56 * u) ^ 2 := pow_le_pow_left₀ (by positivity) h3 2
  have h5 : (1 + 56 * u) ^ 2 ≤ 1 + 113 * u := by nlinarith
  have h6 : (1 + 8 * u) ^ 3 ≤ 1 + 25 * u := by
    have : (1 + 8 * u) ^ 3 = 1 + 24 * u + u * (192 * u + 512 * (u * u)) := by ring
    have h7 : 192 * u + 512 * (u * u) ≤ 1 := by nlinarith
    nlinarith
  have h8 : (1 + (2 * k + 24) * u) ^ 2 * (1 + 8 * u) ^ 3 ≤ (1 + 113 * u) * (1 + 25 * u) :=
    mul_le_mul (h4.trans h5) h6 (by positivity) (by positivity)
  have h9 : (1 + 113 * u) * (1 + 25 * u) ≤ 1 + 139 * u := by nlinarith
  calc _ ≤ (1 + 139 * u) * (1 + 9 * u) := mul_le_mul_of_nonneg_right (h8.trans h9) (by positivity)
    _ ≤ _ := by nlinarith

theorem thick_sum {z E d ρ R S c w w' D u η : ℝ} (hu : 0 < u) (hu' : u ≤ 112 / 10 ^ 18) (hη : η ≤ u) (hE : 0 < E)
    (hd : 1 ≤ d) (hρ1 : 1 ≤ ρ) (hρ : ρ ≤ 1 + 150 * u) (hS : 0 ≤ S) (hS1 : S ≤ 1) (ez : z ≤ 3 * (E / (E / 4 * d)) * (ρ - 1) * (1 + S))
    (hlip : R ≤ 4 * w) (hexp : w ≤ 2 * w') (hc : w' ≤ 2 * u * c + η) (hc0 : 0 ≤ c) (hc1 : c ≤ 710) (ht : D ≤ z + R) :
    D ≤ 2 / 10 ^ 12 := by
  have hc2 : u * c ≤ 112 / 10 ^ 18 * 710 := mul_le_mul hu' hc1 hc0 (by norm_num)
  have hκ : E / (E / 4 * d) ≤ 4 := by
    rw [div_le_iff₀ (mul_pos (by positivity) (by linarith))]
    have h4 : E * 1 ≤ E * d := mul_le_mul_of_nonneg_left hd hE.le
    linarith
  have hκ0 : 0 ≤ E / (E / 4 * d) := div_nonneg hE.le (mul_nonneg (by positivity) (by linarith))
  have hez : 3 * (E / (E / 4 * d)) * (ρ - 1) * (1 + S) ≤ 12 * (150 * u) * 2 :=
    mul_le_mul (mul_le_mul (by linarith) (by linarith) (by linarith) (by norm_num)) (by linarith)
      (by positivity) (by positivity)
  linarith

/-- The exact reflection of a layer. -/
theorem slab_exact {env e sub : ℝ} (h0 : 0 < env) (h1 : env ≤ e) (h2 : e ≤ sub) (q t : ℝ) :
    (layered env [((e : ℂ), t)] sub).reflCoefQs (FP.num q) =
      .ok (FP.num (slabRefl (env / e) (e / sub) (Real.exp (-(2 * clipped (q * t)))) : ℝ)) := by
  have he : 0 < e := by linarith
  have hs : 0 < sub := by linarith
  obtain ⟨m0, m1⟩ := slab_mat env e sub (clipped (q * t))
  have hd := slab_den (div_pos h0 he) ((div_le_one he).2 h1) (div_pos he hs) ((div_le_one hs).2 h2)
    (Real.exp_pos (-(2 * clipped (q * t)))).le
  have hq : qsMat q (env : ℂ) [((e : ℂ), t)] sub = gen (env : ℂ) [((e : ℂ), (clipped (q * t) : ℂ))] (sub : ℂ) := rfl
  have hp := Real.exp_pos (clipped (q * t))
  have hne : Real.exp (clipped (q * t)) / 4 * ((1 + env / e) * (1 + e / sub) + (1 - env / e) * (1 - e / sub) *
      Real.exp (-(2 * clipped (q * t)))) ≠ 0 := (mul_pos (by positivity) (by linarith)).ne'
  rw [reflCoefQs_num _ _ _ _ _ (by simpa using he.ne') (by exact_mod_cast hs.ne') (by
    rw [hq, m0]; exact_mod_cast hne), hq, m0, m1, ← Complex.ofReal_div, mul_div_mul_left _ _ (by positivity)]
  rfl

namespace Arith

variable {C : Type} [CplxOps (F64 L) ℤ C] (A : Arith L C)

theorem thick_layer (hk : A.kdiv ≤ 16) (hroom : A.room ≤ 1 + 2 * uro) (emb : ℂ → C) {env e sub : ℝ} (h0 : 0 < env) (h1 : env ≤ e) (h2 : e ≤ sub)
    (hv : ∀ x : ℝ, x ∈ [env, e, sub] → A.Val (emb x) x ∧ Moderate x) {q t : ℝ} (hq : 0 ≤ q) (ht : 0 ≤ t) :
    ∃ c z, (layeredWith (L := L) emb env [((e : ℂ), t)] sub).reflCoefQs (.fin q) = .ok c ∧ A.Val c z ∧
      ‖z - (slabRefl (env / e) (e / sub) (Real.exp (-(2 * clipped (q * t)))) : ℝ)‖ ≤ 2 / 10 ^ 12 := by
  have he : 0 < e := by linarith
  have hs : 0 < sub := by linarith
  have ha := div_pos h0 he
  have ha1 := (div_le_one he).2 h1
  have hb := div_pos he hs
  have hb1 := (div_le_one hs).2 h2
  have hu := uro_pos
  have hu' := uro_lt
  have huv : uro ≤ 112 / 10 ^ 18 := by unfold uro; norm_num
  have k1 := A.kdiv_ge
  have r1 := A.room_ge
  have hqt : 0 ≤ q * t := mul_nonneg hq ht
  have hp0 : 0 ≤ clip64 (q * t) := by
    unfold clip64
    exact le_min (le_max_of_le_left (rnd_nonneg hqt)) expLimit_pos.le
  have hx0 : 0 ≤ clipped (q * t) := by
    unfold clipped
    exact le_min (le_max_of_le_left hqt) maxExpArg_pos.le
  set p := clip64 (q * t) with hp
  have hpl : p ≤ expLimit := (le_abs_self _).trans (abs_clip64 _)
  have n1 : ∀ a : ℝ, 0 < a → a ≤ 1 → rowNorm (a : ℂ) = 1 := by
    intro a h h'
    unfold rowNorm
    rw [← Complex.ofReal_one, ← Complex.ofReal_add, ← Complex.ofReal_sub, Complex.norm_real,
      Complex.norm_real, Real.norm_eq_abs, Real.norm_eq_abs, abs_of_pos (by linarith), abs_of_nonneg (by linarith)]
    ring
  have hN : genNorm (env : ℂ) [((e : ℂ), p)] (sub : ℂ) = Real.exp p := by
    simp only [genNorm]
    rw [← Complex.ofReal_div, ← Complex.ofReal_div, n1 _ ha ha1, n1 _ hb hb1, abs_of_nonneg hp0, one_mul, mul_one]
  set ρ := A.rhoT * (1 + 8 * uro) * A.genRho [|p - p|] with hρ
  have hρ' : ρ = (1 + (2 * A.kdiv + 24) * uro) ^ 2 * (1 + 8 * uro) ^ 3 * (1 + 9 * uro) := by
    rw [hρ]
    simp only [genRho, rhoT, sub_self, abs_zero, Real.exp_zero]
    ring
  have hρ1 : ρ ≤ 1 + 150 * uro := hρ'.le.trans (thick_rho hu huv k1 hk)
  have hρT : A.rhoT ≤ ρ := by
    have hg := A.genRho_ge [|p - p|] (by simp)
    rw [hρ, mul_assoc]
    exact le_mul_of_one_le_right (by linarith [A.rhoT_ge]) (one_le_mul_of_one_le_of_one_le (by linarith) hg)
  have hT := A.rhoT_ge
  have hE : Real.exp p ≤ maxDouble * (1 - 2 / 10 ^ 14) := (Real.exp_le_exp.2 hpl).trans exp_expLimit_le
  have hmp := maxDouble_pos
  have hroom' : Real.exp p * ρ * A.room ≤ maxDouble := by
    have h3 : ρ * A.room ≤ (1 + 150 * uro) * (1 + 2 * uro) := mul_le_mul hρ1 hroom (by linarith) (by linarith)
    have h4 : (1 + 150 * uro) * (1 + 2 * uro) ≤ 1 + 18 / 10 ^ 15 := by nlinarith
    calc Real.exp p * ρ * A.room = Real.exp p * (ρ * A.room) := by ring
      _ ≤ maxDouble * (1 - 2 / 10 ^ 14) * (1 + 18 / 10 ^ 15) :=
        mul_le_mul hE (h3.trans h4) (mul_nonneg (by linarith) (by linarith)) (mul_nonneg hmp.le (by norm_num))
      _ = maxDouble * ((1 - 2 / 10 ^ 14) * (1 + 18 / 10 ^ 15)) := by ring
      _ ≤ maxDouble * 1 := mul_le_mul_of_nonneg_left (by norm_num) hmp.le
      _ = _ := mul_one _
  have hE0 := Real.exp_pos p
  have hmax : Real.exp p * ρ ≤ maxDouble :=
    (le_mul_of_one_le_right (mul_nonneg hE0.le (by linarith)) r1).trans hroom'
  obtain ⟨X, hX, hnear⟩ := A.near_transfer emb env [((e : ℂ), t)] sub q (fun l => clip64 (q * l.2)) (by
    intro x hx
    simp only [List.map_cons, List.map_nil, List.cons_append, List.nil_append, List.mem_cons, List.not_mem_nil,
      or_false] at hx
    rcases hx with rfl | rfl | rfl
    · exact hv env (by simp)
    · exact hv e (by simp)
    · exact hv sub (by simp)) (by
    simp only [List.map_cons, List.map_nil, ← hp]
    rw [hN]
    exact hmax)
  simp only [List.map_cons, List.map_nil, ← hp] at hnear
  rw [hN] at hnear
  obtain ⟨m0, m1⟩ := slab_mat env e sub p
  have hd := slab_den ha ha1 hb hb1 (Real.exp_pos (-(2 * p))).le
  set d := (1 + env / e) * (1 + e / sub) + (1 - env / e) * (1 - e / sub) * Real.exp (-(2 * p)) with hdd
  have hM0 : ‖gen (env : ℂ) [((e : ℂ), (p : ℂ))] (sub : ℂ) 0 0‖ = Real.exp p / 4 * d := by
    rw [m0, Complex.norm_real, Real.norm_eq_abs, abs_of_pos (mul_pos (by positivity) (by linarith))]
  obtain ⟨⟨z, hz, ez⟩, -⟩ := A.near_coefs hnear hρT (by
    rw [hM0]
    have h3 : Real.exp p * (ρ - 1) ≤ Real.exp p * (150 * uro) := mul_le_mul_of_nonneg_left (by linarith) hE0.le
    have h4 : Real.exp p * 1 ≤ Real.exp p * d := mul_le_mul_of_nonneg_left hd hE0.le
    have h5 : Real.exp p * (150 * uro) ≤ Real.exp p * (1 / 100) := mul_le_mul_of_nonneg_left (by linarith) hE0.le
    linarith) hroom'
  have hquot : gen (env : ℂ) [((e : ℂ), (p : ℂ))] (sub : ℂ) 1 0 / gen (env : ℂ) [((e : ℂ), (p : ℂ))] (sub : ℂ) 0 0 =
      (slabRefl (env / e) (e / sub) (Real.exp (-(2 * p))) : ℝ) := by
    rw [m0, m1, ← Complex.ofReal_div, mul_div_mul_left _ _ (by positivity)]
    rfl
  rw [hquot, hM0, Complex.norm_real, Real.norm_eq_abs] at ez
  refine ⟨_, z, ?_, hz, ?_⟩
  · unfold Stack.reflCoefQs
    rw [hX]
    rfl
  · have hw1 : Real.exp (-(2 * p)) ≤ 1 := Real.exp_le_one_iff.2 (by linarith)
    have hr1 := slabRefl_abs ha ha1 hb hb1 (Real.exp_pos (-(2 * p))).le hw1
    have hlip := slabRefl_lipschitz ha ha1 hb hb1 (Real.exp_pos (-(2 * p))).le (Real.exp_pos (-(2 * clipped (q * t)))).le
    have hexp := exp_neg_lipschitz hp0 hx0
    have hc := clip64_err (q * t)
    rw [← hp, abs_of_nonneg hx0] at hc
    have hx1 : clipped (q * t) ≤ 710 := by
      have h3 : clipped (q * t) ≤ maxExpArg := min_le_right _ _
      have h4 := maxExpArg_bounds.2
      have h5 := log_two_near
      rw [abs_le] at h5
      linarith
    have heta := eta_lt
    have htri := norm_sub_le_norm_sub_add_norm_sub z ((slabRefl (env / e) (e / sub) (Real.exp (-(2 * p))) : ℝ) : ℂ)
      ((slabRefl (env / e) (e / sub) (Real.exp (-(2 * clipped (q * t)))) : ℝ) : ℂ)
    rw [← Complex.ofReal_sub (slabRefl (env / e) (e / sub) (Real.exp (-(2 * p)))), Complex.norm_real,
      Real.norm_eq_abs] at htri
    exact thick_sum hu huv (by linarith) hE0 hd (hT.trans hρT) hρ1 (abs_nonneg _) hr1 ez hlip hexp hc hx0 hx1 htri

end Arith

end Snompy
