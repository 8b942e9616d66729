import Verif.Lemmas.DoubleCplx
import Mathlib.Tactic.GCongr

/-!
# The quasistatic transfer matrix in double precision
-/

namespace Snompy

variable {L : Libm}

attribute [local irreducible] maxDouble uro eta

/-- The exponent used by the code. -/
noncomputable def clip64 (y : ℝ) : ℝ := min (max (rnd y) (-expLimit)) expLimit

theorem expLimit_pos : 0 < expLimit := by unfold expLimit; positivity

theorem expLimit_le_max : expLimit ≤ maxDouble := by
  have := F64.one_le_max
  have h1 := Real.add_one_le_exp expLimit
  have h2 := exp_expLimit_le
  nlinarith

theorem clip_mul (q t : ℝ) : (RealOps.clip (-maxExpArg) maxExpArg (F64.fin q * F64.fin t : F64 L) : F64 L) =
    .fin (clip64 (q * t)) := by
  rw [F64.fin_mul]
  show F64.clip (rnd (-maxExpArg)) (rnd maxExpArg) (F64.ofReal (q * t)) = _
  rw [rnd_neg_maxExpArg, rnd_maxExpArg]
  generalize q * t = y
  have hl := expLimit_le_max
  have h0 := expLimit_pos
  unfold F64.ofReal clip64
  split_ifs with h
  · rfl
  · unfold F64.infOf
    have herr := rnd_err y
    have hu := uro_pos
    have hu' := uro_lt
    have he := eta_pos
    have he' := eta_lt
    have hm := F64.one_le_max
    rcases lt_trichotomy y 0 with hy | rfl | hy
    · have hr : rnd y < -maxDouble := by
        rw [not_le, lt_abs] at h
        rcases h with h | h
        · exfalso
          rw [abs_of_neg hy] at herr
          have := (abs_le.1 herr).2
          nlinarith
        · linarith
      rw [if_neg hy.not_gt, if_pos hy]
      show F64.fin _ = F64.fin _
      rw [max_eq_right (by linarith), min_eq_left (by linarith)]
    · rw [rnd_zero, abs_zero] at h
      exact absurd maxDouble_pos.le h
    · have hr : maxDouble < rnd y := by
        rw [not_le, lt_abs] at h
        rcases h with h | h
        · exact h
        · exfalso
          rw [abs_of_pos hy] at herr
          have := (abs_le.1 herr).1
          nlinarith
      rw [if_pos hy]
      show F64.fin _ = F64.fin _
      rw [max_eq_left (by linarith), min_eq_right (by linarith)]

theorem rep_clip64 (y : ℝ) : Rep (clip64 y) := by
  unfold clip64
  rcases min_choice (max (rnd y) (-expLimit)) expLimit with h | h <;> rw [h]
  · rcases max_choice (rnd y) (-expLimit) with h | h <;> rw [h]
    · exact rep_rnd y
    · exact rep_expLimit.neg
  · exact rep_expLimit

theorem abs_clip64 (y : ℝ) : |clip64 y| ≤ expLimit := by
  have h0 := expLimit_pos
  unfold clip64
  rw [abs_le]
  exact ⟨le_min (le_max_right _ _) (by linarith), min_le_right _ _⟩

theorem clip64_neg (y : ℝ) : clip64 (-y) = -clip64 y := by
  have h0 := expLimit_pos
  unfold clip64
  rw [rnd_neg, ← max_neg_neg, ← min_neg_neg, neg_neg, min_max_distrib_right, min_eq_left (by linarith : -expLimit ≤ expLimit)]

theorem clipped_neg (y : ℝ) : clipped (-y) = -clipped y := by
  have h0 : 0 ≤ maxExpArg := by
    have := maxExpArg_bounds.1
    have := log_two_near
    rw [abs_le] at this
    norm_num at *
    linarith
  unfold clipped
  rw [← max_neg_neg, ← min_neg_neg, neg_neg, min_max_distrib_right, min_eq_left (by linarith : -maxExpArg ≤ maxExpArg)]

theorem rnd_nonneg {y : ℝ} (h : 0 ≤ y) : 0 ≤ rnd y := by
  unfold rnd
  refine mul_nonneg ?_ (by positivity)
  have h1 : (0 : ℝ) ≤ y / 2 ^ ulpExp y := by positivity
  have h2 : 0 ≤ roundEven (y / 2 ^ ulpExp y) := by
    have h3 : ∀ x : ℝ, 0 ≤ x → 0 ≤ round x := fun x hx => by
      rw [round_eq]
      exact Int.floor_nonneg.2 (by linarith)
    unfold roundEven
    split_ifs
    · have := h3 _ (show 0 ≤ y / 2 ^ ulpExp y / 2 by positivity)
      linarith
    · exact h3 _ h1
  exact_mod_cast h2

theorem maxExpArg_pos : 0 < maxExpArg := by
  have := maxExpArg_bounds.1
  have := log_two_near
  rw [abs_le] at this
  norm_num at *
  linarith

theorem clip64_err (y : ℝ) : |clip64 y - clipped y| ≤ 2 * uro * |clipped y| + eta := by
  have key : ∀ y : ℝ, 0 ≤ y → |clip64 y - clipped y| ≤ 2 * uro * |clipped y| + eta := by
    intro y hy
    have h0 := expLimit_pos
    have hm := maxExpArg_pos
    have hu := uro_pos
    have hu' := uro_lt
    have he := eta_pos
    have he' := eta_lt
    have hr := rnd_nonneg hy
    have e1 := rnd_err y
    have e2 := rnd_err maxExpArg
    rw [rnd_maxExpArg, abs_of_pos hm] at e2
    rw [abs_of_nonneg hy] at e1
    have c1 : clip64 y = min (rnd y) expLimit := by unfold clip64; rw [max_eq_left (by linarith)]
    have c2 : clipped y = min y maxExpArg := by unfold clipped; rw [max_eq_left (by linarith)]
    rw [c1, c2, abs_of_nonneg (le_min hy hm.le)]
    rw [abs_le] at e1 e2 ⊢
    have huy : 0 ≤ uro * y := by positivity
    have hum : 0 ≤ uro * maxExpArg := by positivity
    rcases le_total y maxExpArg with a | a <;> rcases le_total (rnd y) expLimit with b | b
    · rw [min_eq_left a, min_eq_left b]
      constructor <;> linarith
    · rw [min_eq_left a, min_eq_right b]
      have h1 : uro * maxExpArg ≤ uro * (y * (1 + 3 * uro) + 3 * eta) :=
        mul_le_mul_of_nonneg_left (by nlinarith) hu.le
      constructor
      · nlinarith
      · linarith
    · rw [min_eq_right a, min_eq_left b]
      constructor
      · have : uro * y ≥ uro * maxExpArg := mul_le_mul_of_nonneg_left a hu.le
        nlinarith
      · linarith
    · rw [min_eq_right a, min_eq_right b]
      constructor <;> linarith
  rcases le_total 0 y with h | h
  · exact key y h
  · have := key (-y) (by linarith)
    rwa [clip64_neg, clipped_neg, ← neg_sub', abs_neg, abs_neg] at this

namespace Arith

variable {C : Type} [CplxOps (F64 L) ℤ C] (A : Arith L C)

theorem near_mono {X : Mat2 C} {M : CMat} {N ρ ρ' : ℝ} (h : A.Near X M N ρ) (hρ : ρ ≤ ρ') : A.Near X M N ρ' := by
  obtain ⟨V, hV, h1, h2, h3, h4⟩ := h
  refine ⟨V, hV, h1, fun i => (h2 i).trans ?_, h3, h4.trans hρ⟩
  exact mul_le_mul_of_nonneg_right (by linarith) (by linarith)

/-- Multiplication of all entries by one. -/
theorem near_scale {X : Mat2 C} {M : CMat} {N ρ : ℝ} {o : C} (h : A.Near X M N ρ) (ho : A.Val o 1)
    (hmax : N * ρ * (1 + 8 * uro) ≤ maxDouble) :
    A.Near ⟨X.m00 * o, X.m01 * o, X.m10 * o, X.m11 * o⟩ M N (ρ * (1 + 8 * uro)) := by
  obtain ⟨V, ⟨a, b, c, d⟩, h1, h2, h3, h4⟩ := h
  have hu := uro_pos
  have he := eta_pos
  have he' := eta_lt
  have hNρ : 1 ≤ N * ρ := one_le_mul_of_one_le_of_one_le h3 h4
  have hrow : ∀ i, ‖V i 0‖ + ‖V i 1‖ ≤ N * ρ := by
    intro i
    have := h1 i
    have := h2 i
    have := norm_sub_norm_le (V i 0) (M i 0)
    have := norm_sub_norm_le (V i 1) (M i 1)
    nlinarith
  have huN : uro ≤ uro * (N * ρ) := le_mul_of_one_le_right hu.le hNρ
  have key : ∀ (y : C) (v : ℂ), A.Val y v → ‖v‖ ≤ N * ρ →
      ∃ z, A.Val (y * o) z ∧ ‖z - v‖ ≤ 4 * uro * ‖v‖ + 8 * eta := by
    intro y v hy hle
    obtain ⟨z, hz, ez⟩ := A.mul _ _ _ _ hy ho (by
      rw [norm_one, mul_one]
      have := mul_le_mul_of_nonneg_left hle hu.le
      linarith)
    rw [norm_one, mul_one, mul_one] at ez
    exact ⟨z, hz, ez⟩
  have n00 := norm_nonneg (V 0 0)
  have n01 := norm_nonneg (V 0 1)
  have n10 := norm_nonneg (V 1 0)
  have n11 := norm_nonneg (V 1 1)
  obtain ⟨z0, k0, e0⟩ := key _ _ a (by linarith [hrow 0])
  obtain ⟨z1, k1, e1⟩ := key _ _ b (by linarith [hrow 0])
  obtain ⟨z2, k2, e2⟩ := key _ _ c (by linarith [hrow 1])
  obtain ⟨z3, k3, e3⟩ := key _ _ d (by linarith [hrow 1])
  refine ⟨!![z0, z1; z2, z3], ⟨by simpa using k0, by simpa using k1, by simpa using k2, by simpa using k3⟩, h1, ?_, h3, ?_⟩
  · intro i
    have r0 := mul_le_mul_of_nonneg_left (hrow 0) hu.le
    have r1 := mul_le_mul_of_nonneg_left (hrow 1) hu.le
    have s0 := h2 0
    have s1 := h2 1
    fin_cases i
    · have t0 := norm_sub_le_norm_sub_add_norm_sub z0 (V 0 0) (M 0 0)
      have t1 := norm_sub_le_norm_sub_add_norm_sub z1 (V 0 1) (M 0 1)
      simp only [Matrix.of_apply, Matrix.cons_val', Matrix.cons_val_zero, Matrix.cons_val_one, Fin.zero_eta, Fin.isValue,
        Matrix.cons_val_fin_one]
      linarith
    · have t0 := norm_sub_le_norm_sub_add_norm_sub z2 (V 1 0) (M 1 0)
      have t1 := norm_sub_le_norm_sub_add_norm_sub z3 (V 1 1) (M 1 1)
      simp only [Matrix.of_apply, Matrix.cons_val', Matrix.cons_val_zero, Matrix.cons_val_one, Fin.mk_one, Fin.isValue,
        Matrix.cons_val_fin_one]
      linarith
  · exact one_le_mul_of_one_le_of_one_le h4 (by linarith)

/-- A layered sample stored with `emb`. -/
def layeredWith (emb : ℂ → C) (env : ℂ) (layers : List (ℂ × ℝ)) (sub : ℂ) : Stack (F64 L) C where
  eps := emb env :: (layers.map (fun l => emb l.1) ++ [emb sub])
  t := layers.map fun l => .fin l.2
  nuVac := none

theorem near_transfer (emb : ℂ → C) (env : ℂ) (layers : List (ℂ × ℝ)) (sub : ℂ) (q : ℝ) (x : ℂ × ℝ → ℝ)
    (hv : ∀ e ∈ env :: (layers.map Prod.fst ++ [sub]), A.Val (emb e) e ∧ Moderate e)
    (hmax : genNorm env (layers.map fun l => (l.1, x l)) sub *
      (A.rhoT * (1 + 8 * uro) * A.genRho (layers.map fun l => |clip64 (q * l.2) - x l|)) ≤ maxDouble) :
    ∃ X, (layeredWith (L := L) emb env layers sub).transferMatrixQs (.fin q) = .ok X ∧
      A.Near X (gen env (layers.map fun l => (l.1, (x l : ℂ))) sub) (genNorm env (layers.map fun l => (l.1, x l)) sub)
        (A.rhoT * (1 + 8 * uro) * A.genRho (layers.map fun l => |clip64 (q * l.2) - x l|)) := by
  have hu := uro_pos
  have hT := A.rhoT_ge
  unfold Stack.transferMatrixQs
  cases layers with
  | nil =>
    have hm : (layeredWith (L := L) emb env [] sub).multilayer = false := rfl
    rw [hm]
    simp only [layeredWith, List.map_nil, List.nil_append]
    rw [zipWith_adj]
    simp only [adj, List.map_cons, List.map_nil, Bool.false_eq_true, if_false]
    refine ⟨_, rfl, ?_⟩
    simp only [List.map_nil, gen, genNorm, genRho, mul_one] at hmax ⊢
    obtain ⟨v1, m1⟩ := hv env (by simp)
    obtain ⟨v2, m2⟩ := hv sub (by simp)
    have hn := A.near_interface v1 v2 m1 m2
    have h1 : A.Val (CplxOps.ofR (RealOps.onesLike (F64.fin q : F64 L))) 1 := by
      have := A.real 1
      rw [Complex.ofReal_one] at this
      exact this
    exact A.near_scale hn h1 (by rw [← mul_assoc] at hmax; exact hmax)
  | cons l ls =>
    have hm : (layeredWith (L := L) emb env (l :: ls) sub).multilayer = true := by
      simp [Stack.multilayer, Stack.nLayers, layeredWith]
    have e1 : (layeredWith (L := L) emb env (l :: ls) sub).eps =
        emb env :: emb l.1 :: ((ls ++ [(sub, (0 : ℝ))]).map fun l => emb l.1) := by
      simp [layeredWith]
    have e2 : (layeredWith (L := L) emb env (l :: ls) sub).t = (l :: ls).map fun l => F64.fin l.2 := rfl
    rw [hm, e1, e2, zipWith_adj]
    simp only [adj]
    rw [adj_map (fun a b : C => a / b) (fun l : ℂ × ℝ => emb l.1) l]
    simp only [List.map_cons, if_true]
    refine ⟨_, rfl, ?_⟩
    have hvl : ∀ a ∈ l :: ls, A.Val (emb a.1) a.1 ∧ Moderate a.1 := by
      intro a ha
      refine hv a.1 (List.mem_cons_of_mem _ (List.mem_append_left _ (List.mem_map_of_mem ha)))
    have hvs : ∀ b ∈ ls ++ [(sub, (0 : ℝ))], A.Val (emb b.1) b.1 ∧ Moderate b.1 := by
      intro b hb
      simp only [List.mem_append, List.mem_singleton] at hb
      rcases hb with hb | rfl
      · exact hvl b (List.mem_cons_of_mem _ hb)
      · exact hv sub (by simp)
    obtain ⟨v0, m0⟩ := hv env (by simp)
    obtain ⟨v1, m1⟩ := hvl l (by simp)
    have h0 := A.near_interface v0 v1 m0 m1
    have hg := A.genRho_ge ((l :: ls).map fun l => |clip64 (q * l.2) - x l|) (by
      intro d hd
      obtain ⟨a, -, rfl⟩ := List.mem_map.1 hd
      exact abs_nonneg _)
    have hc := A.near_chain (fun l : ℂ × ℝ => l.1) x (fun l => clip64 (q * l.2)) (fun a b => emb a.1 / emb b.1)
      (fun l => Stack.propagation 1 (-1) (CplxOps.ofR (RealOps.clip (-maxExpArg) maxExpArg
        (F64.fin q * F64.fin l.2 : F64 L)))) l ls (sub, 0) ?_ ?_ _ _ _ _ h0 ?_
    · simp only [List.map_cons, List.map_map, Function.comp_def] at hc ⊢
      refine A.near_mono hc ?_
      refine mul_le_mul_of_nonneg_right ?_ (zero_le_one.trans hg)
      exact le_mul_of_one_le_right (by linarith) (by linarith)
    · intro a ha b hb
      exact A.near_interface (hvl a ha).1 (hvs b hb).1 (hvl a ha).2 (hvs b hb).2
    · intro a _
      rw [clip_mul]
      exact A.near_prop (rep_clip64 _) (abs_clip64 _)
    · refine le_trans ?_ hmax
      have hN := genNorm_ge env ((l :: ls).map fun l => (l.1, x l)) sub
      refine mul_le_mul_of_nonneg_left (mul_le_mul_of_nonneg_right ?_ (zero_le_one.trans hg)) (zero_le_one.trans hN)
      exact le_mul_of_one_le_right (by linarith) (by linarith)

theorem two_div_uro_le : 2 / uro + 1 ≤ maxDouble := by
  have h : 2 / uro + 1 ≤ 2 ^ 55 := by unfold uro; norm_num
  exact h.trans (pow_le_max (by norm_num))

theorem pow_le_uro : (1 / 2 : ℝ) ^ 900 ≤ uro := by
  unfold uro
  exact pow_le_pow_of_le_one (by norm_num) (by norm_num) (by norm_num)

/-- The coefficients read off from the transfer matrix. -/
theorem near_coefs {X : Mat2 C} {M : CMat} {N ρ : ℝ} (h : A.Near X M N ρ) (hρ : A.rhoT ≤ ρ)
    (hκ : 4 * (N * (ρ - 1)) ≤ ‖M 0 0‖) (hmax : N * ρ * A.room ≤ maxDouble) :
    (∃ z, A.Val (X.m10 / X.m00) z ∧
      ‖z - M 1 0 / M 0 0‖ ≤ 3 * (N / ‖M 0 0‖) * (ρ - 1) * (1 + ‖M 1 0 / M 0 0‖)) ∧
    (∃ z, A.Val (clit 1 / X.m00) z ∧ ‖z - 1 / M 0 0‖ ≤ 3 * (N / ‖M 0 0‖) * (ρ - 1) * ‖1 / M 0 0‖ + uro ^ 3) := by
  obtain ⟨V, ⟨a, -, c, -⟩, h1, h2, h3, h4⟩ := h
  have hu := uro_pos
  have hu' := uro_lt
  have hu3 := uro3_lt
  have k1 := A.kdiv_ge
  have k2 := A.kdiv_le
  have r1 := A.room_ge
  have hT : (2 * A.kdiv + 24) * uro ≤ ρ - 1 := by unfold rhoT at hρ; linarith
  have hbig := two_div_uro_le
  have hlow := pow_le_uro
  set D := ρ - 1 with hD
  have hDu : 26 * uro ≤ D := by nlinarith
  have hDpos : 0 < D := by linarith
  have hku : A.kdiv * uro ≤ D / 2 := by nlinarith
  set m := ‖M 0 0‖ with hm
  have hND : 0 < N * D := by positivity
  have hmpos : 0 < m := by linarith
  have hmN : m ≤ N := by
    have := h1 0
    have := norm_nonneg (M 0 1)
    linarith
  have hMne : M 0 0 ≠ 0 := norm_pos_iff.1 hmpos
  have hκ1 : 1 ≤ N / m := by rw [le_div_iff₀ hmpos]; linarith
  have hKD : N / m * D ≤ 1 / 4 := by
    rw [div_mul_eq_mul_div, div_le_iff₀ hmpos]; linarith
  have e0 : ‖V 0 0 - M 0 0‖ ≤ D * N := by
    have := h2 0
    have := norm_nonneg (V 0 1 - M 0 1)
    linarith
  have e1 : ‖V 1 0 - M 1 0‖ ≤ D * N := by
    have := h2 1
    have := norm_nonneg (V 1 1 - M 1 1)
    linarith
  have hwl : 3 / 4 * m ≤ ‖V 0 0‖ := by
    have := norm_sub_norm_le (M 0 0) (V 0 0)
    rw [norm_sub_rev] at this
    linarith
  have hwpos : 0 < ‖V 0 0‖ := by linarith
  have hwne : V 0 0 ≠ 0 := norm_pos_iff.1 hwpos
  have hw900 : (1 / 2) ^ 900 ≤ ‖V 0 0‖ := by
    refine hlow.trans ?_
    have : D ≤ N * D := le_mul_of_one_le_left hDpos.le h3
    linarith
  clear hlow
  have hwu : ‖V 0 0‖ ≤ N * ρ := by
    have := norm_sub_norm_le (V 0 0) (M 0 0)
    have : N * ρ = N + D * N := by rw [hD]; ring
    linarith
  have hvu : ‖V 1 0‖ ≤ N * ρ := by
    have := norm_sub_norm_le (V 1 0) (M 1 0)
    have := h1 1
    have := norm_nonneg (M 1 1)
    have : N * ρ = N + D * N := by rw [hD]; ring
    linarith
  have hwroom : ‖V 0 0‖ * A.room ≤ maxDouble :=
    (mul_le_mul_of_nonneg_right hwu (by linarith)).trans hmax
  have hvroom : ‖V 1 0‖ * A.room ≤ maxDouble :=
    (mul_le_mul_of_nonneg_right hvu (by linarith)).trans hmax
  have hfit : ∀ y : ℝ, 0 ≤ y → y ≤ N * ρ → y / ‖V 0 0‖ * (1 + A.kdiv * uro) + uro ^ 3 ≤ maxDouble := by
    intro y hy0 hy
    have h5 : y / ‖V 0 0‖ ≤ 1 / uro := by
      rw [div_le_iff₀ hwpos]
      have h6 : N * D * 3 ≤ ‖V 0 0‖ := by linarith
      have h7 : N * ρ * uro ≤ N * D * 3 := by
        have : ρ * uro ≤ D * 3 := by
          have : ρ = 1 + D := by rw [hD]; ring
          rw [this]
          nlinarith
        nlinarith
      rw [div_mul_eq_mul_div, one_mul, le_div_iff₀ hu]
      nlinarith
    have h8 : 1 + A.kdiv * uro ≤ 3 / 2 := by nlinarith
    have h9 : y / ‖V 0 0‖ * (1 + A.kdiv * uro) ≤ 1 / uro * (3 / 2) :=
      mul_le_mul h5 h8 (by positivity) (by positivity)
    have h10 : 2 / uro = 1 / uro * 2 := by ring
    have h11 : 0 < 1 / uro := by positivity
    nlinarith
  have hinv : ∀ y : ℝ, 0 ≤ y → y / ‖V 0 0‖ ≤ 4 / 3 * (y / m) := by
    intro y hy
    rw [div_le_iff₀ hwpos]
    have : y = 4 / 3 * (y / m) * (3 / 4 * m) := by field_simp
    have h5 : 4 / 3 * (y / m) * (3 / 4 * m) ≤ 4 / 3 * (y / m) * ‖V 0 0‖ :=
      mul_le_mul_of_nonneg_left hwl (by positivity)
    linarith
  set K := N / m with hK
  have hKD0 : 0 < K * D := by positivity
  have hDK : D ≤ K * D := le_mul_of_one_le_left hDpos.le hκ1
  constructor
  · obtain ⟨z, hz, ez⟩ := A.div _ _ _ _ c a hw900 hvroom hwroom (hfit _ (norm_nonneg _) hvu)
    refine ⟨z, hz, ?_⟩
    set r := M 1 0 / M 0 0 with hr
    have hquot : ‖V 1 0 / V 0 0 - r‖ ≤ 4 / 3 * (K * D) * (1 + ‖r‖) := by
      have h5 : V 1 0 / V 0 0 - r = ((V 1 0 - M 1 0) - r * (V 0 0 - M 0 0)) / V 0 0 := by
        rw [hr]; field_simp; ring
      rw [h5, norm_div]
      have h6 : ‖(V 1 0 - M 1 0) - r * (V 0 0 - M 0 0)‖ ≤ D * N * (1 + ‖r‖) := by
        refine (norm_sub_le _ _).trans ?_
        rw [norm_mul]
        have := mul_le_mul_of_nonneg_left e0 (norm_nonneg r)
        linarith
      refine ((div_le_div_iff_of_pos_right hwpos).2 h6).trans ((hinv _ (by positivity)).trans (le_of_eq ?_))
      rw [hK]; ring
    have hq2 : ‖V 1 0‖ / ‖V 0 0‖ ≤ ‖r‖ + 1 / 3 * (1 + ‖r‖) := by
      rw [← norm_div]
      have := norm_sub_norm_le (V 1 0 / V 0 0) r
      have : 4 / 3 * (K * D) * (1 + ‖r‖) ≤ 4 / 3 * (1 / 4) * (1 + ‖r‖) :=
        mul_le_mul_of_nonneg_right (by linarith) (by positivity)
      linarith
    have hR := norm_nonneg r
    have h7 : A.kdiv * uro * (‖V 1 0‖ / ‖V 0 0‖) ≤ K * D / 2 * (4 / 3 * (1 + ‖r‖)) :=
      mul_le_mul (by linarith) (by linarith) (by positivity) (by positivity)
    have h8 : uro ^ 3 ≤ K * D * (1 + ‖r‖) / 10 := by
      have : K * D ≤ K * D * (1 + ‖r‖) := le_mul_of_one_le_right hKD0.le (by linarith)
      linarith
    have h9 := norm_sub_le_norm_sub_add_norm_sub z (V 1 0 / V 0 0) r
    have h10 : 0 < K * D * (1 + ‖r‖) := by positivity
    linarith
  · have hone : (1 : ℝ) ≤ N * ρ := one_le_mul_of_one_le_of_one_le h3 h4
    obtain ⟨z, hz, ez⟩ := A.div _ _ _ _ A.one a hw900 (by
      rw [norm_one]
      exact (mul_le_mul_of_nonneg_right hone (by linarith)).trans hmax) hwroom (by
      rw [norm_one]
      exact hfit 1 zero_le_one hone)
    refine ⟨z, hz, ?_⟩
    have hn1 : ‖1 / M 0 0‖ = 1 / m := by rw [norm_div, norm_one]
    rw [norm_one] at ez
    rw [hn1]
    have hquot : ‖1 / V 0 0 - 1 / M 0 0‖ ≤ 4 / 3 * (K * D) * (1 / m) := by
      have h5 : 1 / V 0 0 - 1 / M 0 0 = (-(V 0 0 - M 0 0) / M 0 0) / V 0 0 := by
        field_simp; ring
      rw [h5, norm_div, norm_div, norm_neg]
      have h6 : ‖V 0 0 - M 0 0‖ / m ≤ D * N / m := (div_le_div_iff_of_pos_right hmpos).2 e0
      refine ((div_le_div_iff_of_pos_right hwpos).2 h6).trans ((hinv _ (by positivity)).trans (le_of_eq ?_))
      rw [hK]; ring
    have h7 : A.kdiv * uro * (1 / ‖V 0 0‖) ≤ K * D / 2 * (4 / 3 * (1 / m)) :=
      mul_le_mul (by linarith) (hinv 1 zero_le_one) (by positivity) (by positivity)
    have h9 := norm_sub_le_norm_sub_add_norm_sub z (1 / V 0 0) (1 / M 0 0)
    have h10 : 0 < K * D * (1 / m) := by positivity
    linarith

/-- The rounding factor in closed form. -/
theorem rho_le (q : ℝ) (layers : List (ℂ × ℝ)) :
    A.rhoT * (1 + 8 * uro) * A.genRho (layers.map fun l => |clip64 (q * l.2) - clipped (q * l.2)|) ≤
      1 + roundoff (2 * A.kdiv + 50) q layers := by
  have hu := uro_pos
  have k1 := A.kdiv_ge
  have he := eta_lt
  have hexp : ∀ c : ℝ, 1 + c * uro ≤ Real.exp (c * uro) := fun c => by
    have := Real.add_one_le_exp (c * uro)
    linarith
  have hT : A.rhoT ≤ Real.exp ((2 * A.kdiv + 24) * uro) := hexp _
  have hT1 := A.rhoT_ge
  have key : A.genRho (layers.map fun l => |clip64 (q * l.2) - clipped (q * l.2)|) ≤
      Real.exp (((2 * A.kdiv + 50) * layers.length + 2 * (layers.map fun l => |clipped (q * l.2)|).sum) * uro) := by
    induction layers with
    | nil => simp [genRho]
    | cons l ls ih =>
      simp only [List.map_cons, genRho, List.length_cons, List.sum_cons]
      have h1 := clip64_err (q * l.2)
      have hd : Real.exp |clip64 (q * l.2) - clipped (q * l.2)| ≤ Real.exp ((2 * |clipped (q * l.2)| + 1) * uro) :=
        Real.exp_le_exp.2 (by linarith)
      have hg := A.genRho_ge (ls.map fun l => |clip64 (q * l.2) - clipped (q * l.2)|) (by
        intro d hd
        obtain ⟨a, -, rfl⟩ := List.mem_map.1 hd
        exact abs_nonneg _)
      have h9 := hexp 9
      have h8 := hexp 8
      calc (1 + 9 * uro) * Real.exp |clip64 (q * l.2) - clipped (q * l.2)| * (1 + 8 * uro) * A.rhoT * (1 + 8 * uro) *
            A.genRho (ls.map fun l => |clip64 (q * l.2) - clipped (q * l.2)|) ≤
          Real.exp (9 * uro) * Real.exp ((2 * |clipped (q * l.2)| + 1) * uro) * Real.exp (8 * uro) *
            Real.exp ((2 * A.kdiv + 24) * uro) * Real.exp (8 * uro) *
            Real.exp (((2 * A.kdiv + 50) * ls.length + 2 * (ls.map fun l => |clipped (q * l.2)|).sum) * uro) := by gcongr
        _ = Real.exp (((2 * A.kdiv + 50) * (↑(ls.length + 1)) + 2 * (|clipped (q * l.2)| +
            (ls.map fun l => |clipped (q * l.2)|).sum)) * uro) := by
          simp only [← Real.exp_add]
          congr 1
          push_cast
          ring
  have hg := A.genRho_ge (layers.map fun l => |clip64 (q * l.2) - clipped (q * l.2)|) (by
    intro d hd
    obtain ⟨a, -, rfl⟩ := List.mem_map.1 hd
    exact abs_nonneg _)
  have h8 := hexp 8
  unfold roundoff
  rw [add_sub_cancel]
  calc A.rhoT * (1 + 8 * uro) * A.genRho (layers.map fun l => |clip64 (q * l.2) - clipped (q * l.2)|) ≤
      Real.exp ((2 * A.kdiv + 24) * uro) * Real.exp (8 * uro) *
      Real.exp (((2 * A.kdiv + 50) * layers.length + 2 * (layers.map fun l => |clipped (q * l.2)|).sum) * uro) := by gcongr
    _ = Real.exp (((2 * A.kdiv + 32) + ((2 * A.kdiv + 50) * layers.length +
        2 * (layers.map fun l => |clipped (q * l.2)|).sum)) * uro) := by
      simp only [← Real.exp_add]
      congr 1
      ring
    _ ≤ _ := by
      rw [show ((1 : ℝ) / 2) ^ 53 = uro by unfold uro; rfl]
      refine Real.exp_le_exp.2 (mul_le_mul_of_nonneg_right ?_ hu.le)
      linarith

end Arith

end Snompy
