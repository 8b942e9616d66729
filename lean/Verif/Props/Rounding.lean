import Verif.Lemmas.DoubleAccuracy
import Verif.Props.Quasistatic

/-!
# C83: rounding errors of the quasistatic coefficients

As long as the bound `growth` for the entries of the transfer matrix is below the largest double, the computed
reflection and transmission coefficients are numbers, and their errors are bounded by the unit roundoff times the
condition number `growth * |transmission|`.
-/

namespace Snompy.Props

open Snompy

variable {L : Libm}

/-- Complex arrays. -/
theorem C83_complex (env : ℂ) (layers : List (ℂ × ℝ)) (sub : ℂ) (q : ℝ) (r τ : ℂ)
    (hm : ∀ e ∈ env :: (layers.map Prod.fst ++ [sub]), Moderate e)
    (hr : (layered env layers sub).reflCoefQs (FP.num q) = .ok (FP.num r))
    (ht : (layered env layers sub).transCoefQs (FP.num q) = .ok (FP.num τ))
    (hmax : growth q env layers sub * (1 + roundoff 178 q layers) * 4 ≤ maxDouble)
    (hκ : 4 * (growth q env layers sub * ‖τ‖ * roundoff 178 q layers) ≤ 1) :
    (∃ z : ℂ, (layeredC128 L env layers sub).reflCoefQs (.fin q) = .ok ⟨.fin z.re, .fin z.im⟩ ∧
      ‖z - r‖ ≤ 3 * (growth q env layers sub * ‖τ‖) * roundoff 178 q layers * (1 + ‖r‖)) ∧
    (∃ z : ℂ, (layeredC128 L env layers sub).transCoefQs (.fin q) = .ok ⟨.fin z.re, .fin z.im⟩ ∧
      ‖z - τ‖ ≤ 3 * (growth q env layers sub * ‖τ‖) * roundoff 178 q layers * ‖τ‖ + (1 / 2) ^ 159) := by
  have hk : (2 * (cplxArith L).kdiv + 50) = 178 := by
    show (2 * (64 : ℝ) + 50) = 178
    norm_num
  have h := (cplxArith L).accuracy (C128.mk' L) env layers sub q r τ (fun e he => ⟨rfl, hm e he⟩) hr ht
    (by rw [hk]; exact hmax) (by rw [hk]; exact hκ)
  rw [hk] at h
  obtain ⟨⟨c, z, h1, rfl, h2⟩, ⟨c', z', h3, rfl, h4⟩⟩ := h
  refine ⟨⟨z, h1, h2⟩, ⟨z', h3, ?_⟩⟩
  have hu : uro ^ 3 = (1 / 2) ^ 159 := by unfold uro; norm_num
  rwa [hu] at h4

/-- Real arrays. -/
theorem C83_real (env : ℝ) (layers : List (ℝ × ℝ)) (sub : ℝ) (q : ℝ) (r τ : ℂ) (layers' : List (ℂ × ℝ))
    (hl : layers' = layers.map fun l => ((l.1 : ℂ), l.2))
    (hm : ∀ e ∈ env :: (layers.map Prod.fst ++ [sub]), Moderate e)
    (hr : (layered env layers' sub).reflCoefQs (FP.num q) = .ok (FP.num r))
    (ht : (layered env layers' sub).transCoefQs (FP.num q) = .ok (FP.num τ))
    (hmax : growth q env layers' sub * (1 + roundoff 52 q layers') ≤ maxDouble)
    (hκ : 4 * (growth q env layers' sub * ‖τ‖ * roundoff 52 q layers') ≤ 1) :
    (∃ x : ℝ, (layeredF64 L env layers sub).reflCoefQs (.fin q) = .ok (.fin x) ∧
      ‖x - r‖ ≤ 3 * (growth q env layers' sub * ‖τ‖) * roundoff 52 q layers' * (1 + ‖r‖)) ∧
    (∃ x : ℝ, (layeredF64 L env layers sub).transCoefQs (.fin q) = .ok (.fin x) ∧
      ‖x - τ‖ ≤ 3 * (growth q env layers' sub * ‖τ‖) * roundoff 52 q layers' * ‖τ‖ + (1 / 2) ^ 159) := by
  subst hl
  have hk : (2 * (realArith L).kdiv + 50) = 52 := by
    show (2 * (1 : ℝ) + 50) = 52
    norm_num
  have h := (realArith L).accuracy (fun z => .fin z.re) env (layers.map fun l => ((l.1 : ℂ), l.2)) sub q r τ (by
      intro e he
      have : ∃ x : ℝ, x ∈ env :: (layers.map Prod.fst ++ [sub]) ∧ e = x := by
        simp only [List.map_map, List.mem_cons, List.mem_append, List.mem_map, Function.comp_apply, List.not_mem_nil,
          or_false] at he
        rcases he with rfl | ⟨l, hl, rfl⟩ | rfl
        · exact ⟨env, by simp, rfl⟩
        · exact ⟨l.1, List.mem_cons_of_mem _ (List.mem_append_left _ (List.mem_map_of_mem hl)), rfl⟩
        · exact ⟨sub, by simp, rfl⟩
      obtain ⟨x, hx, rfl⟩ := this
      exact ⟨⟨x, rfl, rfl⟩, hm x hx⟩) hr ht
    (by rw [hk]; refine le_trans (le_of_eq ?_) hmax; exact mul_one _) (by rw [hk]; exact hκ)
  rw [hk, ← layeredF64_with] at h
  obtain ⟨⟨c, _, h1, ⟨x, rfl, rfl⟩, h2⟩, ⟨c', _, h3, ⟨x', rfl, rfl⟩, h4⟩⟩ := h
  refine ⟨⟨x, h1, h2⟩, ⟨x', h3, ?_⟩⟩
  have hu : uro ^ 3 = (1 / 2) ^ 159 := by unfold uro; norm_num
  rwa [hu] at h4

theorem exp_sub_one_le {x : ℝ} (h0 : 0 ≤ x) (h1 : x ≤ 1 / 100) : Real.exp x - 1 ≤ 102 / 100 * x := by
  have h2 := Real.one_sub_le_exp_neg x
  have h3 := Real.exp_pos x
  have h4 : Real.exp x * Real.exp (-x) = 1 := by rw [← Real.exp_add, add_neg_cancel, Real.exp_zero]
  have h5 : Real.exp x * (1 - x) ≤ 1 := (mul_le_mul_of_nonneg_left h2 h3.le).trans_eq h4
  nlinarith

/-- Bulk samples: the error grows with the square of the reflection coefficient, that is, towards the pole at which the
permittivities cancel. -/
theorem C83_bulk (env sub : ℂ) (q : ℝ) (he : Moderate env) (hs : Moderate sub) (h0 : sub + env ≠ 0)
    (hr : 1 + ‖(sub - env) / (sub + env)‖ ≤ 10 ^ 12) :
    ∃ z : ℂ, (layeredC128 L env [] sub).reflCoefQs (.fin q) = .ok ⟨.fin z.re, .fin z.im⟩ ∧
      ‖z - (sub - env) / (sub + env)‖ ≤ 1 / 10 ^ 13 * (1 + ‖(sub - env) / (sub + env)‖) ^ 2 := by
  have hs0 := hs.ne_zero
  obtain ⟨e1, e2⟩ := C11_recursion env [] sub none q (by simp) hs0 ((sub - env) / (sub + env))
    (1 + (sub - env) / (sub + env)) (by simp [stackCoefs, h0])
  have hτ : 1 + (sub - env) / (sub + env) = 2 * sub / (sub + env) := by field_simp; ring
  have hn : 0 < ‖sub + env‖ := norm_pos_iff.2 h0
  have hsn : 0 < ‖sub‖ := norm_pos_iff.2 hs0
  have hκ : growth q env [] sub * ‖1 + (sub - env) / (sub + env)‖ = 1 + ‖(sub - env) / (sub + env)‖ := by
    have a1 : 1 + env / sub = (sub + env) / sub := by field_simp
    have a2 : 1 - env / sub = (sub - env) / sub := by field_simp
    rw [hτ]
    simp only [growth, rowNorm]
    rw [a1, a2, norm_div, norm_div, norm_div, norm_div, norm_mul, Complex.norm_ofNat]
    field_simp
  have hu : (1 / 2 : ℝ) ^ 53 ≤ 1111 / 10 ^ 19 := by norm_num
  have hro : roundoff 178 q [] ≤ 202 / 10 ^ 16 := by
    unfold roundoff
    simp only [List.length_nil, Nat.cast_zero, zero_add, mul_one, List.map_nil, List.sum_nil, mul_zero, add_zero]
    refine (exp_sub_one_le (by positivity) (by linarith)).trans (by linarith)
  have hro0 : 0 ≤ roundoff 178 q [] := by
    unfold roundoff
    have := Real.one_le_exp (show 0 ≤ (178 * (([] : List (ℂ × ℝ)).length + 1 : ℝ) + 2 * (([] : List (ℂ × ℝ)).map fun l =>
      |clipped (q * l.2)|).sum) * (1 / 2) ^ 53 by simp)
    linarith
  set R := 1 + ‖(sub - env) / (sub + env)‖ with hR
  have hR1 : 1 ≤ R := by rw [hR]; linarith [norm_nonneg ((sub - env) / (sub + env))]
  obtain ⟨⟨z, hz, ez⟩, -⟩ := C83_complex (L := L) env [] sub q _ _ (by
    intro e h
    simp only [List.map_nil, List.nil_append, List.mem_cons, List.not_mem_nil, or_false] at h
    rcases h with rfl | rfl <;> assumption) e1 e2 (by
      have h1 : growth q env [] sub ≤ 1 + 2 ^ 1000 := by
        simp only [growth, rowNorm]
        have h2 : ‖env / sub‖ ≤ 2 ^ 1000 := by
          rw [norm_div, div_le_iff₀ hsn]
          calc ‖env‖ ≤ 2 ^ 500 := he.2
            _ = 2 ^ 1000 * (1 / 2) ^ 500 := by
              rw [show 1000 = 500 + 500 from rfl, pow_add, mul_assoc, ← mul_pow (2 : ℝ) (1 / 2)]; norm_num
            _ ≤ _ := mul_le_mul_of_nonneg_left hs.1 (by positivity)
        have h3 := norm_add_le 1 (env / sub)
        have h4 := norm_sub_le 1 (env / sub)
        rw [norm_one] at h3 h4
        generalize (2 : ℝ) ^ 1000 = P at *
        linarith
      have h5 := pow_le_max (n := 1003) (by norm_num)
      have h6 : (2 : ℝ) ^ 1003 = 8 * 2 ^ 1000 := by rw [show 1003 = 3 + 1000 from rfl, pow_add]; norm_num
      have h7 : (100 : ℝ) ≤ 2 ^ 1000 := le_trans (by norm_num : (100 : ℝ) ≤ 2 ^ 7) (pow_le_pow_right₀ (by norm_num) (by norm_num))
      rw [h6] at h5
      clear h6 he hs
      generalize (2 : ℝ) ^ 1000 = P at *
      have h8 : growth q env [] sub * (1 + roundoff 178 q []) ≤ (1 + P) * (1 + 1 / 100) :=
        mul_le_mul h1 (by linarith) (by linarith) (by linarith)
      linarith) (by
      rw [hκ]
      have : R * roundoff 178 q [] ≤ 10 ^ 12 * (202 / 10 ^ 16) := mul_le_mul hr hro hro0 (by positivity)
      linarith)
  refine ⟨z, hz, ez.trans ?_⟩
  rw [hκ, ← hR]
  have h9 : 3 * R * roundoff 178 q [] * R = 3 * roundoff 178 q [] * R ^ 2 := by ring
  rw [h9]
  exact mul_le_mul_of_nonneg_right (by linarith) (by positivity)

/-- Stacks whose permittivity increases with depth: transmission decays as fast as the bound grows. -/
theorem increasing_coefs (q : ℝ) (hq : 0 ≤ q) (layers : List (ℝ × ℝ)) (sub : ℝ) : ∀ env : ℝ, 0 < env →
    (env :: (layers.map Prod.fst ++ [sub])).Pairwise (· ≤ ·) → (∀ l ∈ layers, 0 ≤ l.2) →
    (∃ r τ : ℝ, stackCoefs q env (layers.map fun l => ((l.1 : ℂ), l.2)) sub = some ((r : ℂ), (τ : ℂ)) ∧ 0 ≤ r ∧ r < 1 ∧
      0 ≤ τ ∧ τ ≤ 2 ^ (layers.length + 1) * Real.exp (-(layers.map fun l => clipped (q * l.2)).sum)) ∧
    growth q env (layers.map fun l => ((l.1 : ℂ), l.2)) sub = Real.exp (layers.map fun l => clipped (q * l.2)).sum := by
  have n1 : ∀ e f : ℝ, 0 < e → e ≤ f → rowNorm ((e : ℂ) / (f : ℂ)) = 1 := by
    intro e f h h'
    have h1 : 0 < e / f := div_pos h (by linarith)
    have h2 : e / f ≤ 1 := (div_le_one (by linarith)).2 h'
    unfold rowNorm
    rw [← Complex.ofReal_div, ← Complex.ofReal_one, ← Complex.ofReal_add, ← Complex.ofReal_sub, Complex.norm_real,
      Complex.norm_real, Real.norm_eq_abs, Real.norm_eq_abs, abs_of_pos (by linarith), abs_of_nonneg (by linarith)]
    ring
  have hb : ∀ e f : ℝ, 0 < e → e ≤ f → 0 ≤ (f - e) / (f + e) ∧ (f - e) / (f + e) < 1 := by
    intro e f h h'
    refine ⟨div_nonneg (by linarith) (by linarith), ?_⟩
    rw [div_lt_one (by linarith)]
    linarith
  induction layers with
  | nil =>
    intro env h0 h _
    have hes : env ≤ sub := by simpa using h
    obtain ⟨b0, b1⟩ := hb env sub h0 hes
    have hne : (sub : ℂ) + env ≠ 0 := by
      rw [← Complex.ofReal_add]
      exact_mod_cast (by linarith : sub + env ≠ 0)
    refine ⟨⟨(sub - env) / (sub + env), 1 + (sub - env) / (sub + env), ?_, b0, b1, by linarith, ?_⟩, ?_⟩
    · simp [stackCoefs, hne]
    · simp only [List.length_nil, zero_add, pow_one, List.map_nil, List.sum_nil, neg_zero, Real.exp_zero, mul_one]
      linarith
    · simp only [List.map_nil, growth, List.sum_nil, Real.exp_zero]
      exact n1 env sub h0 hes
  | cons l ls ih =>
    intro env h0 h ht
    simp only [List.map_cons, List.cons_append, List.pairwise_cons] at h
    have hel : env ≤ l.1 := h.1 l.1 (by simp)
    have hl0 : 0 < l.1 := by linarith
    obtain ⟨⟨r, τ, hrec, hr0, hr1, hτ0, hτ1⟩, hg⟩ := ih l.1 hl0 (by
      rw [List.pairwise_cons]; exact h.2) (fun a ha => ht a (List.mem_cons_of_mem _ ha))
    obtain ⟨b0, b1⟩ := hb env l.1 h0 hel
    have hc : 0 ≤ clipped (q * l.2) := by
      unfold clipped
      exact le_min (le_max_of_le_left (mul_nonneg hq (ht l (by simp)))) maxExpArg_pos.le
    set x := clipped (q * l.2) with hx
    have hu0 := Real.exp_pos (-x)
    have hu1 : Real.exp (-x) ≤ 1 := Real.exp_le_one_iff.2 (by linarith)
    set u := Real.exp (-x) with hu
    set β := (l.1 - env) / (l.1 + env) with hβ
    have hu2 : u ^ 2 ≤ 1 := pow_le_one₀ hu0.le hu1
    have hu20 : 0 ≤ u ^ 2 := sq_nonneg u
    have hβr : 0 ≤ β * r := mul_nonneg b0 hr0
    have hd : 1 ≤ 1 + β * r * u ^ 2 := by
      have := mul_nonneg hβr hu20
      linarith
    have hne1 : (l.1 : ℂ) + env ≠ 0 := by
      rw [← Complex.ofReal_add]
      exact_mod_cast (by linarith : l.1 + env ≠ 0)
    have hne2 : (1 : ℂ) + β * r * (u : ℂ) ^ 2 ≠ 0 := by exact_mod_cast (by linarith : 1 + β * r * u ^ 2 ≠ 0)
    refine ⟨⟨(β + r * u ^ 2) / (1 + β * r * u ^ 2), (1 + β) * τ * u / (1 + β * r * u ^ 2), ?_, ?_, ?_, ?_, ?_⟩, ?_⟩
    · have hβc : ((l.1 : ℂ) - env) / ((l.1 : ℂ) + env) = (β : ℂ) := by rw [hβ]; push_cast; rfl
      have huc : ((Real.exp (-clipped (q * l.2)) : ℝ) : ℂ) = (u : ℂ) := rfl
      simp only [List.map_cons, stackCoefs, hrec, hβc, huc]
      rw [if_neg (not_or.2 ⟨hne1, hne2⟩)]
      push_cast
      rfl
    · positivity
    · rw [div_lt_one (by linarith)]
      have h1 : 0 < (1 - β) * (1 - r * u ^ 2) := by
        refine mul_pos (by linarith) ?_
        nlinarith
      linarith
    · positivity
    · have h1 : (1 + β) * τ * u / (1 + β * r * u ^ 2) ≤ (1 + β) * τ * u := div_le_self (by positivity) hd
      refine h1.trans ?_
      have h2 : (1 + β) * τ * u ≤ 2 * (2 ^ (ls.length + 1) * Real.exp (-(ls.map fun l => clipped (q * l.2)).sum)) * u :=
        mul_le_mul_of_nonneg_right (mul_le_mul (by linarith) hτ1 hτ0 (by norm_num)) hu0.le
      refine h2.trans (le_of_eq ?_)
      simp only [List.length_cons, List.map_cons, List.sum_cons, ← hx]
      rw [neg_add, Real.exp_add, ← hu]
      ring
    · simp only [List.map_cons, growth, List.sum_cons, ← hx]
      rw [n1 env l.1 h0 hel, hg, abs_of_nonneg hc, one_mul, ← Real.exp_add]

/-- Samples whose permittivity increases with depth: up to a total decay of `exp 700` the error per layer doubles at
most. -/
theorem C83_increasing (env : ℝ) (layers : List (ℝ × ℝ)) (sub q : ℝ) (hpos : 0 < env)
    (hinc : (env :: (layers.map Prod.fst ++ [sub])).Pairwise (· ≤ ·)) (hm : Moderate env) (hm' : Moderate sub)
    (hq : 0 ≤ q) (ht : ∀ l ∈ layers, 0 ≤ l.2) (hn : layers.length ≤ 20) (hsum : q * (layers.map Prod.snd).sum ≤ 700) :
    ∃ r x : ℝ, ∃ z : ℂ,
      (layered env (layers.map fun l => ((l.1 : ℂ), l.2)) sub).reflCoefQs (FP.num q) = .ok (FP.num (r : ℂ)) ∧
      (layeredF64 L env layers sub).reflCoefQs (.fin q) = .ok (.fin x) ∧
      (layeredC128 L env (layers.map fun l => ((l.1 : ℂ), l.2)) sub).reflCoefQs (.fin q) = .ok ⟨.fin z.re, .fin z.im⟩ ∧
      |x - r| ≤ 2 ^ layers.length / 10 ^ 11 ∧ ‖z - r‖ ≤ 2 ^ layers.length / 10 ^ 11 := by
  obtain ⟨⟨r, τ, hrec, hr0, hr1, hτ0, hτ1⟩, hg⟩ := increasing_coefs q hq layers sub env hpos hinc ht
  set layers' := layers.map fun l => ((l.1 : ℂ), l.2) with hl'
  have hall : ∀ e ∈ env :: (layers.map Prod.fst ++ [sub]), env ≤ e ∧ e ≤ sub := by
    intro e he
    refine ⟨?_, ?_⟩
    · rcases List.mem_cons.1 he with rfl | h
      · exact le_rfl
      · exact (List.pairwise_cons.1 hinc).1 e h
    · rw [← List.cons_append, List.mem_append] at he
      rw [← List.cons_append, List.pairwise_append] at hinc
      rcases he with h | h
      · exact hinc.2.2 e h sub (by simp)
      · exact (List.mem_singleton.1 h).le
  have hmod : ∀ e ∈ env :: (layers.map Prod.fst ++ [sub]), Moderate e := by
    intro e he
    obtain ⟨h1, h2⟩ := hall e he
    unfold Moderate at hm hm' ⊢
    rw [Complex.norm_real, Real.norm_eq_abs] at hm hm' ⊢
    rw [abs_of_pos hpos] at hm
    rw [abs_of_pos (by linarith)] at hm'
    rw [abs_of_pos (by linarith)]
    exact ⟨hm.1.trans h1, h2.trans hm'.2⟩
  have hmod' : ∀ e ∈ (env : ℂ) :: (layers'.map Prod.fst ++ [(sub : ℂ)]), Moderate e := by
    intro e he
    simp only [hl', List.map_map, List.mem_cons, List.mem_append, List.mem_map, Function.comp_apply, List.not_mem_nil,
      or_false] at he
    rcases he with rfl | ⟨l, hl, rfl⟩ | rfl
    · exact hm
    · exact hmod l.1 (List.mem_cons_of_mem _ (List.mem_append_left _ (List.mem_map_of_mem hl)))
    · exact hm'
  set S := (layers.map fun l => clipped (q * l.2)).sum with hS
  have hS0 : 0 ≤ S ∧ S ≤ 700 := by
    have hc : ∀ l ∈ layers, 0 ≤ clipped (q * l.2) ∧ clipped (q * l.2) ≤ q * l.2 := by
      intro l hl
      have h1 : 0 ≤ q * l.2 := mul_nonneg hq (ht l hl)
      unfold clipped
      rw [max_eq_left (by linarith [maxExpArg_pos])]
      exact ⟨le_min h1 maxExpArg_pos.le, min_le_left _ _⟩
    refine ⟨List.sum_nonneg ?_, ?_⟩
    · intro x hx
      obtain ⟨l, hl, rfl⟩ := List.mem_map.1 hx
      exact (hc l hl).1
    · refine le_trans (List.sum_le_sum fun l hl => (hc l hl).2) ?_
      rwa [List.sum_map_mul_left]
  have hSa : (layers'.map fun l => |clipped (q * l.2)|).sum = S := by
    rw [hS, hl', List.map_map]
    refine congrArg List.sum (List.map_congr_left fun l hl => ?_)
    refine abs_of_nonneg ?_
    unfold clipped
    exact le_min (le_max_of_le_left (mul_nonneg hq (ht l hl))) maxExpArg_pos.le
  have hlen : layers'.length = layers.length := by rw [hl', List.length_map]
  have hn' : (layers.length : ℝ) ≤ 20 := by exact_mod_cast hn
  have hro : ∀ k : ℝ, 0 ≤ k → k ≤ 178 → 0 ≤ roundoff k q layers' ∧ roundoff k q layers' ≤ 6 / 10 ^ 13 := by
    intro k hk0 hk
    unfold roundoff
    rw [hSa, hlen]
    have hu : (1 / 2 : ℝ) ^ 53 ≤ 1111 / 10 ^ 19 := by norm_num
    have h1 : k * (layers.length + 1 : ℝ) ≤ 178 * 21 := mul_le_mul hk (by linarith) (by positivity) (by norm_num)
    have h2 : 0 ≤ k * (layers.length + 1 : ℝ) := by positivity
    have h3 : (k * (layers.length + 1 : ℝ) + 2 * S) * (1 / 2) ^ 53 ≤ 5138 * (1111 / 10 ^ 19) :=
      mul_le_mul (by linarith [hS0.2]) hu (by positivity) (by norm_num)
    have h4 : 0 ≤ (k * (layers.length + 1 : ℝ) + 2 * S) * (1 / 2) ^ 53 := mul_nonneg (by linarith [hS0.1]) (by positivity)
    refine ⟨by linarith [Real.one_le_exp h4], (exp_sub_one_le h4 (by linarith)).trans (by linarith)⟩
  have hτn : ‖(τ : ℂ)‖ = τ := by rw [Complex.norm_real, Real.norm_eq_abs, abs_of_nonneg hτ0]
  have hrn : ‖(r : ℂ)‖ = r := by rw [Complex.norm_real, Real.norm_eq_abs, abs_of_nonneg hr0]
  have hκ : growth q env layers' sub * ‖(τ : ℂ)‖ ≤ 2 * 2 ^ layers.length := by
    rw [hg, hτn]
    refine (mul_le_mul_of_nonneg_left hτ1 (Real.exp_pos S).le).trans (le_of_eq ?_)
    rw [Real.exp_neg, pow_succ]
    field_simp
  have hκ0 : 0 ≤ growth q env layers' sub * ‖(τ : ℂ)‖ := by
    rw [hg]; positivity
  have hp20 : (2 : ℝ) ^ layers.length ≤ 2 ^ 20 := pow_le_pow_right₀ (by norm_num) hn
  have hmax : growth q env layers' sub * 5 ≤ maxDouble := by
    rw [hg]
    have h1 : Real.exp S ≤ 2 ^ 1015 := by
      refine (Real.exp_le_exp.2 hS0.2).trans ?_
      rw [show (700 : ℝ) = ((700 : ℕ) : ℝ) * 1 by norm_num, Real.exp_nat_mul]
      refine (pow_le_pow_left₀ (Real.exp_pos 1).le Real.exp_one_lt_d9.le 700).trans ?_
      rw [show 700 = 100 * 7 from rfl, pow_mul, show 1015 = 145 * 7 from rfl, pow_mul]
      exact pow_le_pow_left₀ (by positivity) (by norm_num) 7
    have h2 := pow_le_max (n := 1018) (by norm_num)
    rw [show 1018 = 3 + 1015 from rfl, pow_add] at h2
    have h3 : (0 : ℝ) ≤ 2 ^ 1015 := by positivity
    clear hm hm'
    generalize (2 : ℝ) ^ 1015 = P at *
    linarith
  have hgp : 0 < growth q env layers' sub := by rw [hg]; exact Real.exp_pos S
  have hfin : ∀ k : ℝ, 0 ≤ k → k ≤ 178 → growth q env layers' sub * (1 + roundoff k q layers') * 4 ≤ maxDouble ∧
      4 * (growth q env layers' sub * ‖(τ : ℂ)‖ * roundoff k q layers') ≤ 1 ∧
      3 * (growth q env layers' sub * ‖(τ : ℂ)‖) * roundoff k q layers' * (1 + ‖(r : ℂ)‖) ≤ 2 ^ layers.length / 10 ^ 11 := by
    intro k hk0 hk
    obtain ⟨q0, q1⟩ := hro k hk0 hk
    have a1 : growth q env layers' sub * ‖(τ : ℂ)‖ * roundoff k q layers' ≤ 2 * 2 ^ layers.length * (6 / 10 ^ 13) :=
      mul_le_mul hκ q1 q0 (by positivity)
    have a0 : 0 ≤ growth q env layers' sub * ‖(τ : ℂ)‖ * roundoff k q layers' := mul_nonneg hκ0 q0
    refine ⟨?_, ?_, ?_⟩
    · have : growth q env layers' sub * (1 + roundoff k q layers') ≤ growth q env layers' sub * (5 / 4) :=
        mul_le_mul_of_nonneg_left (by linarith) hgp.le
      linarith
    · linarith
    · rw [hrn]
      have a2 : growth q env layers' sub * ‖(τ : ℂ)‖ * roundoff k q layers' * (1 + r) ≤
          2 * 2 ^ layers.length * (6 / 10 ^ 13) * 2 := mul_le_mul a1 (by linarith) (by linarith) (by positivity)
      have a3 : (0 : ℝ) < 2 ^ layers.length := by positivity
      linarith
  obtain ⟨e1, e2⟩ := C11_recursion env layers' sub none q (by
    intro l hl
    obtain ⟨a, ha, rfl⟩ := List.mem_map.1 hl
    exact (hmod a.1 (List.mem_cons_of_mem _ (List.mem_append_left _ (List.mem_map_of_mem ha)))).ne_zero)
    hm'.ne_zero _ _ hrec
  obtain ⟨c1, c2, c3⟩ := hfin 178 (by norm_num) le_rfl
  obtain ⟨d1, d2, d3⟩ := hfin 52 (by norm_num) (by norm_num)
  obtain ⟨⟨z, hz, ez⟩, -⟩ := C83_complex (L := L) env layers' sub q _ _ hmod' e1 e2 c1 c2
  obtain ⟨⟨x, hx, ex⟩, -⟩ := C83_real (L := L) env layers sub q _ _ layers' rfl hmod e1 e2 (by
    have := mul_nonneg hgp.le (show 0 ≤ 1 + roundoff 52 q layers' by linarith [(hro 52 (by norm_num) (by norm_num)).1])
    linarith) d2
  refine ⟨r, x, z, e1, hx, hz, ?_, ez.trans c3⟩
  have := ex.trans d3
  rwa [← Complex.ofReal_sub, Complex.norm_real, Real.norm_eq_abs] at this

/-- The hypotheses of `C83_bulk`, and with them those of `C83_complex`, hold for a metal in air. -/
example : ∃ z : ℂ, (layeredC128 L 1 [] (-2 + Complex.I)).reflCoefQs (.fin 100000) = .ok ⟨.fin z.re, .fin z.im⟩ := by
  have hs : Moderate (-2 + Complex.I) := by
    have h1 : (1 : ℝ) ≤ ‖(-2 + Complex.I : ℂ)‖ := by
      have := Complex.abs_im_le_norm (-2 + Complex.I : ℂ)
      simpa using this
    have h2 : ‖(-2 + Complex.I : ℂ)‖ ≤ 3 := by
      refine (norm_add_le _ _).trans ?_
      rw [norm_neg, Complex.norm_ofNat, Complex.norm_I]; norm_num
    have h3 : (3 : ℝ) ≤ 2 ^ 500 := le_trans (by norm_num : (3 : ℝ) ≤ 2 ^ 2) (pow_le_pow_right₀ (by norm_num) (by norm_num))
    exact ⟨le_trans (pow_le_one₀ (by norm_num) (by norm_num)) h1, h2.trans h3⟩
  have he : Moderate 1 := by
    unfold Moderate
    rw [norm_one]
    exact ⟨pow_le_one₀ (by norm_num) (by norm_num), one_le_pow₀ (by norm_num)⟩
  have h0 : (-2 + Complex.I + 1 : ℂ) ≠ 0 := fun h => by simpa using congrArg Complex.im h
  have h1 : 1 ≤ ‖(-2 + Complex.I + 1 : ℂ)‖ := by
    have := Complex.abs_im_le_norm (-2 + Complex.I + 1 : ℂ)
    simpa using this
  obtain ⟨z, hz, -⟩ := C83_bulk (L := L) 1 (-2 + Complex.I) 100000 he hs h0 (by
    rw [norm_div]
    have h2 : ‖(-2 + Complex.I - 1 : ℂ)‖ ≤ 4 := by
      refine (norm_sub_le _ _).trans ?_
      have := norm_add_le (-2 : ℂ) Complex.I
      rw [norm_neg, Complex.norm_ofNat, Complex.norm_I] at this
      rw [norm_one]; linarith
    have := div_le_self (norm_nonneg (-2 + Complex.I - 1 : ℂ)) h1
    linarith)
  exact ⟨z, hz⟩

/-- The hypotheses of `C83_increasing`, and with them those of `C83_real`, hold for a film on a substrate. -/
example (q t : ℝ) (hq : 0 ≤ q) (ht : 0 ≤ t) (h : q * t ≤ 700) :
    ∃ r x : ℝ, (layered 1 [(2, t)] 12).reflCoefQs (FP.num q) = .ok (FP.num (r : ℂ)) ∧
      (layeredF64 L 1 [(2, t)] 12).reflCoefQs (.fin q) = .ok (.fin x) ∧ |x - r| ≤ 2 / 10 ^ 11 := by
  have hm : ∀ e : ℝ, 1 ≤ e → e ≤ 2 ^ 4 → Moderate e := by
    intro e h1 h2
    unfold Moderate
    rw [Complex.norm_real, Real.norm_eq_abs, abs_of_nonneg (by linarith)]
    exact ⟨le_trans (pow_le_one₀ (by norm_num) (by norm_num)) h1, h2.trans (pow_le_pow_right₀ (by norm_num) (by norm_num))⟩
  obtain ⟨r, x, z, h1, h2, -, h4, -⟩ := C83_increasing (L := L) 1 [(2, t)] 12 q one_pos
    (by simp; norm_num) (hm 1 le_rfl (by norm_num)) (hm 12 (by norm_num) (by norm_num)) hq (by simpa using ht) (by simp)
    (by simpa using h)
  refine ⟨r, x, ?_, h2, by simpa using h4⟩
  simpa using h1

end Snompy.Props
