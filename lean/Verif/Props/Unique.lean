import Verif.Lemmas.Unique
import Verif.Props.Quasistatic

/-!
# C126: the reflection coefficient as a function of momentum determines the sample

`refl_coef_qs` at infinitely many momenta determines the number of layers, their permittivities and thicknesses, and the substrate
(`C126_unique`).  Without the conditions it does not: layers of opposite permittivities cancel (`C126_lens`), and where the code
limits `q * t` the thickness has no effect (`C126_limit`).
-/

namespace Snompy.Props

open Snompy Filter Topology

theorem C126_unique (e : ℂ) (he : e ≠ 0) (L₁ L₂ : List (ℂ × ℝ)) (s₁ s₂ : ℂ) (nu₁ nu₂ : Option ℝ) (v₁ : Visible e L₁ s₁)
    (v₂ : Visible e L₂ s₂) (S : Set ℝ) (hS : S.Infinite) (hq : ∀ q ∈ S, ∀ l ∈ L₁ ++ L₂, |q * l.2| ≤ maxExpArg)
    (h : ∀ q ∈ S, ∃ β, (layered e L₁ s₁ nu₁).reflCoefQs (FP.num q) = .ok (FP.num β) ∧
      (layered e L₂ s₂ nu₂).reflCoefQs (FP.num q) = .ok (FP.num β)) : L₁ = L₂ ∧ s₁ = s₂ := by
  have hx : ∀ q ∈ S, (qsND e L₁ s₁ q).1 * (qsND e L₂ s₂ q).2 = (qsND e L₂ s₂ q).1 * (qsND e L₁ s₁ q).2 := fun q hqS => by
    obtain ⟨β, h1, h2⟩ := h q hqS
    rw [reflCoefQs_qsND v₁ (fun l hl => hq q hqS l (List.mem_append_left _ hl)) h1,
      reflCoefQs_qsND v₂ (fun l hl => hq q hqS l (List.mem_append_right _ hl)) h2]
    ring
  refine qsND_unique he v₁ v₂ ?_
  have all : ∀ q₀, (∃ᶠ q in 𝓝[≠] q₀, (qsND e L₁ s₁ q).1 * (qsND e L₂ s₂ q).2 = (qsND e L₂ s₂ q).1 * (qsND e L₁ s₁ q).2) →
      ∀ q, (qsND e L₁ s₁ q).1 * (qsND e L₂ s₂ q).2 = (qsND e L₂ s₂ q).1 * (qsND e L₁ s₁ q).2 := fun q₀ hf q =>
    congrFun (AnalyticOnNhd.eq_of_frequently_eq
      ((qsND_analytic e L₁ s₁).1.mul (qsND_analytic e L₂ s₂).2) ((qsND_analytic e L₂ s₂).1.mul (qsND_analytic e L₁ s₁).2) hf) q
  -- a layer bounds the momenta
  have bdd : ∀ l ∈ L₁ ++ L₂, 0 < l.2 → ∃ q₀, ∃ᶠ q in 𝓝[≠] q₀,
      (qsND e L₁ s₁ q).1 * (qsND e L₂ s₂ q).2 = (qsND e L₂ s₂ q).1 * (qsND e L₁ s₁ q).2 := fun l hl ht => by
    have hsub : S ⊆ Set.Icc (-(maxExpArg / l.2)) (maxExpArg / l.2) := fun q hqS => by
      rw [Set.mem_Icc, ← abs_le, le_div_iff₀ ht]
      have := hq q hqS l hl
      rwa [abs_mul, abs_of_pos ht] at this
    obtain ⟨q₀, -, hacc⟩ := hS.exists_accPt_of_subset_isCompact isCompact_Icc hsub
    exact ⟨q₀, (accPt_iff_frequently_nhdsNE.1 hacc).mono hx⟩
  cases L₁ with
  | cons l L =>
    obtain ⟨q₀, hf⟩ := bdd l (by simp) v₁.2.2.1
    exact all q₀ hf
  | nil =>
    cases L₂ with
    | cons l L =>
      obtain ⟨q₀, hf⟩ := bdd l (by simp) v₂.2.2.1
      exact all q₀ hf
    | nil =>
      obtain ⟨q, hqS⟩ := hS.nonempty
      exact fun _ => hx q hqS

/-- Media with positive real part, of which no two neighbours are the same. -/
theorem visible_dielectric {e : ℂ} (he : 0 < e.re) {L : List (ℂ × ℝ)} {sub : ℂ} (hL : ∀ l ∈ L, 0 < l.1.re ∧ 0 < l.2) (hs : 0 < sub.re)
    (hd : (L.map Prod.fst ++ [sub]).IsChain (· ≠ ·)) : Visible e L sub := by
  have pos : ∀ {z : ℂ}, 0 < z.re → z ≠ 0 := fun h h0 => by rw [h0] at h; exact lt_irrefl _ h
  have add : ∀ {z w : ℂ}, 0 < z.re → 0 < w.re → z + w ≠ 0 := fun h1 h2 => pos (by rw [Complex.add_re]; exact add_pos h1 h2)
  induction L generalizing e with
  | nil => exact ⟨pos hs, add hs he⟩
  | cons l L ih =>
    obtain ⟨ha, ht⟩ := hL l List.mem_cons_self
    refine ⟨pos ha, add ha he, ht, ?_, ih ha (fun l hl => hL l (List.mem_cons_of_mem _ hl)) hd.tail⟩
    rw [head?_topMedium]
    intro h
    simp only [Option.some.injEq] at h
    cases L with
    | nil =>
      have : l.1 ≠ sub := by simpa using hd
      exact this h.symm
    | cons b L =>
      have : l.1 ≠ b.1 := by
        simp only [List.map_cons, List.cons_append, List.isChain_cons_cons] at hd
        exact hd.1
      exact this h.symm

theorem C126_dielectric (e : ℝ) (he : 0 < e) (L₁ L₂ : List (ℂ × ℝ)) (s₁ s₂ : ℂ) (nu₁ nu₂ : Option ℝ)
    (h₁ : ∀ l ∈ L₁, 0 < l.1.re ∧ 0 < l.2) (h₂ : ∀ l ∈ L₂, 0 < l.1.re ∧ 0 < l.2) (hs₁ : 0 < s₁.re) (hs₂ : 0 < s₂.re)
    (d₁ : (L₁.map Prod.fst ++ [s₁]).IsChain (· ≠ ·)) (d₂ : (L₂.map Prod.fst ++ [s₂]).IsChain (· ≠ ·)) (S : Set ℝ) (hS : S.Infinite)
    (h0 : ∀ q ∈ S, 0 ≤ q) (hq : ∀ q ∈ S, ∀ l ∈ L₁ ++ L₂, q * l.2 ≤ maxExpArg) :
    (∀ q ∈ S, (layered e L₁ s₁ nu₁).reflCoefQs (FP.num q) = (layered e L₂ s₂ nu₂).reflCoefQs (FP.num q)) ↔ L₁ = L₂ ∧ s₁ = s₂ := by
  constructor
  · intro h
    refine C126_unique e (by exact_mod_cast he.ne') L₁ L₂ s₁ s₂ nu₁ nu₂ (visible_dielectric (by simpa using he) h₁ hs₁ d₁)
      (visible_dielectric (by simpa using he) h₂ hs₂ d₂) S hS (fun q hqS l hl => ?_) fun q hqS => ?_
    · have ht : 0 < l.2 := (List.mem_append.1 hl).elim (fun h => (h₁ l h).2) fun h => (h₂ l h).2
      rw [abs_of_nonneg (mul_nonneg (h0 q hqS) ht.le)]
      exact hq q hqS l hl
    · obtain ⟨β, hβ, -⟩ := C16_bound e L₁ s₁ nu₁ q he (fun l hl => ⟨(h₁ l hl).1, (h₁ l hl).2.le⟩) hs₁ (h0 q hqS)
      exact ⟨β, hβ, (h q hqS).symm.trans hβ⟩
  · rintro ⟨rfl, rfl⟩ q _
    exact (coefs_congr rfl).1

example (t : ℝ) (ht : 0 < t) (h4 : t ≤ 4) (h : ∀ q ∈ Set.Icc (0 : ℝ) 100,
    (layered (1 : ℝ) [(2, t)] 3).reflCoefQs (FP.num q) = (layered (1 : ℝ) [(2, 1), (4, 1)] 3).reflCoefQs (FP.num q)) : False := by
  have h2 := maxExpArg_gt
  have := ((C126_dielectric 1 one_pos [(2, t)] [(2, 1), (4, 1)] 3 3 none none (by simpa using ht) (by simp) (by simp) (by simp)
    (by norm_num) (by norm_num) (Set.Icc 0 100) (Set.Icc_infinite (by norm_num)) (fun q hq => hq.1) (by
      rintro q ⟨h0, h1⟩ l hl
      simp only [List.cons_append, List.nil_append, List.mem_cons, List.not_mem_nil, or_false] at hl
      rcases hl with rfl | rfl | rfl <;> simp only <;> nlinarith)).1 h).1
  simp at this

/-- Films of different thickness differ at some momentum below 1. -/
example : ∃ q : ℝ, 0 ≤ q ∧ q ≤ 1 ∧ ¬ ∃ β, (layered 1 [(2, 1)] 3).reflCoefQs (FP.num q) = .ok (FP.num β) ∧
    (layered 1 [(2, 2)] 3).reflCoefQs (FP.num q) = .ok (FP.num β) := by
  by_contra hcon
  push Not at hcon
  have h2 := maxExpArg_gt
  have v : ∀ t : ℝ, 0 < t → Visible 1 [(2, t)] 3 := fun t ht =>
    ⟨two_ne_zero, by norm_num, ht, by norm_num, by norm_num, by norm_num⟩
  have := C126_unique 1 one_ne_zero [(2, 1)] [(2, 2)] 3 3 none none (v 1 one_pos) (v 2 two_pos) (Set.Icc 0 1)
    (Set.Icc_infinite one_pos) (by
      rintro q ⟨h0, h1⟩ l hl
      simp only [List.cons_append, List.nil_append, List.mem_cons, List.not_mem_nil, or_false] at hl
      rcases hl with rfl | rfl <;> rw [abs_of_nonneg (by positivity)] <;> simp only <;> linarith)
    (fun q hq => by
      by_contra hne
      push Not at hne
      obtain ⟨β, h1, h2⟩ := hcon q hq.1 hq.2
      exact hne β h1 h2)
  norm_num at this

/-- A layer of the opposite permittivity undoes a layer of the same thickness below it. -/
theorem C126_lens (e : ℂ) (he : e ≠ 0) (t : ℝ) (L : List (ℂ × ℝ)) (sub : ℂ) (nu : Option ℝ) (q : ℝ) :
    (layered e ((-e, t) :: (e, t) :: L) sub nu).reflCoefQs (FP.num q) = (layered e L sub nu).reflCoefQs (FP.num q) ∧
      (layered e ((-e, t) :: (e, t) :: L) sub nu).transCoefQs (FP.num q) = (layered e L sub nu).transCoefQs (FP.num q) := by
  refine coefs_congr ?_
  by_cases h : (∃ l ∈ L, l.1 = 0) ∨ sub = 0
  · rw [transferMatrixQs_zero _ _ _ _ _ h, transferMatrixQs_zero]
    exact h.imp_left fun ⟨l, h1, h2⟩ => ⟨l, List.mem_cons_of_mem _ (List.mem_cons_of_mem _ h1), h2⟩
  · rw [not_or] at h
    have hL : ∀ l ∈ L, l.1 ≠ 0 := fun l hl h0 => h.1 ⟨l, hl, h0⟩
    rw [transferMatrixQs_layered _ _ _ _ _ hL h.2, transferMatrixQs_layered _ _ _ _ _ ?_ h.2]
    · congr 2
      simp only [qsMat, List.map_cons, gen]
      have h1 : e / -e = -1 := by rw [div_neg, div_self he]
      have h2 : -e / e = -1 := by rw [neg_div, div_self he]
      rw [h1, h2, ← Matrix.mul_assoc (PM _) (TM (-1)), ← Matrix.mul_assoc (TM (-1)), ← Matrix.mul_assoc _ (PM _)]
      have : TM (-1) * (PM (clipped (q * t)) * TM (-1)) * PM (clipped (q * t)) = 1 := by
        ext i j
        fin_cases i <;> fin_cases j <;> simp [TM, PM, Matrix.mul_apply, Fin.sum_univ_two, ← Complex.exp_add]
      rw [this, Matrix.one_mul]
    · intro l hl
      rcases List.mem_cons.1 hl with rfl | hl
      · exact neg_ne_zero.2 he
      · rcases List.mem_cons.1 hl with rfl | hl
        · exact he
        · exact hL l hl

/-- Two of many samples that look like silicon at every momentum. -/
example (q : ℝ) : (layered 1 [(-1, 5), (1, 5)] 12).reflCoefQs (FP.num q) = (layered 1 [(-1, 7), (1, 7)] 12).reflCoefQs (FP.num q) :=
  ((C126_lens 1 one_ne_zero 5 [] 12 none q).1).trans (C126_lens 1 one_ne_zero 7 [] 12 none q).1.symm

/-- At momenta for which the code limits `q * t`, the thickness of a film has no effect. -/
theorem C126_limit (e a sub : ℂ) (nu : Option ℝ) (t₁ t₂ q : ℝ) (h₁ : maxExpArg ≤ q * t₁) (h₂ : maxExpArg ≤ q * t₂) :
    (layered e [(a, t₁)] sub nu).reflCoefQs (FP.num q) = (layered e [(a, t₂)] sub nu).reflCoefQs (FP.num q) ∧
      (layered e [(a, t₁)] sub nu).transCoefQs (FP.num q) = (layered e [(a, t₂)] sub nu).transCoefQs (FP.num q) := by
  refine coefs_congr ?_
  by_cases h : a = 0 ∨ sub = 0
  · rw [transferMatrixQs_zero _ _ _ _ _ (h.imp_left fun h => ⟨_, List.mem_singleton_self _, h⟩),
      transferMatrixQs_zero _ _ _ _ _ (h.imp_left fun h => ⟨_, List.mem_singleton_self _, h⟩)]
  · rw [not_or] at h
    have hc : ∀ x, maxExpArg ≤ x → clipped x = maxExpArg := fun x hx => by
      rw [clipped, min_eq_right (hx.trans (le_max_left _ _))]
    rw [transferMatrixQs_layered _ _ _ _ _ (by simpa using h.1) h.2, transferMatrixQs_layered _ _ _ _ _ (by simpa using h.1) h.2]
    simp only [qsMat, List.map_cons, List.map_nil, hc _ h₁, hc _ h₂]

example : (layered 1 [(2, maxExpArg)] 3).reflCoefQs (FP.num 1) = (layered 1 [(2, 2 * maxExpArg)] 3).reflCoefQs (FP.num 1) :=
  (C126_limit 1 2 3 none maxExpArg (2 * maxExpArg) 1 (by linarith) (by linarith [maxExpArg_gt])).1

end Snompy.Props
