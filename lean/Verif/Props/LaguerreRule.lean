import Verif.Lemmas.LaguerreNodes
import Verif.Lemmas.Quad
import Verif.Props.Image

/-!
# C130: the conditions on the quadrature rule determine it

Everything proved about the charge averages assumes `GaussLaguerre n rule` (`Verif/Spec/Laguerre.lean`) of numpy's rule: `n`
positive nodes and weights that integrate the powers below `2n`.  Only one rule meets these conditions.
-/

namespace Snompy.Props

open Snompy

/-- The nodes are the zeros of the Laguerre polynomial `L_n`, each of them once. -/
theorem C130_nodes (n : ℕ) (rule : List (ℝ × ℝ)) (hr : GaussLaguerre n rule) :
    (rule.map Prod.fst).Nodup ∧ ∀ x : ℝ, x ∈ rule.map Prod.fst ↔
      ∑ k ∈ Finset.range (n + 1), (-1) ^ k * (n.choose k : ℝ) / k.factorial * x ^ k = 0 := by
  refine ⟨Laguerre.nodes_nodup hr, fun x => ?_⟩
  rw [← Laguerre.lag_eval, ← Laguerre.mem_nodes_iff hr, Laguerre.nodes, List.mem_toFinset]

example (n : ℕ) (hn : 0 < n) := C130_nodes n (Laguerre.rule n) (Laguerre.gaussLaguerre_rule hn)

/-- They lie between `1/n` and `4n - 2`. -/
theorem C130_bounds (n : ℕ) (rule : List (ℝ × ℝ)) (hr : GaussLaguerre n rule) :
    ∀ xw ∈ rule, 1 / n ≤ xw.1 ∧ xw.1 < 4 * (n : ℝ) - 2 := fun xw hxw => by
  have hn : 0 < n := by
    rw [← hr.length]
    exact List.length_pos_of_mem hxw
  have h := Laguerre.node_root hr (Laguerre.mem_nodes.2 ⟨xw, hxw, rfl⟩)
  exact ⟨Laguerre.root_ge hn (hr.node_pos xw hxw).le h, Laguerre.root_lt hn h⟩

example (n : ℕ) (hn : 0 < n) := C130_bounds n (Laguerre.rule n) (Laguerre.gaussLaguerre_rule hn)

/-- For every order there is a rule, and with ascending nodes (as numpy returns them) only one. -/
theorem C130_unique (n : ℕ) (hn : 0 < n) :
    ∃! rule : List (ℝ × ℝ), GaussLaguerre n rule ∧ (rule.map Prod.fst).Pairwise (· < ·) := by
  have key : ∀ r : List (ℝ × ℝ), (r.map Prod.fst).Pairwise (· < ·) → r.Pairwise (fun a b => a.1 < b.1) := fun r h =>
    List.pairwise_map.1 h
  have h1 := Laguerre.gaussLaguerre_rule hn
  set s := (Laguerre.rule n).mergeSort (fun a b => decide (a.1 ≤ b.1)) with hs
  have hp : s.Perm (Laguerre.rule n) := List.mergeSort_perm _ _
  have hg : GaussLaguerre n s :=
    { length := by rw [hp.length_eq]; exact h1.length
      node_pos := fun xw hxw => h1.node_pos xw (hp.mem_iff.1 hxw)
      weight_pos := fun xw hxw => h1.weight_pos xw (hp.mem_iff.1 hxw)
      exact := fun k hk => by rw [(hp.map _).sum_eq]; exact h1.exact k hk }
  have hle : s.Pairwise (fun a b => a.1 ≤ b.1) := by
    have := List.pairwise_mergeSort (le := fun a b : ℝ × ℝ => decide (a.1 ≤ b.1))
      (fun a b c h h' => by simp only [decide_eq_true_eq] at *; exact h.trans h')
      (fun a b => by simp only [Bool.or_eq_true, decide_eq_true_eq]; exact le_total _ _) (Laguerre.rule n)
    exact this.imp fun h => by simpa using h
  have hlt : s.Pairwise (fun a b => a.1 < b.1) := by
    have hd : s.Pairwise (fun a b => a.1 ≠ b.1) := List.pairwise_map.1 (Laguerre.nodes_nodup hg)
    exact (hle.and hd).imp fun h => lt_of_le_of_ne h.1 h.2
  refine ⟨s, ⟨hg, List.pairwise_map.2 hlt⟩, fun r ⟨hr, hro⟩ => ?_⟩
  exact (Laguerre.rule_perm hr hg).eq_of_pairwise (fun a b _ _ h h' => absurd h' (lt_asymm h)) (key r hro) hlt

/-- Two environments with correct rules, with the nodes in any order: the charge averages agree, whatever the sample. -/
theorem C130_average (d : Defaults) (lag₁ lag₂ : ℕ → List (ℝ × ℝ)) (nLag : Option ℕ) (h₁ : Env.RuleOk ⟨d, lag₁⟩ nLag)
    (h₂ : Env.RuleOk ⟨d, lag₂⟩ nLag) (s : Stack (FP ℝ) (FP ℂ)) (hs : ∀ q : ℝ, 0 < q → ∃ b : ℂ, s.reflCoefQs (FP.num q) = .ok (FP.num b))
    (z : ℝ) (hz : 0 < z) :
    ∃ v : ℂ, s.reflCoefQsAboveSurf ⟨d, lag₁⟩ (FP.num z) nLag = .ok (FP.num v) ∧
      s.reflCoefQsAboveSurf ⟨d, lag₂⟩ (FP.num z) nLag = .ok (FP.num v) := by
  choose b hb using hs
  have hq : ∀ (lag : ℕ → List (ℝ × ℝ)), Env.RuleOk ⟨d, lag⟩ nLag → ∀ xw ∈ lag (nLag.getD d.nLag), 0 < xw.1 / (2 * z) :=
    fun lag h xw hxw => div_pos (h.2.node_pos xw hxw) (by linarith)
  have key := fun (lag : ℕ → List (ℝ × ℝ)) (h : Env.RuleOk ⟨d, lag⟩ nLag) => aboveSurf_num ⟨d, lag⟩ s (fun q => if h : 0 < q then b q h else 0)
    z hz.ne' nLag h.1 ⟨_, hb z hz⟩ fun xw hxw => by
      rw [dif_pos (hq lag h xw hxw)]
      exact hb _ _
  refine ⟨_, key lag₁ h₁, (key lag₂ h₂).trans ?_⟩
  rw [((Laguerre.rule_perm h₂.2 h₁.2).map _).sum_eq]

example (d : Defaults) := C130_average d Laguerre.rule (rule2 d).laggauss (some 2)
  ⟨two_ne_zero, Laguerre.gaussLaguerre_rule two_pos⟩ (rule2_ok d) (bulk 1 2)
  (fun q _ => ⟨_, C09_refl 1 2 none _ two_ne_zero (by norm_num)⟩) 3 (by norm_num)

/-- So do the surface potentials and fields, and the images. -/
theorem C130_surface (d : Defaults) (lag₁ lag₂ : ℕ → List (ℝ × ℝ)) (nLag : Option ℕ) (h₁ : Env.RuleOk ⟨d, lag₁⟩ nLag)
    (h₂ : Env.RuleOk ⟨d, lag₂⟩ nLag) (s : Stack (FP ℝ) (FP ℂ)) (hs : ∀ q : ℝ, 0 < q → ∃ b : ℂ, s.reflCoefQs (FP.num q) = .ok (FP.num b))
    (z : ℝ) (hz : 0 < z) :
    (∃ φ e : ℂ, s.surfPotAndField ⟨d, lag₁⟩ (FP.num z) nLag = .ok (FP.num φ, FP.num e) ∧
      s.surfPotAndField ⟨d, lag₂⟩ (FP.num z) nLag = .ok (FP.num φ, FP.num e)) ∧
    s.imageDepthAndCharge ⟨d, lag₁⟩ (FP.num z) nLag = s.imageDepthAndCharge ⟨d, lag₂⟩ (FP.num z) nLag := by
  choose b hb using hs
  have hq : ∀ (lag : ℕ → List (ℝ × ℝ)), Env.RuleOk ⟨d, lag⟩ nLag → ∀ xw ∈ lag (nLag.getD d.nLag), 0 < xw.1 / (2 * z) :=
    fun lag h xw hxw => div_pos (h.2.node_pos xw hxw) (by linarith)
  have key := fun (lag : ℕ → List (ℝ × ℝ)) (h : Env.RuleOk ⟨d, lag⟩ nLag) => surf_num ⟨d, lag⟩ s (fun q => if h : 0 < q then b q h else 0)
    z hz.ne' nLag h.1 ⟨_, hb z hz⟩ fun xw hxw => by
      rw [dif_pos (hq lag h xw hxw)]
      exact hb _ _
  have k2 := key lag₂ h₂
  rw [((Laguerre.rule_perm h₂.2 h₁.2).map _).sum_eq, ((Laguerre.rule_perm h₂.2 h₁.2).map _).sum_eq] at k2
  exact ⟨⟨_, _, key lag₁ h₁, k2⟩, (image_num _ s z nLag _ _ (key lag₁ h₁)).trans (image_num _ s z nLag _ _ k2).symm⟩

example (d : Defaults) := C130_surface d Laguerre.rule (rule2 d).laggauss (some 2)
  ⟨two_ne_zero, Laguerre.gaussLaguerre_rule two_pos⟩ (rule2_ok d) (bulk 1 2)
  (fun q _ => ⟨_, C09_refl 1 2 none _ two_ne_zero (by norm_num)⟩) 3 (by norm_num)

end Snompy.Props
