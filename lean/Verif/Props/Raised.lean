import Verif.Lemmas.Raised
import Verif.Props.Denser
import Verif.Props.Monotone

/-!
# C133: dielectric samples respond more when any permittivity is raised

The permittivities are real and positive, in any order.
-/

namespace Snompy.Props

open Snompy

section

variable {e e' sub sub' : ℝ} {L L' : List (ℝ × ℝ)}

/-- The reflection of dielectric layers. -/
noncomputable def effRefl (q e : ℝ) (L : List (ℝ × ℝ)) (sub : ℝ) : ℝ := (realEff q L sub - e) / (realEff q L sub + e)

theorem effRefl_num (he : 0 < e) (hs : 0 < sub) (hL : ∀ l ∈ L, 0 < l.1 ∧ 0 ≤ l.2) (nu : Option ℝ) {q : ℝ} (hq : 0 ≤ q) :
    (layered e (L.map fun l => ((l.1 : ℂ), l.2)) sub nu).reflCoefQs (FP.num q) = .ok (FP.num (effRefl q e L sub : ℂ)) := by
  have h := (reflCoefQs_effEps posCone_re e (L.map fun l => ((l.1 : ℂ), l.2)) sub nu q (by simpa using he) (by simpa using hs)
    (fun l hl => by
      obtain ⟨a, ha, rfl⟩ := List.mem_map.1 hl
      exact ⟨by simpa using (hL a ha).1, (hL a ha).2⟩) hq).2
  rw [h, effEps_real, effRefl]
  push_cast
  rfl

theorem effRefl_mem (he : 0 < e) (hs : 0 < sub) (hL : ∀ l ∈ L, 0 < l.1 ∧ 0 ≤ l.2) {q : ℝ} (hq : 0 ≤ q) :
    -1 < effRefl q e L sub ∧ effRefl q e L sub < 1 := by
  have hp := realEff_pos hq hs hL
  unfold effRefl
  rw [lt_div_iff₀ (by linarith), div_lt_one (by linarith)]
  constructor <;> linarith

theorem effRefl_mono (he' : 0 < e') (he : e' ≤ e) (hs : 0 < sub) (hss : sub ≤ sub') (hL : List.Forall₂ Raised L L') {q : ℝ}
    (hq : 0 ≤ q) : effRefl q e L sub ≤ effRefl q e' L' sub' ∧
      (0 < q → (∀ l ∈ L, 0 < l.2) → (e, L, sub) ≠ (e', L', sub') → effRefl q e L sub < effRefl q e' L' sub') := by
  obtain ⟨h1, h2⟩ := realEff_mono hq hs hss hL
  obtain ⟨c1, c2⟩ := contrast_mono he' he (realEff_pos hq hs (Raised.left hL)) h1
  refine ⟨c1, fun hq' ht hne => c2 ?_⟩
  by_cases h : e' = e
  · refine .inr (h2 hq' ht fun h' => hne ?_)
    rw [h, Prod.mk.inj h' |>.1, Prod.mk.inj h' |>.2]
  · exact .inl (lt_of_le_of_ne he h)

/-- `refl_coef_qs` grows when permittivities of layers or of the substrate grow or that of the environment decreases. -/
theorem C133_reflection (e e' : ℝ) (L L' : List (ℝ × ℝ)) (sub sub' : ℝ) (nu : Option ℝ) (he' : 0 < e') (he : e' ≤ e) (hs : 0 < sub)
    (hss : sub ≤ sub') (hL : List.Forall₂ Raised L L') (q : ℝ) (hq : 0 ≤ q) :
    ∃ b b' : ℝ, (layered e (L.map fun l => ((l.1 : ℂ), l.2)) sub nu).reflCoefQs (FP.num q) = .ok (FP.num (b : ℂ)) ∧
      (layered e' (L'.map fun l => ((l.1 : ℂ), l.2)) sub' nu).reflCoefQs (FP.num q) = .ok (FP.num (b' : ℂ)) ∧
      b ≤ b' ∧ (0 < q → (∀ l ∈ L, 0 < l.2) → (e, L, sub) ≠ (e', L', sub') → b < b') :=
  ⟨_, _, effRefl_num (by linarith) hs (Raised.left hL) nu hq, effRefl_num he' (by linarith) (Raised.right hL) nu hq,
    effRefl_mono he' he hs hss hL hq⟩

example := C133_reflection 2 1 [(5, 30), (2, 10)] [(6, 30), (2, 10)] 3 4 none one_pos (by norm_num) (by norm_num) (by norm_num)
  (by simp [Raised]; norm_num) 1 zero_le_one

/-- It lies between the reflections of the bulk samples with the smallest and the largest permittivity below the surface. -/
theorem C133_between (e : ℝ) (L : List (ℝ × ℝ)) (sub m M : ℝ) (nu : Option ℝ) (he : 0 < e) (hm : 0 < m) (hs : m ≤ sub ∧ sub ≤ M)
    (hL : ∀ l ∈ L, m ≤ l.1 ∧ l.1 ≤ M ∧ 0 ≤ l.2) (q : ℝ) (hq : 0 ≤ q) :
    ∃ b : ℝ, (layered e (L.map fun l => ((l.1 : ℂ), l.2)) sub nu).reflCoefQs (FP.num q) = .ok (FP.num (b : ℂ)) ∧
      (m - e) / (m + e) ≤ b ∧ b ≤ (M - e) / (M + e) := by
  obtain ⟨h1, h2⟩ := realEff_between hq hm hs hL
  exact ⟨_, effRefl_num he (by linarith) (fun l hl => ⟨hm.trans_le (hL l hl).1, (hL l hl).2.2⟩) nu hq,
    (contrast_mono he le_rfl hm h1).1, (contrast_mono he le_rfl (by linarith) h2).1⟩

example := C133_between 1 [(5, 30), (2, 10)] 3 2 5 none one_pos two_pos (by norm_num) (by norm_num) 1 zero_le_one

variable {env : Env} {nLag : Option ℕ}

/-- The sums over the rule. -/
noncomputable def raisedSum (env : Env) (nLag : Option ℕ) (k : ℕ) (e : ℝ) (L : List (ℝ × ℝ)) (sub z : ℝ) : ℝ :=
  ((env.laggauss (nLag.getD env.defaults.nLag)).map fun xw => xw.2 * xw.1 ^ k * effRefl (xw.1 / (2 * z)) e L sub).sum

theorem raisedSum_cast (k : ℕ) (z : ℝ) : ((env.laggauss (nLag.getD env.defaults.nLag)).map fun xw =>
    ((xw.2 * xw.1 ^ k : ℝ) : ℂ) * (effRefl (xw.1 / (2 * z)) e L sub : ℂ)).sum = (raisedSum env nLag k e L sub z : ℂ) := by
  unfold raisedSum
  rw [← rule_sum_ofReal]
  congr 1
  refine List.map_congr_left fun xw _ => ?_
  push_cast
  rfl

theorem raisedSum_mono (hr : env.RuleOk nLag) (he' : 0 < e') (he : e' ≤ e) (hs : 0 < sub) (hss : sub ≤ sub')
    (hL : List.Forall₂ Raised L L') (k : ℕ) {z : ℝ} (hz : 0 < z) :
    raisedSum env nLag k e L sub z ≤ raisedSum env nLag k e' L' sub' z ∧ ((∀ l ∈ L, 0 < l.2) → (e, L, sub) ≠ (e', L', sub') →
      raisedSum env nLag k e L sub z < raisedSum env nLag k e' L' sub' z) := by
  have hq : ∀ xw ∈ env.laggauss (nLag.getD env.defaults.nLag), 0 < xw.1 / (2 * z) := fun xw hxw =>
    div_pos (hr.2.node_pos xw hxw) (by linarith)
  have hw : ∀ xw ∈ env.laggauss (nLag.getD env.defaults.nLag), 0 < xw.2 * xw.1 ^ k := fun xw hxw =>
    mul_pos (hr.2.weight_pos xw hxw) (pow_pos (hr.2.node_pos xw hxw) k)
  exact ⟨rule_sum_mono fun xw hxw => mul_le_mul_of_nonneg_left (effRefl_mono he' he hs hss hL (hq xw hxw).le).1 (hw xw hxw).le,
    fun ht hne => rule_sum_lt hr.1 hr.2 fun xw hxw =>
      mul_lt_mul_of_pos_left ((effRefl_mono he' he hs hss hL (hq xw hxw).le).2 (hq xw hxw) ht hne) (hw xw hxw)⟩

theorem raisedSum_lt_one (hr : env.RuleOk nLag) (he : 0 < e) (hs : 0 < sub) (hL : ∀ l ∈ L, 0 < l.1 ∧ 0 ≤ l.2) {z : ℝ} (hz : 0 < z) :
    raisedSum env nLag 1 e L sub z < 1 := by
  have h1 := (rule_moments hr.1 hr.2).2
  rw [← h1]
  refine rule_sum_lt hr.1 hr.2 fun xw hxw => ?_
  have hp := hr.2.node_pos xw hxw
  rw [pow_one]
  exact mul_lt_of_lt_one_right (mul_pos (hr.2.weight_pos xw hxw) hp) (effRefl_mem he hs hL (div_pos hp (by linarith)).le).2

theorem raised_average (hr : env.RuleOk nLag) (he : 0 < e) (hs : 0 < sub) (hL : ∀ l ∈ L, 0 < l.1 ∧ 0 ≤ l.2) (nu : Option ℝ) {z : ℝ}
    (hz : 0 < z) : (layered e (L.map fun l => ((l.1 : ℂ), l.2)) sub nu).reflCoefQsAboveSurf env (FP.num z) nLag =
      .ok (FP.num (raisedSum env nLag 1 e L sub z : ℂ)) := by
  rw [aboveSurf_num env _ (fun q => (effRefl q e L sub : ℂ)) z hz.ne' nLag hr.1 ⟨_, effRefl_num he hs hL nu hz.le⟩
    fun xw hxw => effRefl_num he hs hL nu (div_pos (hr.2.node_pos xw hxw) (by linarith)).le, ← raisedSum_cast]
  simp only [pow_one]

theorem raised_surf (hr : env.RuleOk nLag) (he : 0 < e) (hs : 0 < sub) (hL : ∀ l ∈ L, 0 < l.1 ∧ 0 ≤ l.2) (nu : Option ℝ) {z : ℝ}
    (hz : 0 < z) : (layered e (L.map fun l => ((l.1 : ℂ), l.2)) sub nu).surfPotAndField env (FP.num z) nLag =
      .ok (FP.num ((raisedSum env nLag 0 e L sub z / (2 * z) : ℝ) : ℂ), FP.num ((raisedSum env nLag 1 e L sub z / (4 * z ^ 2) : ℝ) : ℂ)) := by
  have h := surf_num env _ (fun q => (effRefl q e L sub : ℂ)) z hz.ne' nLag hr.1 ⟨_, effRefl_num he hs hL nu hz.le⟩
    fun xw hxw => effRefl_num he hs hL nu (div_pos (hr.2.node_pos xw hxw) (by linarith)).le
  have c0 := raisedSum_cast (env := env) (nLag := nLag) (e := e) (L := L) (sub := sub) 0 z
  have c1 := raisedSum_cast (env := env) (nLag := nLag) (e := e) (L := L) (sub := sub) 1 z
  simp only [pow_zero, mul_one] at c0
  simp only [pow_one] at c1
  rw [c0, c1, ← Complex.ofReal_div, ← Complex.ofReal_div] at h
  exact h

/-- So do the charge average, the potential and the field at the surface. -/
theorem C133_surface (env : Env) (e e' : ℝ) (L L' : List (ℝ × ℝ)) (sub sub' : ℝ) (nu : Option ℝ) (he' : 0 < e') (he : e' ≤ e)
    (hs : 0 < sub) (hss : sub ≤ sub') (hL : List.Forall₂ Raised L L') (nLag : Option ℕ) (hr : env.RuleOk nLag) (z : ℝ) (hz : 0 < z) :
    ∃ A φ E A' φ' E' : ℝ,
      (layered e (L.map fun l => ((l.1 : ℂ), l.2)) sub nu).reflCoefQsAboveSurf env (FP.num z) nLag = .ok (FP.num (A : ℂ)) ∧
      (layered e (L.map fun l => ((l.1 : ℂ), l.2)) sub nu).surfPotAndField env (FP.num z) nLag =
        .ok (FP.num (φ : ℂ), FP.num (E : ℂ)) ∧
      (layered e' (L'.map fun l => ((l.1 : ℂ), l.2)) sub' nu).reflCoefQsAboveSurf env (FP.num z) nLag = .ok (FP.num (A' : ℂ)) ∧
      (layered e' (L'.map fun l => ((l.1 : ℂ), l.2)) sub' nu).surfPotAndField env (FP.num z) nLag =
        .ok (FP.num (φ' : ℂ), FP.num (E' : ℂ)) ∧
      A ≤ A' ∧ φ ≤ φ' ∧ E ≤ E' ∧
      ((∀ l ∈ L, 0 < l.2) → (e, L, sub) ≠ (e', L', sub') → A < A' ∧ φ < φ' ∧ E < E') := by
  have he0 : 0 < e := by linarith
  have hs' : 0 < sub' := by linarith
  obtain ⟨a1, a2⟩ := raisedSum_mono hr he' he hs hss hL 0 hz
  obtain ⟨b1, b2⟩ := raisedSum_mono hr he' he hs hss hL 1 hz
  have k1 : 0 < 2 * z := by positivity
  have k2 : 0 < 4 * z ^ 2 := by positivity
  refine ⟨_, _, _, _, _, _, raised_average hr he0 hs (Raised.left hL) nu hz, raised_surf hr he0 hs (Raised.left hL) nu hz,
    raised_average hr he' hs' (Raised.right hL) nu hz, raised_surf hr he' hs' (Raised.right hL) nu hz, b1,
    div_le_div_of_nonneg_right a1 k1.le, div_le_div_of_nonneg_right b1 k2.le, fun ht hne => ⟨b2 ht hne, ?_, ?_⟩⟩
  · exact div_lt_div_of_pos_right (a2 ht hne) k1
  · exact div_lt_div_of_pos_right (b2 ht hne) k2

example (d : Defaults) := C133_surface (rule2 d) 2 1 [(5, 30), (2, 10)] [(6, 30), (2, 10)] 3 4 none one_pos (by norm_num) (by norm_num)
  (by norm_num) (by simp [Raised]; norm_num) (some 2) (rule2_ok d) 20 (by norm_num)

/-- So does the effective polarisability of the finite dipole model with the method `Q_ave`, for a real `g_factor` and a tip in reach. -/
theorem C133_tip (env : Env) (e e' : ℝ) (L L' : List (ℝ × ℝ)) (sub sub' : ℝ) (nu : Option ℝ) (he' : 0 < e') (he : e' ≤ e)
    (hs : 0 < sub) (hss : sub ≤ sub') (hL : List.Forall₂ Raised L L') (nLag : Option ℕ) (hr : env.RuleOk nLag) (z r l g d0 d1 dA : ℝ)
    (r0 : InReach z d0 r l g) (r1 : InReach z d1 r l g) (hQ : 0 < z + r * dA) :
    ∃ v v' : ℝ,
      Fdm.effPol env (layered e (L.map fun l => ((l.1 : ℂ), l.2)) sub nu) (some (FP.num z)) (fdmTip r l g d0 d1 dA) nLag
        (some "Q_ave") = .ok (FP.num (v : ℂ)) ∧
      Fdm.effPol env (layered e' (L'.map fun l => ((l.1 : ℂ), l.2)) sub' nu) (some (FP.num z)) (fdmTip r l g d0 d1 dA) nLag
        (some "Q_ave") = .ok (FP.num (v' : ℂ)) ∧
      v ≤ v' ∧ ((∀ l ∈ L, 0 < l.2) → (e, L, sub) ≠ (e', L', sub') → v < v') := by
  have he0 : 0 < e := by linarith
  have hs' : 0 < sub' := by linarith
  have p0 := rgeom_pos r0
  have p1 := rgeom_pos r1
  have q1 := rgeom_lt_one r1
  have hlt : ∀ B : ℝ, B < 1 → 0 < 1 - B * rgeom z d1 r l g := fun B hB => by nlinarith
  have val : ∀ (e : ℝ) (L : List (ℝ × ℝ)) (sub : ℝ), 0 < e → 0 < sub → (∀ l ∈ L, 0 < l.1 ∧ 0 ≤ l.2) →
      Fdm.effPol env (layered e (L.map fun l => ((l.1 : ℂ), l.2)) sub nu) (some (FP.num z)) (fdmTip r l g d0 d1 dA) nLag
        (some "Q_ave") = .ok (FP.num ((1 + raisedSum env nLag 1 e L sub (z + r * dA) * rgeom z d0 r l g /
          (2 * (1 - raisedSum env nLag 1 e L sub (z + r * dA) * rgeom z d1 r l g)) : ℝ) : ℂ)) := fun e L sub he hs hL => by
    have hne : (1 : ℂ) - (raisedSum env nLag 1 e L sub (z + r * dA) : ℂ) * Fdm.geom z d1 r l g ≠ 0 := by
      rw [geom_rgeom]
      exact_mod_cast (hlt _ (raisedSum_lt_one hr he hs hL hQ)).ne'
    rw [Fdm.effPol_Qave env, fdm_fdmTip]
    simp only [Option.getD_some, FP.num_mul, FP.num_add]
    rw [raised_average hr he hs hL nu hQ, PyM.ok_bind, Fdm.geomFunc_num r0.ok, Fdm.geomFunc_num r1.ok, Fdm.formula_num _ _ _ _ hne,
      geom_rgeom, geom_rgeom]
    push_cast
    rfl
  obtain ⟨b1, b2⟩ := raisedSum_mono hr he' he hs hss hL 1 hQ
  have t1 := hlt _ (raisedSum_lt_one hr he0 hs (Raised.left hL) hQ)
  have t2 := hlt _ (raisedSum_lt_one hr he' hs' (Raised.right hL) hQ)
  refine ⟨_, _, val e L sub he0 hs (Raised.left hL), val e' L' sub' he' hs' (Raised.right hL), ?_⟩
  set B := raisedSum env nLag 1 e L sub (z + r * dA)
  set B' := raisedSum env nLag 1 e' L' sub' (z + r * dA)
  refine ⟨(add_le_add_iff_left 1).2 ?_, fun ht hne => (add_lt_add_iff_left 1).2 ?_⟩
  · rw [div_le_div_iff₀ (by linarith) (by linarith)]
    have : 0 ≤ rgeom z d0 r l g * (B' - B) := mul_nonneg p0.le (sub_nonneg.2 b1)
    linarith
  · rw [div_lt_div_iff₀ (by linarith) (by linarith)]
    have : 0 < rgeom z d0 r l g * (B' - B) := mul_pos p0 (sub_pos.2 (b2 ht hne))
    linarith

example (d : Defaults) := C133_tip (rule2 d) 2 1 [(5, 30), (2, 10)] [(6, 30), (2, 10)] 3 4 none one_pos (by norm_num) (by norm_num)
  (by norm_num) (by simp [Raised]; norm_num) (some 2) (rule2_ok d) 0 20 300 0.7 1 0.5 1.4
  ⟨by norm_num, by norm_num, by norm_num, by norm_num, by norm_num, by norm_num, by norm_num⟩
  ⟨by norm_num, by norm_num, by norm_num, by norm_num, by norm_num, by norm_num, by norm_num⟩ (by norm_num)

/-- If the permittivity increases with depth, thicker layers hide more of what is below them. -/
theorem C133_thickness (env : Env) (e : ℝ) (L L' : List (ℝ × ℝ)) (sub : ℝ) (nu : Option ℝ) (h0 : 0 < e)
    (hinc : (e :: (L.map Prod.fst ++ [sub])).Pairwise (· ≤ ·)) (hL : List.Forall₂ Thicker L L') :
    (∀ q, 0 ≤ q → ∃ b b' : ℝ,
      (layered e (L.map fun l => ((l.1 : ℂ), l.2)) sub nu).reflCoefQs (FP.num q) = .ok (FP.num (b : ℂ)) ∧
      (layered e (L'.map fun l => ((l.1 : ℂ), l.2)) sub nu).reflCoefQs (FP.num q) = .ok (FP.num (b' : ℂ)) ∧ b' ≤ b) ∧
    ∀ (nLag : Option ℕ), env.RuleOk nLag → ∀ z, 0 < z → ∃ A A' : ℝ,
      (layered e (L.map fun l => ((l.1 : ℂ), l.2)) sub nu).reflCoefQsAboveSurf env (FP.num z) nLag = .ok (FP.num (A : ℂ)) ∧
      (layered e (L'.map fun l => ((l.1 : ℂ), l.2)) sub nu).reflCoefQsAboveSurf env (FP.num z) nLag = .ok (FP.num (A' : ℂ)) ∧
      A' ≤ A := by
  have hinc' : (e :: (L'.map Prod.fst ++ [sub])).Pairwise (· ≤ ·) := by rw [Thicker.perms hL]; exact hinc
  refine ⟨fun q hq => ⟨_, _, denser_refl h0 hinc nu q, denser_refl h0 hinc' nu q, deepRefl_thicker hq hL e h0 hinc⟩,
    fun nLag hr z hz => ⟨_, _, denser_average hr h0 hinc nu hz, denser_average hr h0 hinc' nu hz, ?_⟩⟩
  refine rule_sum_mono fun xw hxw => mul_le_mul_of_nonneg_left
    (deepRefl_thicker (div_pos (hr.2.node_pos xw hxw) (by linarith)).le hL e h0 hinc)
    (mul_nonneg (hr.2.weight_pos xw hxw).le (pow_nonneg (hr.2.node_pos xw hxw).le 1))

example (env : Env) := C133_thickness env 1 [(2, 30), (3, 10)] [(2, 40), (3, 10)] 11 none one_pos (by norm_num)
  (by simp [Thicker]; norm_num)

end

end Snompy.Props
