import Verif.Lemmas.DoubleQave
import Verif.Props.Overflow
import Verif.Props.Rounding
import Verif.Props.DoubleFdm
import Verif.Props.TaylorLayered
import Verif.Props.Image

/-!
# C129: rounding errors of the charge average, and of the finite dipole model above layered samples

`F64 L`/`C128 L` are the double-precision readings (`Verif/Double.lean`); `AverageOk` and `HeightOk`
(`Verif/Spec/Average.lean`) are quadrature rules and heights away from overflow and underflow.
-/

namespace Snompy.Props

open Snompy

variable {L : Libm}

seal uro eta maxDouble

/-- An exact and a computed sample that agree up to `δ` at the momenta `P`, also at slightly wrong ones. -/
private structure Agree (s : Stack (FP ℝ) (FP ℂ)) (Sr : Stack (F64 L) (F64 L)) (S : Stack (F64 L) (C128 L)) (P : ℝ → Prop)
    (β : ℝ → ℝ) (δ : ℝ) : Prop where
  ok : ∀ q, 0 < q → ∃ v, s.reflCoefQs (FP.num q) = .ok v
  exact : ∀ q, P q → s.reflCoefQs (FP.num q) = .ok (FP.num (β q : ℂ))
  le_one : ∀ q, P q → |β q| ≤ 1
  okr : ∀ v, ∃ c, Sr.reflCoefQs v = .ok c
  real : ∀ p q, P q → |p - q| ≤ 320 * uro * q → ∃ b, Sr.reflCoefQs (.fin p) = .ok (.fin b) ∧ |b - β q| ≤ δ
  okc : ∀ v, ∃ c, S.reflCoefQs v = .ok c
  cplx : ∀ p q, P q → |p - q| ≤ 320 * uro * q → ∃ b, S.reflCoefQs (.fin p) = .ok (C128.mk' L b) ∧ ‖b - β q‖ ≤ δ

section

variable {s : Stack (FP ℝ) (FP ℂ)} {Sr : Stack (F64 L) (F64 L)} {S : Stack (F64 L) (C128 L)} {P : ℝ → Prop} {β : ℝ → ℝ} {δ : ℝ}

private theorem Agree.accurate (h : Agree s Sr S P β δ) : ReflAccurate S P (fun q => (β q : ℂ)) δ :=
  ⟨h.okc, fun q hq => by rw [Complex.norm_real]; exact h.le_one q hq, h.cplx⟩

private theorem Agree.average_exact (h : Agree s Sr S P β δ) {cfg : Env} {nLag : Option ℕ} (hr : cfg.RuleOk nLag) {z : ℝ} (hz : 0 < z)
    (hP : ∀ xw ∈ cfg.laggauss (nLag.getD cfg.defaults.nLag), P (xw.1 / (2 * z))) :
    s.reflCoefQsAboveSurf cfg (FP.num z) nLag = .ok (FP.num (ruleAverage cfg nLag (fun q => (β q : ℂ)) z)) :=
  aboveSurf_num cfg s (fun q => (β q : ℂ)) z hz.ne' nLag hr.1 (h.ok z hz) fun xw hxw => h.exact _ (hP xw hxw)

private theorem Agree.average (h : Agree s Sr S P β δ) {cfg : Env} {nLag : Option ℕ} (hr : AverageOk cfg nLag) {z : ℝ} (hz : HeightOk z)
    (hδ : δ ≤ 1 / 10) (hP : ∀ xw ∈ cfg.laggauss (nLag.getD cfg.defaults.nLag), P (xw.1 / (2 * z))) :
    ∃ r x : ℝ, ∃ y : ℂ, s.reflCoefQsAboveSurf cfg (FP.num z) nLag = .ok (FP.num (r : ℂ)) ∧
      Sr.reflCoefQsAboveSurf cfg (.fin z) nLag = .ok (.fin x) ∧
      S.reflCoefQsAboveSurf cfg (.fin z) nLag = .ok ⟨.fin y.re, .fin y.im⟩ ∧
      |x - r| ≤ 17 / 12 * δ + 1 / 10 ^ 14 + (nLag.getD cfg.defaults.nLag : ℕ) / 10 ^ 15 ∧
      ‖y - r‖ ≤ 17 / 12 * δ + 1 / 10 ^ 14 + (nLag.getD cfg.defaults.nLag : ℕ) / 10 ^ 15 := by
  have hu := uro_pos
  have hu' := uro_le
  have hz0 := hz.pos
  obtain ⟨x, hx, ex⟩ := averageF64_near (L := L) hr h.okr h.le_one h.real hδ hz hP
  obtain ⟨y, hy, ey⟩ := average_near (L := L) hr h.accurate hδ hz (zh := z) (by rw [sub_self, abs_zero]; positivity) hP
  have hv := h.average_exact hr.rule hz0 hP
  rw [ruleAverage_real] at hv ey
  rw [hr.rule.2.length] at ex ey
  have hN : (0 : ℝ) ≤ (nLag.getD cfg.defaults.nLag : ℕ) := Nat.cast_nonneg _
  have hNu : (nLag.getD cfg.defaults.nLag : ℕ) * uro ≤ (nLag.getD cfg.defaults.nLag : ℕ) * (1111 / 10 ^ 19) :=
    mul_le_mul_of_nonneg_left hu' hN
  have hδ0 : 0 ≤ δ ∨ δ < 0 := le_or_gt 0 δ
  refine ⟨_, x, y, hv, hx, hy, ?_, ?_⟩
  · have hp : 0 ≤ δ + 10 * uro + (nLag.getD cfg.defaults.nLag : ℕ) * (5 * uro) := (abs_nonneg _).trans ex
    refine ex.trans ?_
    linarith
  · refine ey.trans ?_
    linarith

/-- The error of the reflection coefficient that the finite dipole model sees. -/
private noncomputable def tol (δ : ℝ) (N : ℕ) : ℝ := 3 / 2 * δ + 5 / 10 ^ 13 + N / 10 ^ 15

private theorem Agree.tip (h : Agree s Sr S P β δ) (hδ0 : 0 ≤ δ) (hδ : δ ≤ 1 / 1000) {cfg : Env} {nLag : Option ℕ} (hr : AverageOk cfg nLag)
    {a : FdmArgs (F64 L) (C128 L)} {x y d0 d1 dA r l : ℝ} {g B : ℂ}
    (ha : Fdm.TipNear (cfg.defaults.fdm a) d0 d1 r l g) (hdA : (cfg.defaults.fdm a).dQa.Near dA 20) (hr0 : (1 / 2) ^ 90 ≤ r)
    (hd0 : 1 / 2 ≤ dA) (htop : y + r * dA ≤ 2 ^ 99) (hxy : |x - y| ≤ 130 * uro * (r + y))
    (hP : ∀ xw ∈ cfg.laggauss (nLag.getD cfg.defaults.nLag), P (xw.1 / (2 * (y + r * dA))))
    (R0 : Fdm.Range y d0 r l g) (R1 : Fdm.Range y d1 r l g)
    (hB : s.reflCoefQsAboveSurf cfg (FP.num (y + r * dA)) nLag = .ok (FP.num B))
    (h0 : 1 - B * Fdm.geom y d1 r l g ≠ 0) (hκ : Fdm.condition y d0 d1 r l g B ≤ 10 ^ 6)
    (hκ' : tol δ (nLag.getD cfg.defaults.nLag) * Fdm.condition y d0 d1 r l g B ≤ 1 / 100) :
    ∃ w, Fdm.effPol cfg S (some (.fin x)) a nLag (some "Q_ave") = .ok (C128.mk' L w) ∧
      ‖w - Fdm.pol y d0 d1 r l g B‖ ≤ tol δ (nLag.getD cfg.defaults.nLag) *
          Fdm.condition y d0 d1 r l g B * (1 + ‖Fdm.pol y d0 d1 r l g B - 1‖) := by
  have hr1 : 0 < r := lt_of_lt_of_le (by positivity) hr0
  have hz0 : 0 < y + r * dA := by
    have := R0.z_nonneg
    have : 0 < r * dA := mul_pos hr1 (by linarith)
    linarith
  have hv := h.average_exact hr.rule hz0 hP
  rw [hB] at hv
  obtain rfl : B = ruleAverage cfg nLag (fun q => (β q : ℂ)) (y + r * dA) := by
    injection hv with hv
    injection hv
  have hN : (0 : ℝ) ≤ (nLag.getD cfg.defaults.nLag : ℕ) := Nat.cast_nonneg _
  have hN6 : ((nLag.getD cfg.defaults.nLag : ℕ) : ℝ) ≤ 10 ^ 6 := by exact_mod_cast hr.few
  have n0 : (0 : ℝ) ≤ Fdm.condition y d0 d1 r l g (ruleAverage cfg nLag (fun q => (β q : ℂ)) (y + r * dA)) := by
    obtain ⟨-, -, -, n0, -⟩ := Fdm.geom_near (L := L) R0 ha.r ha.l ha.g ⟨x, rfl, hxy⟩ ha.d0 (by norm_num) le_rfl
    obtain ⟨-, -, -, n1, -⟩ := Fdm.geom_near (L := L) R1 ha.r ha.l ha.g ⟨x, rfl, hxy⟩ ha.d1 (by norm_num) le_rfl
    have := Fdm.one_le_condition h0 ((norm_nonneg _).trans n0) n1
    linarith
  have hu := uro_pos
  have hNu : (nLag.getD cfg.defaults.nLag : ℕ) * uro ≤ (nLag.getD cfg.defaults.nLag : ℕ) * (1111 / 10 ^ 19) :=
    mul_le_mul_of_nonneg_left uro_le hN
  have hu' := uro_le
  set ε := 17 / 12 * (δ + 10 * uro + (nLag.getD cfg.defaults.nLag : ℕ) * (5 * uro)) with hε
  have hε2 : 43 / 10 ^ 14 + 103 / 100 * ε ≤ tol δ (nLag.getD cfg.defaults.nLag) := by
    unfold tol
    linarith
  have hε0 : 0 ≤ ε := by positivity
  clear_value ε
  have hεt : ε ≤ tol δ (nLag.getD cfg.defaults.nLag) := by linarith
  obtain ⟨w, hw, ew⟩ := Fdm.qave_near (L := L) cfg hr h.accurate (hδ.trans (by norm_num)) ha hdA hr0 hd0 htop hxy hP R0 R1
    (ε := ε) (by rw [hr.rule.2.length]; exact hε.ge) (by
      have h9 : tol δ (nLag.getD cfg.defaults.nLag) ≤ 1 / 100 := by
        unfold tol
        linarith
      exact hεt.trans h9) h0 (hκ.trans (by norm_num)) ((mul_le_mul_of_nonneg_right hεt n0).trans hκ')
  refine ⟨w, hw, ew.trans ?_⟩
  rw [mul_assoc, mul_assoc]
  exact mul_le_mul_of_nonneg_right hε2 (by positivity)

private theorem Agree.harmonics (h : Agree s Sr S P β δ) (hδ0 : 0 ≤ δ) (hδ : δ ≤ 1 / 1000) {cfg : Env} {nLag : Option ℕ} (hr : AverageOk cfg nLag)
    {a : FdmArgs (F64 L) (C128 L)} {z d0 d1 dA r l A n κ M : ℝ} {g : ℂ} {B : ℝ → ℂ} {nT : Option ℕ}
    (ha : Fdm.TipNear (cfg.defaults.fdm a) d0 d1 r l g) (hdA : (cfg.defaults.fdm a).dQa.Near dA 20) (hr0 : (1 / 2) ^ 90 ≤ r)
    (hd0 : 1 / 2 ≤ dA) (htop : z + 2 * A + r * dA ≤ 2 ^ 99) 
    (hP : ∀ y, z ≤ y → y ≤ z + 2 * A → ∀ xw ∈ cfg.laggauss (nLag.getD cfg.defaults.nLag), P (xw.1 / (2 * (y + r * dA))))
    (R : ∀ y, z ≤ y → y ≤ z + 2 * A → Fdm.Range y d0 r l g ∧ Fdm.Range y d1 r l g)
    (hB : ∀ y, z ≤ y → y ≤ z + 2 * A → s.reflCoefQsAboveSurf cfg (FP.num (y + r * dA)) nLag = .ok (FP.num (B y)))
    (hA : 0 < A) (hA2 : 2 * A ≤ 9 * r) (hA1 : (1 / 2) ^ 700 ≤ A)
    (hn : |n| ≤ 10 ^ 12) (hN0 : 1 ≤ nT.getD cfg.defaults.nTrapz)
    (hN : ((nT.getD cfg.defaults.nTrapz : ℕ) : ℝ) ≤ 10 ^ 12) (hκ1 : 1 ≤ κ) (hκ : κ ≤ 10 ^ 6) (hM : M ≤ 10 ^ 9)
    (hκ' : tol δ (nLag.getD cfg.defaults.nLag) * κ ≤ 1 / 100)
    (hres : ∀ y, z ≤ y → y ≤ z + 2 * A → 1 - B y * Fdm.geom y d1 r l g ≠ 0 ∧ Fdm.condition y d0 d1 r l g (B y) ≤ κ ∧
      ‖Fdm.pol y d0 d1 r l g (B y) - 1‖ ≤ M) :
    ∃ w, Fdm.effPolN cfg S (.fin A) (.fin n) (some (.fin z)) nT a nLag (some "Q_ave") = .ok (C128.mk' L w) ∧
      ‖w - demodSum (fun y => Fdm.pol y d0 d1 r l g (B y)) (z + A) A n (nT.getD cfg.defaults.nTrapz)‖ ≤
        (102 / 100 * tol δ (nLag.getD cfg.defaults.nLag) * κ +
          (58 * |n| + 3 * (nT.getD cfg.defaults.nTrapz : ℕ) + 120) * uro) * (1 + M) := by
  have hu := uro_pos
  obtain ⟨Rz, -⟩ := R z le_rfl (by linarith)
  have hM0 : 0 ≤ M := (norm_nonneg _).trans (hres z le_rfl (by linarith)).2.2
  have hr1 : 0 < r := lt_of_lt_of_le (by positivity) hr0
  have hs2 : z + 2 * A ≤ 2 ^ 100 := by
    have h1 : 0 < r * dA := mul_pos hr1 (by linarith)
    have h2 : (2 : ℝ) ^ 99 ≤ 2 ^ 100 := pow_le_pow_right₀ one_le_two (by norm_num)
    linarith
  have hu3 : uro ^ 3 ≤ 1 / 10 ^ 16 := by rw [uro3_pow]; norm_num
  have hNn : (0 : ℝ) ≤ (nLag.getD cfg.defaults.nLag : ℕ) := Nat.cast_nonneg _
  have hc2 : 5 / 10 ^ 13 ≤ tol δ (nLag.getD cfg.defaults.nLag) := by
    unfold tol
    have : 0 ≤ ((nLag.getD cfg.defaults.nLag : ℕ) : ℝ) / 10 ^ 15 := by positivity
    linarith
  have ht := fun y x y1 y2 hxy R0 R1 h3 h4 => h.tip hδ0 hδ hr ha hdA hr0 hd0 (x := x) (y := y) (show y + r * dA ≤ 2 ^ 99 by linarith)
    hxy (hP y y1 y2) R0 R1 (hB y y1 y2) h3 h4
  generalize tol δ (nLag.getD cfg.defaults.nLag) = c at *
  have hc0 : 0 ≤ c := by linarith
  obtain ⟨w, hw, ew⟩ := Fdm.harmonics_near (L := L) cfg (S := S) (method := some "Q_ave") (a := a) (n := n) (M := M)
    (ε := c * κ * (1 + M)) (G := fun y => Fdm.pol y d0 d1 r l g (B y)) nLag Rz.z_nonneg hs2 hA hA2 hA1 hn hN0 hN hM0 hM
    (by
      have h2 : c * κ * (1 + M) ≤ 1 / 10 * (1 + M) :=
        mul_le_mul_of_nonneg_right (hκ'.trans (by norm_num)) (by positivity)
      linarith)
    (fun y x y1 y2 hxy => by
      obtain ⟨h3, h4, h5⟩ := hres y y1 y2
      obtain ⟨R0, R1⟩ := R y y1 y2
      obtain ⟨w, hw, ew⟩ := ht y x y1 y2 hxy R0 R1 h3 (h4.trans hκ) ((mul_le_mul_of_nonneg_left h4 hc0).trans hκ')
      refine ⟨w, hw, ew.trans ?_⟩
      exact mul_le_mul (mul_le_mul_of_nonneg_left h4 hc0) (by linarith) (by positivity) (mul_nonneg hc0 (by linarith)))
    (fun y y1 y2 => by
      obtain ⟨_, _, h3⟩ := hres y y1 y2
      have h4 := norm_add_le (1 : ℂ) (Fdm.pol y d0 d1 r l g (B y) - 1)
      rw [norm_one, add_sub_cancel] at h4
      linarith)
  refine ⟨w, hw, ew.trans ?_⟩
  have h1 : 1 * 1 ≤ κ * (1 + M) := mul_le_mul hκ1 (by linarith) (by norm_num) (by linarith)
  have h2 : 5 / 10 ^ 13 * (κ * (1 + M)) ≤ c * (κ * (1 + M)) := mul_le_mul_of_nonneg_right hc2 (by linarith)
  have e5 : ∀ X : ℝ, (102 / 100 * c * κ + X * uro) * (1 + M) = 102 / 100 * (c * (κ * (1 + M))) + X * uro * (1 + M) :=
    fun X => by ring
  rw [e5, mul_assoc c]
  linarith

private theorem tol_film {cfg : Env} {nLag : Option ℕ} (hr : AverageOk cfg nLag) {κ : ℝ} (hκ : κ ≤ 10 ^ 6) :
    tol (23 / 10 ^ 13) (nLag.getD cfg.defaults.nLag) * κ ≤ 1 / 100 ∧
      tol (23 / 10 ^ 13) (nLag.getD cfg.defaults.nLag) ≤ 4 / 10 ^ 12 + (nLag.getD cfg.defaults.nLag : ℕ) / 10 ^ 15 := by
  have hN : (0 : ℝ) ≤ (nLag.getD cfg.defaults.nLag : ℕ) := Nat.cast_nonneg _
  have hN6 : ((nLag.getD cfg.defaults.nLag : ℕ) : ℝ) ≤ 10 ^ 6 := by exact_mod_cast hr.few
  unfold tol
  refine ⟨?_, by linarith⟩
  refine (mul_le_mul_of_nonneg_left hκ (by positivity)).trans ?_
  linarith

end

private theorem size_nonneg {z d r l : ℝ} {g : ℂ} (R : Fdm.Range z d r l g) : 0 ≤ Fdm.size z d r l g := by
  have hr : 0 < r := lt_of_lt_of_le (by positivity) R.r_ge
  have hl : 0 < l := lt_of_lt_of_le (by positivity) R.l_ge
  have hz := R.z_nonneg
  have hd := R.d_nonneg
  unfold Fdm.size
  positivity

/-! ## Films -/

private theorem film_agree {env e sub t : ℝ} (h0 : 0 < env) (h1 : env ≤ e) (h2 : e ≤ sub) (hm : Moderate env) (hm' : Moderate sub)
    (ht : 0 ≤ t) : Agree (L := L) (layered env [((e : ℂ), t)] sub) (layeredF64 L env [(e, t)] sub) (layeredC128 L env [((e : ℂ), t)] sub)
      (fun q => 0 < q) (fun q => slabRefl (env / e) (e / sub) (Real.exp (-(2 * clipped (q * t))))) (23 / 10 ^ 13) where
  ok q _ := ⟨_, slab_exact h0 h1 h2 q t⟩
  exact q _ := slab_exact h0 h1 h2 q t
  le_one q hq := film_le_one h0 h1 h2 (mul_nonneg hq.le ht)
  okr := reflCoefQs_scalar_ok _ rfl
  okc := reflCoefQs_scalar_ok _ rfl
  real p q hq hpq := by
    obtain ⟨hp, k⟩ := film_moves h0 h1 h2 ht hq hpq
    obtain ⟨x, y, r, a1, a2, a3, a4, a5⟩ := C82_partial (L := L) env e sub p t h0 h1 h2 hm hm' hp ht
    rw [slab_exact h0 h1 h2] at a1
    injection a1 with a1
    injection a1 with a1
    rw [← Complex.ofReal_inj.1 a1] at a4
    refine ⟨x, a2, (abs_sub_le _ _ _).trans ((add_le_add a4 k).trans ?_)⟩
    norm_num
  cplx p q hq hpq := by
    obtain ⟨hp, k⟩ := film_moves h0 h1 h2 ht hq hpq
    obtain ⟨x, y, r, a1, a2, a3, a4, a5⟩ := C82_partial (L := L) env e sub p t h0 h1 h2 hm hm' hp ht
    rw [slab_exact h0 h1 h2] at a1
    injection a1 with a1
    injection a1 with a1
    rw [← Complex.ofReal_inj.1 a1] at a5
    refine ⟨(y : ℂ), a3, ?_⟩
    rw [← Complex.ofReal_sub, Complex.norm_real]
    refine (abs_sub_le _ _ _).trans ((add_le_add a5 k).trans ?_)
    norm_num

private theorem node_pos {cfg : Env} {nLag : Option ℕ} (hr : AverageOk cfg nLag) {z : ℝ} (hz : 0 < z) :
    ∀ xw ∈ cfg.laggauss (nLag.getD cfg.defaults.nLag), 0 < xw.1 / (2 * z) := fun xw hxw =>
  div_pos (hr.rule.2.node_pos xw hxw) (by linarith)

private theorem rule2_average (d : Defaults) : AverageOk (rule2 d) (some 2) where
  rule := rule2_ok d
  few := show 2 ≤ 10 ^ 6 by norm_num

/-- A film of any thickness between a thinner and a denser medium: the charge average is computed with an error below
`4·10⁻¹²`, plus `10⁻¹⁵` for every node of the rule. -/
theorem C129_film (cfg : Env) (nLag : Option ℕ) (hr : AverageOk cfg nLag) (env e sub t z : ℝ) (h0 : 0 < env) (h1 : env ≤ e)
    (h2 : e ≤ sub) (hm : Moderate env) (hm' : Moderate sub) (ht : 0 ≤ t) (hz : HeightOk z) :
    ∃ r x : ℝ, ∃ y : ℂ, (layered env [((e : ℂ), t)] sub).reflCoefQsAboveSurf cfg (FP.num z) nLag = .ok (FP.num (r : ℂ)) ∧
      (layeredF64 L env [(e, t)] sub).reflCoefQsAboveSurf cfg (.fin z) nLag = .ok (.fin x) ∧
      (layeredC128 L env [((e : ℂ), t)] sub).reflCoefQsAboveSurf cfg (.fin z) nLag = .ok ⟨.fin y.re, .fin y.im⟩ ∧
      |x - r| ≤ 4 / 10 ^ 12 + (nLag.getD cfg.defaults.nLag : ℕ) / 10 ^ 15 ∧
      ‖y - r‖ ≤ 4 / 10 ^ 12 + (nLag.getD cfg.defaults.nLag : ℕ) / 10 ^ 15 := by
  obtain ⟨r, x, y, a1, a2, a3, a4, a5⟩ := (film_agree (L := L) h0 h1 h2 hm hm' ht).average hr hz (by norm_num) (node_pos hr hz.pos)
  exact ⟨r, x, y, a1, a2, a3, a4.trans (by linarith), a5.trans (by linarith)⟩

example (d : Defaults) (t : ℝ) (ht : 0 ≤ t) := C129_film (L := Libm.exact) (rule2 d) (some 2) (rule2_average d) 1 2 2 t 1e-9 one_pos
  (by norm_num) le_rfl moderate_one moderate_two ht ⟨by norm_num, by norm_num⟩

private theorem film_average {cfg : Env} {nLag : Option ℕ} (hr : AverageOk cfg nLag) {env e sub t z : ℝ} (h0 : 0 < env) (h1 : env ≤ e)
    (h2 : e ≤ sub) (hm : Moderate env) (hm' : Moderate sub) (ht : 0 ≤ t) (hz : 0 < z) :
    ∃ B : ℂ, (layered env [((e : ℂ), t)] sub).reflCoefQsAboveSurf cfg (FP.num z) nLag = .ok (FP.num B) ∧ ‖B‖ ≤ 1 :=
  ⟨_, (film_agree (L := Libm.exact) h0 h1 h2 hm hm' ht).average_exact hr.rule hz (node_pos hr hz), ruleAverage_le hr.rule fun xw hxw =>
    (film_agree (L := Libm.exact) h0 h1 h2 hm hm' ht).accurate.le_one _ (node_pos hr hz xw hxw)⟩

/-- A tip at one height above such a film, method `Q_ave`. -/
theorem C129_tip (cfg : Env) (nLag : Option ℕ) (hr : AverageOk cfg nLag) (env e sub t : ℝ) (h0 : 0 < env) (h1 : env ≤ e)
    (h2 : e ≤ sub) (hm : Moderate env) (hm' : Moderate sub) (ht : 0 ≤ t) (z r l : ℝ) (g B : ℂ) (d0 d1 dA : ℝ)
    (R0 : Fdm.Range z d0 r l g) (R1 : Fdm.Range z d1 r l g) (hr0 : (1 / 2) ^ 90 ≤ r) (hdA : 1 / 2 ≤ dA) (htop : z + r * dA ≤ 2 ^ 99)
    (hB : (layered env [((e : ℂ), t)] sub).reflCoefQsAboveSurf cfg (FP.num (z + r * dA)) nLag = .ok (FP.num B))
    (hD : 1 - B * Fdm.geom z d1 r l g ≠ 0) (hκ : Fdm.condition z d0 d1 r l g B ≤ 10 ^ 6) :
    ∃ w v : ℂ, Fdm.effPol cfg (layeredC128 L env [((e : ℂ), t)] sub) (some (.fin z)) (fdmTipC128 L r l g d0 d1 dA) nLag
        (some "Q_ave") = .ok ⟨.fin w.re, .fin w.im⟩ ∧
      Fdm.effPol cfg (layered env [((e : ℂ), t)] sub) (some (FP.num z)) (fdmTip r l g d0 d1 dA) nLag (some "Q_ave") =
        .ok (FP.num v) ∧
      ‖w - v‖ ≤ (4 / 10 ^ 12 + (nLag.getD cfg.defaults.nLag : ℕ) / 10 ^ 15) * Fdm.condition z d0 d1 r l g B * (1 + ‖v - 1‖) := by
  have hr1 : 0 < r := lt_of_lt_of_le (by positivity) hr0
  have hz0 : 0 < z + r * dA := by
    have := R0.z_nonneg
    have : 0 < r * dA := mul_pos hr1 (by linarith)
    linarith
  obtain ⟨w, hw, ew⟩ := (film_agree (L := L) h0 h1 h2 hm hm' ht).tip (by norm_num) (by norm_num) hr (x := z) (fdmTipC128_near cfg r l g d0 d1 dA)
    ((F64.near_fin dA).mono (by norm_num)) hr0 hdA htop (by
      rw [sub_self, abs_zero]
      have := uro_pos
      have := R0.z_nonneg
      positivity) (node_pos hr hz0) R0 R1 hB hD hκ (tol_film hr hκ).1
  refine ⟨w, _, hw, ?_, ew.trans (mul_le_mul_of_nonneg_right (mul_le_mul_of_nonneg_right (tol_film hr hκ).2 ?_) (by positivity))⟩
  · rw [Fdm.effPol_Qave, fdm_fdmTip]
    simp only [Option.getD_some, FP.num_mul, FP.num_add]
    rw [hB, PyM.ok_bind, Fdm.geomFunc_num (Range.ok R0), Fdm.geomFunc_num (Range.ok R1), Fdm.formula_num _ _ _ _ hD]
    rfl
  · unfold Fdm.condition
    have := size_nonneg R0
    have := size_nonneg R1
    positivity

example (d : Defaults) (t : ℝ) (ht : 0 ≤ t) : ∃ B : ℂ, ‖B‖ ≤ 1 ∧ ∃ w v : ℂ,
    Fdm.effPol (rule2 d) (layeredC128 Libm.exact 1 [(2, t)] 2) (some (.fin 0)) (fdmTipC128 Libm.exact 20e-9 300e-9 gDefault 1 0.5 1.4)
      (some 2) (some "Q_ave") = .ok ⟨.fin w.re, .fin w.im⟩ ∧
    ‖w - v‖ ≤ (4 / 10 ^ 12 + 2 / 10 ^ 15) * Fdm.condition 0 1 0.5 20e-9 300e-9 gDefault B * (1 + ‖v - 1‖) := by
  have hz : (0 : ℝ) < 0 + 20e-9 * 1.4 := by norm_num
  obtain ⟨B, hB, hB1⟩ := film_average (rule2_average d) one_pos (by norm_num : (1 : ℝ) ≤ 2) le_rfl moderate_one moderate_two ht hz
  have hc := condition_default (x := 0) (d0 := 1) (d1 := 0.5) (by norm_num) (by norm_num) (by norm_num) (by norm_num) le_rfl (by norm_num) hB1
  obtain ⟨w, v, h1, -, h3⟩ := C129_tip (L := Libm.exact) (rule2 d) (some 2) (rule2_average d) 1 2 2 t one_pos (by norm_num) le_rfl
    moderate_one moderate_two ht 0 20e-9 300e-9 gDefault B 1 0.5 1.4 (range_default (by norm_num) (by norm_num) le_rfl (by norm_num))
    (range_default (by norm_num) (by norm_num) le_rfl (by norm_num)) (by norm_num) (by norm_num) (by norm_num) hB hc.1
    (hc.2.1.trans (by norm_num))
  exact ⟨B, hB1, w, v, h1, h3⟩

/-- The harmonics of its signal, for a tip whose signal stays within `M` of 1. -/
theorem C129_harmonics (cfg : Env) (nLag : Option ℕ) (hr : AverageOk cfg nLag) (env e sub t : ℝ) (h0 : 0 < env) (h1 : env ≤ e)
    (h2 : e ≤ sub) (hm : Moderate env) (hm' : Moderate sub) (ht : 0 ≤ t) (z amp r l κ M n : ℝ) (g : ℂ) (B : ℝ → ℂ) (d0 d1 dA : ℝ)
    (N : ℕ) (R : ∀ x, z ≤ x → x ≤ z + 2 * amp → Fdm.Range x d0 r l g ∧ Fdm.Range x d1 r l g) (hr0 : (1 / 2) ^ 90 ≤ r)
    (hdA : 1 / 2 ≤ dA) (htop : z + 2 * amp + r * dA ≤ 2 ^ 99)
    (hA : (1 / 2) ^ 700 ≤ amp) (hA' : 2 * amp ≤ 9 * r) (hn : |n| ≤ 10 ^ 12) (hN : 1 ≤ N) (hN' : (N : ℝ) ≤ 10 ^ 12)
    (hB : ∀ x, z ≤ x → x ≤ z + 2 * amp →
      (layered env [((e : ℂ), t)] sub).reflCoefQsAboveSurf cfg (FP.num (x + r * dA)) nLag = .ok (FP.num (B x)))
    (hres : ∀ x, z ≤ x → x ≤ z + 2 * amp → 1 - B x * Fdm.geom x d1 r l g ≠ 0 ∧ Fdm.condition x d0 d1 r l g (B x) ≤ κ ∧
      ‖B x * Fdm.geom x d0 r l g / (2 * (1 - B x * Fdm.geom x d1 r l g))‖ ≤ M)
    (hκ1 : 1 ≤ κ) (hκ : κ ≤ 10 ^ 6) (hM : M ≤ 10 ^ 9) :
    ∃ w v : ℂ, Fdm.effPolN cfg (layeredC128 L env [((e : ℂ), t)] sub) (.fin amp) (.fin n) (some (.fin z)) (some N)
        (fdmTipC128 L r l g d0 d1 dA) nLag (some "Q_ave") = .ok ⟨.fin w.re, .fin w.im⟩ ∧
      Fdm.effPolN cfg (layered env [((e : ℂ), t)] sub) (FP.num amp) (FP.num n) (some (FP.num z)) (some N)
        (fdmTip r l g d0 d1 dA) nLag (some "Q_ave") = .ok (FP.num v) ∧
      ‖w - v‖ ≤ ((41 / 10 ^ 13 + 2 * (nLag.getD cfg.defaults.nLag : ℕ) / 10 ^ 15) * κ + (58 * |n| + 3 * N + 120) * (1 / 2) ^ 53) *
        (1 + M) := by
  have hA0 : 0 < amp := lt_of_lt_of_le (by positivity) hA
  have hr1 : 0 < r := lt_of_lt_of_le (by positivity) hr0
  obtain ⟨R0, R1⟩ := R z le_rfl (by linarith)
  have hrd : 0 < r * dA := mul_pos hr1 (by linarith)
  have hz := R0.z_nonneg
  obtain ⟨w, hw, ew⟩ := (film_agree (L := L) h0 h1 h2 hm hm' ht).harmonics (by norm_num) (by norm_num) hr (n := n) (nT := some N) (κ := κ) (M := M)
    (fdmTipC128_near cfg r l g d0 d1 dA) ((F64.near_fin dA).mono (by norm_num)) hr0 hdA htop
    (fun y y1 _ => node_pos hr (by linarith)) R hB hA0 hA' hA hn hN hN' hκ1 hκ hM (tol_film hr hκ).1 fun x h1 h2 => by
      rw [Fdm.pol_sub_one]
      exact hres x h1 h2
  have hu : uro = (1 / 2) ^ 53 := by unfold uro; norm_num
  rw [hu] at ew
  have hM0 : 0 ≤ M := (norm_nonneg _).trans (hres z le_rfl (by linarith)).2.2
  refine ⟨w, _, hw, effPolN_qave cfg _ B z r l g d0 d1 dA (Range.ok R0) (Range.ok R1) amp hA0.le nLag hB
    (fun x a b => fun hc => (hres x a b).1 (by rw [hc, sub_self])) n N (by omega),
    ew.trans (mul_le_mul_of_nonneg_right (add_le_add (mul_le_mul_of_nonneg_right ?_ (by linarith)) le_rfl) (by linarith))⟩
  have := (tol_film hr hκ).2
  have hN : (0 : ℝ) ≤ (nLag.getD cfg.defaults.nLag : ℕ) := Nat.cast_nonneg _
  linarith

example (d : Defaults) (t : ℝ) (ht : 0 ≤ t) : ∃ w v : ℂ,
    Fdm.effPolN (rule2 d) (layeredC128 Libm.exact 1 [(2, t)] 2) (.fin 50e-9) (.fin 3) (some (.fin 0)) (some 32)
      (fdmTipC128 Libm.exact 20e-9 300e-9 gDefault 1 0.5 1.4) (some 2) (some "Q_ave") = .ok ⟨.fin w.re, .fin w.im⟩ ∧
    ‖w - v‖ ≤ ((41 / 10 ^ 13 + 2 * 2 / 10 ^ 15) * 44 + (58 * |3| + 3 * (32 : ℕ) + 120) * (1 / 2) ^ 53) * (1 + 0.6) := by
  have hz : ∀ x : ℝ, 0 ≤ x → (0 : ℝ) < x + 20e-9 * 1.4 := fun x hx => by norm_num; linarith
  have hav := fun x hx => film_average (rule2_average d) one_pos (by norm_num : (1 : ℝ) ≤ 2) le_rfl moderate_one moderate_two ht (hz x hx)
  choose B hB hB1 using hav
  obtain ⟨w, v, h1, -, h3⟩ := C129_harmonics (L := Libm.exact) (rule2 d) (some 2) (rule2_average d) 1 2 2 t one_pos (by norm_num) le_rfl
    moderate_one moderate_two ht 0 50e-9 20e-9 300e-9 44 0.6 3 gDefault (fun x => if h : 0 ≤ x then B x h else 0) 1 0.5 1.4 32
    (fun x h1 h2 => ⟨range_default (by norm_num) (by norm_num) h1 (by norm_num at h2 ⊢; linarith),
      range_default (by norm_num) (by norm_num) h1 (by norm_num at h2 ⊢; linarith)⟩) (by norm_num) (by norm_num) (by norm_num)
    ((pow_le_pow_of_le_one (by norm_num) (by norm_num) (show 100 ≤ 700 by norm_num)).trans (by norm_num)) (by norm_num)
    (by norm_num) (by norm_num) (by norm_num) (fun x h1 _ => by rw [dif_pos h1]; exact hB x h1)
    (fun x h1 h2 => by
      rw [dif_pos h1]
      exact condition_default (by norm_num) (by norm_num) (by norm_num) (by norm_num) h1 (by norm_num at h2 ⊢; linarith) (hB1 x h1))
    (by norm_num) (by norm_num) (by norm_num)
  exact ⟨w, v, h1, h3⟩

/-- The default tip, height, rule and 32 trapezia above any such film: for amplitudes between `10⁻¹⁵` m and 60 nm the first
five harmonics are computed with rounding errors below `3.1·10⁻¹⁰`. -/
theorem C129_default (lag : ℕ → List (ℝ × ℝ)) (hr : AverageOk ⟨Defaults.initial, lag⟩ none) (env e sub t : ℝ) (h0 : 0 < env)
    (h1 : env ≤ e) (h2 : e ≤ sub) (hm : Moderate env) (hm' : Moderate sub) (ht : 0 ≤ t)
    (amp : ℝ) (hA : 1e-15 ≤ amp) (hA' : amp ≤ 60e-9) (n : ℤ) (hn : |n| ≤ 5) :
    ∃ w v : ℂ, Fdm.effPolN ⟨Defaults.initial, lag⟩ (layeredC128 L env [((e : ℂ), t)] sub) (.fin amp) (.fin n) none none {} none
        (some "Q_ave") = .ok ⟨.fin w.re, .fin w.im⟩ ∧
      Fdm.effPolN ⟨Defaults.initial, lag⟩ (layered env [((e : ℂ), t)] sub) (FP.num amp) (FP.num n) none none {} none
        (some "Q_ave") = .ok (FP.num v) ∧
      ‖w - v‖ ≤ 3.1e-10 := by
  have hA0 : 0 < amp := lt_of_lt_of_le (by norm_num) hA
  have hn' : |(n : ℝ)| ≤ 5 := by exact_mod_cast hn
  obtain ⟨g0, g0'⟩ := d0_default
  set d0 : ℝ := 1.31 * 300e-9 / (300e-9 + 2 * 20e-9) with hd0
  have hA2 : 2 * amp ≤ 120e-9 := by norm_num at hA' ⊢; linarith
  have hF := film_agree (L := L) h0 h1 h2 hm hm' ht
  set B : ℝ → ℂ := fun y => ruleAverage ⟨Defaults.initial, lag⟩ none
    (fun q => ((slabRefl (env / e) (e / sub) (Real.exp (-(2 * clipped (q * t)))) : ℝ) : ℂ)) (y + 20e-9 * 1.4) with hBd
  have hp : ∀ y : ℝ, 0 ≤ y → 0 < y + 20e-9 * 1.4 := fun y hy => by norm_num; linarith
  have hB : ∀ y, 0 ≤ y → y ≤ 0 + 2 * amp → (layered env [((e : ℂ), t)] sub).reflCoefQsAboveSurf ⟨Defaults.initial, lag⟩
      (FP.num (y + 20e-9 * 1.4)) none = .ok (FP.num (B y)) := fun y y1 _ => hF.average_exact hr.rule (hp y y1) (node_pos hr (hp y y1))
  have hB1 : ∀ y, 0 ≤ y → ‖B y‖ ≤ 1 := fun y hy => ruleAverage_le hr.rule fun xw hxw =>
    hF.accurate.le_one _ (node_pos hr (hp y hy) xw hxw)
  clear_value B
  have hc := fun (x : ℝ) (h1 : 0 ≤ x) (h2 : x ≤ 0 + 2 * amp) => condition_default (x := x) (d1 := 0.5) g0 g0'
    (by norm_num) (by norm_num) h1 (by linarith) (hB1 x h1)
  obtain ⟨w, hw, ew⟩ := hF.harmonics (by norm_num) (by norm_num) hr (a := {}) (z := 0) (n := n) (nT := none) (κ := 44) (M := 0.6) (A := amp) (dA := 1.4)
    (default_fdm_near lag) (by
      show (lit (1.4 : ℝ) : F64 L).Near 1.4 20
      refine (F64.near_lit (L := L) ?_).mono (by norm_num)
      rw [abs_of_pos (by norm_num)]
      refine sized_of (a := 0) (b := 1) (by norm_num) (by norm_num) ?_ ?_ <;> norm_num) (by norm_num) (by norm_num)
    (le_trans (by norm_num at hA2 ⊢; linarith) (one_le_pow₀ one_le_two)) (fun y y1 _ => node_pos hr (hp y y1))
    (fun x h1 h2 => ⟨range_default g0 g0' h1 (by linarith), range_default (by norm_num) (by norm_num) h1 (by linarith)⟩)
    hB hA0 (by norm_num at hA2 ⊢; linarith)
    ((pow_le_pow_of_le_one (by norm_num) (by norm_num) (show 100 ≤ 700 by norm_num)).trans
      (le_trans (by norm_num) hA))
    (hn'.trans (by norm_num))
    (show 1 ≤ 32 by norm_num) (show ((32 : ℕ) : ℝ) ≤ 10 ^ 12 by norm_num) (by norm_num) (by norm_num) (by norm_num)
    (tol_film hr (by norm_num)).1 fun x h1 h2 => by
      rw [Fdm.pol_sub_one]
      exact hc x h1 h2
  refine ⟨w, _, ?_, ?_, ew.trans ?_⟩
  · rw [← F64.ofReal_zero] at hw
    exact hw
  · have hv := effPolN_qave ⟨Defaults.initial, lag⟩ _ B 0 20e-9 300e-9 gDefault d0 0.5 1.4 (geomOk_default g0 le_rfl)
      (geomOk_default (by norm_num) le_rfl) amp hA0.le none hB
      (fun x a b => fun hcc => (hc x a b).1 (by rw [hcc, sub_self])) n 32 (by norm_num)
    refine Eq.trans ?_ hv
    unfold Fdm.effPolN Fdm.effPol
    rw [fdm_default]
    rfl
  · show (102 / 100 * tol (23 / 10 ^ 13) 32 * 44 + (58 * |(n : ℝ)| + 3 * (32 : ℕ) + 120) * uro) * (1 + 0.6) ≤ 3.1e-10
    have hu := uro_le
    have hu0 := uro_pos
    have h1 : (58 * |(n : ℝ)| + 3 * (32 : ℕ) + 120) * uro ≤ 506 * (1111 / 10 ^ 19) := by
      refine mul_le_mul ?_ hu hu0.le (by norm_num)
      push_cast
      linarith
    unfold tol
    norm_num at h1 ⊢
    linarith

example (t : ℝ) (ht : 0 ≤ t) := C129_default (L := Libm.exact) Laguerre.rule
  ⟨⟨by decide, Laguerre.gaussLaguerre_rule (by decide)⟩, by decide⟩ 1 2 2 t one_pos (by norm_num) le_rfl moderate_one moderate_two ht
  50e-9 (by norm_num) (by norm_num) 3 (by norm_num)

/-! ## Several layers -/

/-- How much a relative error of the momentum changes the reflection of layers whose permittivity increases with depth. -/
private theorem increasing_moves {p q η : ℝ} (hp : 0 ≤ p) (hq : 0 ≤ q) (hpq : |p - q| ≤ η * q) (hη0 : 0 ≤ η) (hη : η ≤ 1 / 2)
    (layers : List (ℝ × ℝ)) (sub : ℝ) : ∀ env : ℝ, 0 < env →
    (env :: (layers.map Prod.fst ++ [sub])).Pairwise (· ≤ ·) → (∀ l ∈ layers, 0 ≤ l.2) →
    ∀ a b : ℝ, ∀ a' b' : ℂ, stackCoefs p env (layers.map fun l => ((l.1 : ℂ), l.2)) sub = some ((a : ℂ), a') →
      stackCoefs q env (layers.map fun l => ((l.1 : ℂ), l.2)) sub = some ((b : ℂ), b') → |a - b| ≤ layers.length * (2 * η) := by
  induction layers with
  | nil =>
    intro env h0 h _ a b a' b' ha hb
    simp only [List.map_nil, stackCoefs] at ha hb
    rw [ha] at hb
    simp only [Option.some.injEq, Prod.mk.injEq, Complex.ofReal_inj] at hb
    rw [hb.1]
    simp
  | cons l ls ih =>
    intro env h0 h ht a b a' b' ha hb
    simp only [List.map_cons, List.cons_append, List.pairwise_cons] at h
    have hel : env ≤ l.1 := h.1 l.1 (by simp)
    have hl0 : 0 < l.1 := by linarith
    have hinc : (l.1 :: (ls.map Prod.fst ++ [sub])).Pairwise (· ≤ ·) := by rw [List.pairwise_cons]; exact h.2
    have ht' : ∀ x ∈ ls, 0 ≤ x.2 := fun x hx => ht x (List.mem_cons_of_mem _ hx)
    obtain ⟨⟨r, τ, hrec, hr0, hr1, -, -⟩, -⟩ := increasing_coefs p hp ls sub l.1 hl0 hinc ht'
    obtain ⟨⟨r', τ', hrec', hr0', hr1', -, -⟩, -⟩ := increasing_coefs q hq ls sub l.1 hl0 hinc ht'
    have hstep := ih l.1 hl0 hinc ht' r r' _ _ hrec hrec'
    have hl2 : 0 ≤ l.2 := ht l List.mem_cons_self
    have hw := exp_clipped_lipschitz (p := p * l.2) (x := q * l.2) (η := η) (mul_nonneg hq hl2) (by
      rw [← sub_mul, abs_mul, abs_of_nonneg hl2, ← mul_assoc]
      exact mul_le_mul_of_nonneg_right hpq hl2) hη0 hη
    have hbnd : ∀ y : ℝ, 0 ≤ y → 0 ≤ Real.exp (-(2 * clipped y)) ∧ Real.exp (-(2 * clipped y)) ≤ 1 := fun y hy => by
      refine ⟨(Real.exp_pos _).le, Real.exp_le_one_iff.2 ?_⟩
      have : 0 ≤ clipped y := by
        unfold clipped
        exact le_min (le_max_of_le_left hy) maxExpArg_pos.le
      linarith
    obtain ⟨w0, w1⟩ := hbnd (p * l.2) (mul_nonneg hp hl2)
    obtain ⟨v0, v1⟩ := hbnd (q * l.2) (mul_nonneg hq hl2)
    set β := (l.1 - env) / (l.1 + env) with hβ
    have b0 : 0 ≤ β := div_nonneg (by linarith) (by linarith)
    have b1 : β < 1 := by
      rw [hβ, div_lt_one (by linarith)]
      linarith
    have hval : ∀ (y R : ℝ) (c : ℝ) (T c' : ℂ), 0 ≤ R → stackCoefs y (l.1 : ℂ) (ls.map fun l => ((l.1 : ℂ), l.2)) sub = some ((R : ℂ), T) →
        stackCoefs y env ((l :: ls).map fun l => ((l.1 : ℂ), l.2)) sub = some ((c : ℂ), c') →
        c = (β + R * Real.exp (-(2 * clipped (y * l.2)))) / (1 + β * R * Real.exp (-(2 * clipped (y * l.2)))) := fun y R c T c' hR e1 e2 => by
      have hβc : ((l.1 : ℂ) - env) / ((l.1 : ℂ) + env) = (β : ℂ) := by rw [hβ]; push_cast; rfl
      have huc : ((Real.exp (-clipped (y * l.2)) : ℝ) : ℂ) ^ 2 = ((Real.exp (-(2 * clipped (y * l.2))) : ℝ) : ℂ) := by
        rw [← Complex.ofReal_pow, ← Real.exp_nat_mul]
        congr 2
        push_cast
        ring
      simp only [List.map_cons, stackCoefs, e1, hβc, huc] at e2
      split_ifs at e2
      simp only [Option.some.injEq, Prod.mk.injEq] at e2
      rw [← Complex.ofReal_inj, ← e2.1]
      push_cast
      rfl
    rw [hval p r a _ _ hr0 hrec ha, hval q r' b _ _ hr0' hrec' hb]
    generalize Real.exp (-(2 * clipped (p * l.2))) = w at *
    generalize Real.exp (-(2 * clipped (q * l.2))) = v at *
    have d1 : 1 ≤ 1 + β * r * w := by
      have : 0 ≤ β * r * w := by positivity
      linarith
    have d2 : 1 ≤ 1 + β * r' * v := by
      have : 0 ≤ β * r' * v := by positivity
      linarith
    have e : (β + r * w) / (1 + β * r * w) - (β + r' * v) / (1 + β * r' * v) =
        (1 - β ^ 2) * (r * w - r' * v) / ((1 + β * r * w) * (1 + β * r' * v)) := by
      rw [div_sub_div _ _ (by linarith) (by linarith)]
      congr 1
      ring
    have hk : |r * w - r' * v| ≤ ls.length * (2 * η) + 2 * η := by
      rw [show r * w - r' * v = (r - r') * w + r' * (w - v) by ring]
      refine (abs_add_le _ _).trans (add_le_add ?_ ?_)
      · rw [abs_mul, abs_of_nonneg w0]
        exact (mul_le_of_le_one_right (abs_nonneg _) w1).trans hstep
      · rw [abs_mul, abs_of_nonneg hr0']
        exact (mul_le_of_le_one_left (abs_nonneg _) hr1'.le).trans hw
    have hb2 : 0 ≤ 1 - β ^ 2 ∧ 1 - β ^ 2 ≤ 1 := ⟨by nlinarith, by nlinarith⟩
    have hdd : 1 ≤ (1 + β * r * w) * (1 + β * r' * v) := one_le_mul_of_one_le_of_one_le d1 d2
    have hdp : 0 < (1 + β * r * w) * (1 + β * r' * v) := by linarith
    rw [e, abs_div, abs_mul, abs_of_nonneg hb2.1, abs_of_pos hdp, List.length_cons]
    push_cast
    rw [div_le_iff₀ (by linarith)]
    calc (1 - β ^ 2) * |r * w - r' * v| ≤ 1 * (ls.length * (2 * η) + 2 * η) := mul_le_mul hb2.2 hk (abs_nonneg _) zero_le_one
      _ = (ls.length + 1) * (2 * η) * 1 := by ring
      _ ≤ _ := mul_le_mul_of_nonneg_left hdd (by positivity)

/-- The reflection of layers whose permittivity increases with depth. -/
private noncomputable def layersRefl (env : ℝ) (layers : List (ℝ × ℝ)) (sub q : ℝ) : ℝ :=
  match stackCoefs q env (layers.map fun l => ((l.1 : ℂ), l.2)) sub with
  | some (r, _) => r.re
  | none => 0

private theorem layers_agree {env : ℝ} {layers : List (ℝ × ℝ)} {sub : ℝ} (hpos : 0 < env)
    (hinc : (env :: (layers.map Prod.fst ++ [sub])).Pairwise (· ≤ ·)) (hm : Moderate env) (hm' : Moderate sub)
    (ht : ∀ l ∈ layers, 0 ≤ l.2) (hn : layers.length ≤ 20) :
    Agree (L := L) (layered env (layers.map fun l => ((l.1 : ℂ), l.2)) sub) (layeredF64 L env layers sub)
      (layeredC128 L env (layers.map fun l => ((l.1 : ℂ), l.2)) sub) (fun q => 0 < q ∧ q * (layers.map Prod.snd).sum ≤ 699)
      (layersRefl env layers sub) (2 ^ layers.length * (101 / 10 ^ 13)) := by
  have hu := uro_pos
  have hu' := uro_le
  have hT : 0 ≤ (layers.map Prod.snd).sum := List.sum_nonneg fun y hy => by
    obtain ⟨l, hl, rfl⟩ := List.mem_map.1 hy
    exact ht l hl
  have hne : ∀ l ∈ layers.map fun l => ((l.1 : ℂ), l.2), l.1 ≠ 0 := fun l hl => by
    obtain ⟨a, ha, rfl⟩ := List.mem_map.1 hl
    have h1 : env ≤ a.1 := (List.pairwise_cons.1 hinc).1 a.1 (List.mem_append_left _ (List.mem_map_of_mem ha))
    exact Complex.ofReal_ne_zero.2 (by linarith)
  have hco : ∀ q, 0 ≤ q → ∃ τ : ℂ, stackCoefs q env (layers.map fun l => ((l.1 : ℂ), l.2)) sub = some ((layersRefl env layers sub q : ℂ), τ) ∧
      0 ≤ layersRefl env layers sub q ∧ layersRefl env layers sub q < 1 := fun q hq => by
    obtain ⟨⟨r, τ, hrec, hr0, hr1, -, -⟩, -⟩ := increasing_coefs q hq layers sub env hpos hinc ht
    have e : layersRefl env layers sub q = r := by
      unfold layersRefl
      rw [hrec]
      rfl
    rw [e]
    exact ⟨τ, hrec, hr0, hr1⟩
  have hexact : ∀ q, 0 ≤ q → (layered env (layers.map fun l => ((l.1 : ℂ), l.2)) sub).reflCoefQs (FP.num q) =
      .ok (FP.num (layersRefl env layers sub q : ℂ)) := fun q hq => by
    obtain ⟨τ, h1, -⟩ := hco q hq
    exact (C11_recursion env _ sub none q hne hm'.ne_zero _ _ h1).1
  have hnear : ∀ p q, 0 < q ∧ q * (layers.map Prod.snd).sum ≤ 699 → |p - q| ≤ 320 * uro * q → ∃ x : ℝ, ∃ z : ℂ,
      (layeredF64 L env layers sub).reflCoefQs (.fin p) = .ok (.fin x) ∧
      (layeredC128 L env (layers.map fun l => ((l.1 : ℂ), l.2)) sub).reflCoefQs (.fin p) = .ok (C128.mk' L z) ∧
      |x - layersRefl env layers sub q| ≤ 2 ^ layers.length * (101 / 10 ^ 13) ∧
      ‖z - layersRefl env layers sub q‖ ≤ 2 ^ layers.length * (101 / 10 ^ 13) := fun p q hq hpq => by
    obtain ⟨hq0, hqT⟩ := hq
    have hη : 320 * uro ≤ 1 / 10 ^ 4 := by linarith
    have hp := abs_le.1 hpq
    have h3 : 320 * uro * q ≤ 1 / 10 ^ 4 * q := mul_le_mul_of_nonneg_right hη hq0.le
    have hp0 : 0 ≤ p := by linarith
    have hpT : p * (layers.map Prod.snd).sum ≤ 700 := by
      have h4 : p * (layers.map Prod.snd).sum ≤ (q + 1 / 10 ^ 4 * q) * (layers.map Prod.snd).sum :=
        mul_le_mul_of_nonneg_right (by linarith) hT
      have e : (q + 1 / 10 ^ 4 * q) * (layers.map Prod.snd).sum = (1 + 1 / 10 ^ 4) * (q * (layers.map Prod.snd).sum) := by ring
      rw [e] at h4
      linarith
    obtain ⟨r, x, z, a1, a2, a3, a4, a5⟩ := C83_increasing (L := L) env layers sub p hpos hinc hm hm' hp0 ht hn hpT
    rw [hexact p hp0] at a1
    injection a1 with a1
    injection a1 with a1
    rw [← Complex.ofReal_inj.1 a1] at a4 a5
    obtain ⟨τ, c1, -⟩ := hco p hp0
    obtain ⟨τ', c2, -⟩ := hco q hq0.le
    have k := increasing_moves hp0 hq0.le hpq (by positivity) (by linarith) layers sub env hpos hinc ht _ _ _ _ c1 c2
    have hlen : (layers.length : ℝ) ≤ 2 ^ layers.length := by exact_mod_cast Nat.lt_two_pow_self.le
    have k2 : layers.length * (2 * (320 * uro)) ≤ 2 ^ layers.length * (1 / 10 ^ 13) :=
      mul_le_mul hlen (by linarith) (by positivity) (by positivity)
    have hsum : 2 ^ layers.length / 10 ^ 11 + 2 ^ layers.length * (1 / 10 ^ 13) = (2 : ℝ) ^ layers.length * (101 / 10 ^ 13) := by ring
    refine ⟨x, z, a2, a3, ?_, ?_⟩
    · exact (abs_sub_le _ _ _).trans ((add_le_add a4 (k.trans k2)).trans hsum.le)
    · refine (norm_sub_le_norm_sub_add_norm_sub z (layersRefl env layers sub p : ℂ) _).trans ((add_le_add a5 ?_).trans hsum.le)
      rw [← Complex.ofReal_sub, Complex.norm_real]
      exact k.trans k2
  have hshape : ∃ a b l, (layeredF64 L env layers sub).eps = a :: b :: l := by
    cases layers <;> exact ⟨_, _, _, rfl⟩
  have hshape' : ∃ a b l, (layeredC128 L env (layers.map fun l => ((l.1 : ℂ), l.2)) sub).eps = a :: b :: l := by
    cases layers <;> exact ⟨_, _, _, rfl⟩
  exact
    { ok := fun q hq => ⟨_, hexact q hq.le⟩
      exact := fun q hq => hexact q hq.1.le
      le_one := fun q hq => by
        obtain ⟨-, -, c1, c2⟩ := hco q hq.1.le
        rw [abs_of_nonneg c1]
        exact c2.le
      okr := by
        obtain ⟨a, b, l, e⟩ := hshape
        exact reflCoefQs_scalar_ok _ e
      okc := by
        obtain ⟨a, b, l, e⟩ := hshape'
        exact reflCoefQs_scalar_ok _ e
      real := fun p q hq hpq => by
        obtain ⟨x, z, b1, b2, b3, b4⟩ := hnear p q hq hpq
        exact ⟨x, b1, b3⟩
      cplx := fun p q hq hpq => by
        obtain ⟨x, z, b1, b2, b3, b4⟩ := hnear p q hq hpq
        exact ⟨z, b2, b4⟩ }

private theorem layers_delta {n : ℕ} (hn : n ≤ 20) : (0 : ℝ) ≤ 2 ^ n * (101 / 10 ^ 13) ∧ (1 : ℝ) ≤ 2 ^ n ∧
    (2 : ℝ) ^ n * (101 / 10 ^ 13) ≤ 1 / 1000 := by
  refine ⟨by positivity, one_le_pow₀ one_le_two, ?_⟩
  have h : (2 : ℝ) ^ n ≤ 2 ^ 20 := pow_le_pow_right₀ one_le_two hn
  norm_num at h
  linarith

private theorem node_below {cfg : Env} {nLag : Option ℕ} (hr : AverageOk cfg nLag) {z y T : ℝ} (hz : 0 < z) (hzy : z ≤ y) (hT : 0 ≤ T)
    (h : ∀ xw ∈ cfg.laggauss (nLag.getD cfg.defaults.nLag), xw.1 / (2 * z) * T ≤ 699) :
    ∀ xw ∈ cfg.laggauss (nLag.getD cfg.defaults.nLag), 0 < xw.1 / (2 * y) ∧ xw.1 / (2 * y) * T ≤ 699 := fun xw hxw =>
  ⟨node_pos hr (hz.trans_le hzy) xw hxw, (mul_le_mul_of_nonneg_right (div_le_div_of_nonneg_left (hr.rule.2.node_pos xw hxw).le
    (by linarith) (by linarith)) hT).trans (h xw hxw)⟩

private theorem layers_average {cfg : Env} {nLag : Option ℕ} (hr : AverageOk cfg nLag) {env : ℝ} {layers : List (ℝ × ℝ)} {sub z : ℝ}
    (hpos : 0 < env) (hinc : (env :: (layers.map Prod.fst ++ [sub])).Pairwise (· ≤ ·)) (hm : Moderate env) (hm' : Moderate sub)
    (ht : ∀ l ∈ layers, 0 ≤ l.2) (hn : layers.length ≤ 20) (hz : 0 < z)
    (hT : ∀ xw ∈ cfg.laggauss (nLag.getD cfg.defaults.nLag), xw.1 / (2 * z) * (layers.map Prod.snd).sum ≤ 699) :
    ∃ B : ℂ, (layered env (layers.map fun l => ((l.1 : ℂ), l.2)) sub).reflCoefQsAboveSurf cfg (FP.num z) nLag = .ok (FP.num B) ∧
      ‖B‖ ≤ 1 :=
  ⟨_, (layers_agree (L := Libm.exact) hpos hinc hm hm' ht hn).average_exact hr.rule hz fun xw hxw => ⟨node_pos hr hz xw hxw, hT xw hxw⟩,
    ruleAverage_le hr.rule fun xw hxw => (layers_agree (L := Libm.exact) hpos hinc hm hm' ht hn).accurate.le_one _
      ⟨node_pos hr hz xw hxw, hT xw hxw⟩⟩

private theorem rule2_below (d : Defaults) {z T : ℝ} (hz : 0 < z) (h : 4 / (2 * z) * T ≤ 699 ∧ 0 ≤ T) :
    ∀ xw ∈ (rule2 d).laggauss ((some 2).getD (rule2 d).defaults.nLag), xw.1 / (2 * z) * T ≤ 699 := fun xw hxw => by
  have h2 : √2 ≤ 3 / 2 := Real.sqrt_le_iff.2 ⟨by norm_num, by norm_num⟩
  have h1 : 0 ≤ √2 := Real.sqrt_nonneg 2
  have e : (rule2 d).laggauss ((some 2).getD (rule2 d).defaults.nLag) = [(2 - √2, (2 + √2) / 4), (2 + √2, (2 - √2) / 4)] := rfl
  rw [e] at hxw
  simp only [List.mem_cons, List.not_mem_nil, or_false] at hxw
  refine (mul_le_mul_of_nonneg_right (div_le_div_of_nonneg_right ?_ (by linarith)) h.2).trans h.1
  rcases hxw with rfl | rfl <;> dsimp only <;> linarith

/-- Up to 20 layers whose permittivities increase with depth, at heights above which the layers are not too thick: the charge
average is computed with an error below `2ⁿ·1.5·10⁻¹¹`, plus `10⁻¹⁵` for every node of the rule. -/
theorem C129_layers (cfg : Env) (nLag : Option ℕ) (hr : AverageOk cfg nLag) (env : ℝ) (layers : List (ℝ × ℝ)) (sub z : ℝ) (hpos : 0 < env)
    (hinc : (env :: (layers.map Prod.fst ++ [sub])).Pairwise (· ≤ ·)) (hm : Moderate env) (hm' : Moderate sub)
    (ht : ∀ l ∈ layers, 0 ≤ l.2) (hn : layers.length ≤ 20) (hz : HeightOk z)
    (hT : ∀ xw ∈ cfg.laggauss (nLag.getD cfg.defaults.nLag), xw.1 / (2 * z) * (layers.map Prod.snd).sum ≤ 699) :
    ∃ r x : ℝ, ∃ y : ℂ,
      (layered env (layers.map fun l => ((l.1 : ℂ), l.2)) sub).reflCoefQsAboveSurf cfg (FP.num z) nLag = .ok (FP.num (r : ℂ)) ∧
      (layeredF64 L env layers sub).reflCoefQsAboveSurf cfg (.fin z) nLag = .ok (.fin x) ∧
      (layeredC128 L env (layers.map fun l => ((l.1 : ℂ), l.2)) sub).reflCoefQsAboveSurf cfg (.fin z) nLag =
        .ok ⟨.fin y.re, .fin y.im⟩ ∧
      |x - r| ≤ 2 ^ layers.length * (15 / 10 ^ 12) + (nLag.getD cfg.defaults.nLag : ℕ) / 10 ^ 15 ∧
      ‖y - r‖ ≤ 2 ^ layers.length * (15 / 10 ^ 12) + (nLag.getD cfg.defaults.nLag : ℕ) / 10 ^ 15 := by
  obtain ⟨k0, k1, k2⟩ := layers_delta hn
  obtain ⟨r, x, y, a1, a2, a3, a4, a5⟩ := (layers_agree (L := L) hpos hinc hm hm' ht hn).average hr hz (by linarith) fun xw hxw =>
    ⟨node_pos hr hz.pos xw hxw, hT xw hxw⟩
  exact ⟨r, x, y, a1, a2, a3, a4.trans (by linarith), a5.trans (by linarith)⟩

example (d : Defaults) := C129_layers (L := Libm.exact) (rule2 d) (some 2) (rule2_average d) 1 [(1.5, 1e-8), (1.8, 1e-8)] 2 1e-9 one_pos
  (by norm_num) moderate_one moderate_two (by norm_num) (by norm_num) ⟨by norm_num, by norm_num⟩ (rule2_below d (by norm_num) (by norm_num))

/-- The harmonics of the signal of a tip above such layers, method `Q_ave`. -/
theorem C129_layers_harmonics (cfg : Env) (nLag : Option ℕ) (hr : AverageOk cfg nLag) (env : ℝ) (layers : List (ℝ × ℝ)) (sub : ℝ)
    (hpos : 0 < env) (hinc : (env :: (layers.map Prod.fst ++ [sub])).Pairwise (· ≤ ·)) (hm : Moderate env) (hm' : Moderate sub)
    (ht : ∀ l ∈ layers, 0 ≤ l.2) (hlen : layers.length ≤ 20) (z amp r l κ M n : ℝ) (g : ℂ) (B : ℝ → ℂ) (d0 d1 dA : ℝ)
    (N : ℕ) (R : ∀ x, z ≤ x → x ≤ z + 2 * amp → Fdm.Range x d0 r l g ∧ Fdm.Range x d1 r l g) (hr0 : (1 / 2) ^ 90 ≤ r)
    (hdA : 1 / 2 ≤ dA) (htop : z + 2 * amp + r * dA ≤ 2 ^ 99)
    (hT : ∀ xw ∈ cfg.laggauss (nLag.getD cfg.defaults.nLag), xw.1 / (2 * (z + r * dA)) * (layers.map Prod.snd).sum ≤ 699)
    (hA : (1 / 2) ^ 700 ≤ amp) (hA' : 2 * amp ≤ 9 * r) (hn : |n| ≤ 10 ^ 12) (hN : 1 ≤ N) (hN' : (N : ℝ) ≤ 10 ^ 12)
    (hB : ∀ x, z ≤ x → x ≤ z + 2 * amp →
      (layered env (layers.map fun l => ((l.1 : ℂ), l.2)) sub).reflCoefQsAboveSurf cfg (FP.num (x + r * dA)) nLag = .ok (FP.num (B x)))
    (hres : ∀ x, z ≤ x → x ≤ z + 2 * amp → 1 - B x * Fdm.geom x d1 r l g ≠ 0 ∧ Fdm.condition x d0 d1 r l g (B x) ≤ κ ∧
      ‖B x * Fdm.geom x d0 r l g / (2 * (1 - B x * Fdm.geom x d1 r l g))‖ ≤ M)
    (hκ1 : 1 ≤ κ) (hκ : κ ≤ 10 ^ 6) (hM : M ≤ 10 ^ 9)
    (hτ : (2 ^ layers.length * (16 / 10 ^ 12) + (nLag.getD cfg.defaults.nLag : ℕ) / 10 ^ 15) * κ ≤ 1 / 100) :
    ∃ w v : ℂ, Fdm.effPolN cfg (layeredC128 L env (layers.map fun l => ((l.1 : ℂ), l.2)) sub) (.fin amp) (.fin n) (some (.fin z))
        (some N) (fdmTipC128 L r l g d0 d1 dA) nLag (some "Q_ave") = .ok ⟨.fin w.re, .fin w.im⟩ ∧
      Fdm.effPolN cfg (layered env (layers.map fun l => ((l.1 : ℂ), l.2)) sub) (FP.num amp) (FP.num n) (some (FP.num z)) (some N)
        (fdmTip r l g d0 d1 dA) nLag (some "Q_ave") = .ok (FP.num v) ∧
      ‖w - v‖ ≤ ((2 ^ layers.length * (16 / 10 ^ 12) + 2 * (nLag.getD cfg.defaults.nLag : ℕ) / 10 ^ 15) * κ +
        (58 * |n| + 3 * N + 120) * (1 / 2) ^ 53) * (1 + M) := by
  have hA0 : 0 < amp := lt_of_lt_of_le (by positivity) hA
  have hr1 : 0 < r := lt_of_lt_of_le (by positivity) hr0
  obtain ⟨R0, R1⟩ := R z le_rfl (by linarith)
  have hrd : 0 < r * dA := mul_pos hr1 (by linarith)
  have hz := R0.z_nonneg
  obtain ⟨k0, k1, k2⟩ := layers_delta hlen
  have hLN : (0 : ℝ) ≤ (nLag.getD cfg.defaults.nLag : ℕ) := Nat.cast_nonneg _
  have hT0 : 0 ≤ (layers.map Prod.snd).sum := List.sum_nonneg fun y hy => by
    obtain ⟨l, hl, rfl⟩ := List.mem_map.1 hy
    exact ht l hl
  have htol : 102 / 100 * tol (2 ^ layers.length * (101 / 10 ^ 13)) (nLag.getD cfg.defaults.nLag) ≤
      2 ^ layers.length * (16 / 10 ^ 12) + 2 * (nLag.getD cfg.defaults.nLag : ℕ) / 10 ^ 15 := by
    unfold tol
    linarith
  have htol' : tol (2 ^ layers.length * (101 / 10 ^ 13)) (nLag.getD cfg.defaults.nLag) ≤
      2 ^ layers.length * (16 / 10 ^ 12) + (nLag.getD cfg.defaults.nLag : ℕ) / 10 ^ 15 := by
    unfold tol
    linarith
  obtain ⟨w, hw, ew⟩ := (layers_agree (L := L) hpos hinc hm hm' ht hlen).harmonics k0 k2 hr (n := n) (nT := some N) (κ := κ) (M := M)
    (fdmTipC128_near cfg r l g d0 d1 dA) ((F64.near_fin dA).mono (by norm_num)) hr0 hdA htop
    (fun y y1 _ => node_below hr (z := z + r * dA) (by linarith) (by linarith) hT0 hT) R hB hA0 hA' hA hn hN hN' hκ1 hκ hM
    ((mul_le_mul_of_nonneg_right htol' (by linarith)).trans hτ) fun x h1 h2 => by
      rw [Fdm.pol_sub_one]
      exact hres x h1 h2
  have hu : uro = (1 / 2) ^ 53 := by unfold uro; norm_num
  rw [hu] at ew
  have hM0 : 0 ≤ M := (norm_nonneg _).trans (hres z le_rfl (by linarith)).2.2
  exact ⟨w, _, hw, effPolN_qave cfg _ B z r l g d0 d1 dA (Range.ok R0) (Range.ok R1) amp hA0.le nLag hB
    (fun x a b => fun hc => (hres x a b).1 (by rw [hc, sub_self])) n N (by omega),
    ew.trans (mul_le_mul_of_nonneg_right (add_le_add (mul_le_mul_of_nonneg_right htol (by linarith)) le_rfl) (by linarith))⟩

example (d : Defaults) : ∃ w v : ℂ,
    Fdm.effPolN (rule2 d) (layeredC128 Libm.exact 1 ([(1.5, 1e-8), (1.8, 1e-8)].map fun l => (((l.1 : ℝ) : ℂ), l.2)) (2 : ℝ)) (.fin 50e-9)
      (.fin 3) (some (.fin 0)) (some 32) (fdmTipC128 Libm.exact 20e-9 300e-9 gDefault 1 0.5 1.4) (some 2) (some "Q_ave") =
      .ok ⟨.fin w.re, .fin w.im⟩ ∧
    ‖w - v‖ ≤ ((2 ^ 2 * (16 / 10 ^ 12) + 2 * 2 / 10 ^ 15) * 44 + (58 * |3| + 3 * (32 : ℕ) + 120) * (1 / 2) ^ 53) * (1 + 0.6) := by
  have hz : ∀ x : ℝ, 0 ≤ x → (0 : ℝ) < x + 20e-9 * 1.4 := fun x hx => by norm_num; linarith
  have hi : ((1 : ℝ) :: (([(1.5, 1e-8), (1.8, 1e-8)] : List (ℝ × ℝ)).map Prod.fst ++ [2])).Pairwise (· ≤ ·) := by norm_num
  have ht : ∀ l ∈ ([(1.5, 1e-8), (1.8, 1e-8)] : List (ℝ × ℝ)), 0 ≤ l.2 := by norm_num
  have hlen : ([(1.5, 1e-8), (1.8, 1e-8)] : List (ℝ × ℝ)).length ≤ 20 := by norm_num
  have hT : ∀ xw ∈ (rule2 d).laggauss ((some 2).getD (rule2 d).defaults.nLag),
      xw.1 / (2 * (0 + 20e-9 * 1.4)) * (([(1.5, 1e-8), (1.8, 1e-8)] : List (ℝ × ℝ)).map Prod.snd).sum ≤ 699 :=
    rule2_below d (by norm_num) (by norm_num)
  have hav := fun x (hx : 0 ≤ x) => layers_average (rule2_average d) one_pos hi moderate_one moderate_two ht hlen (hz x hx)
    (fun xw hxw => (node_below (rule2_average d) (hz 0 le_rfl) (by linarith) (by norm_num) hT xw hxw).2)
  choose B hB hB1 using hav
  obtain ⟨w, v, h1, -, h3⟩ := C129_layers_harmonics (L := Libm.exact) (rule2 d) (some 2) (rule2_average d) 1 _ 2 one_pos hi
    moderate_one moderate_two ht hlen 0 50e-9 20e-9 300e-9 44 0.6 3 gDefault (fun x => if h : 0 ≤ x then B x h else 0) 1 0.5 1.4 32
    (fun x h1 h2 => ⟨range_default (by norm_num) (by norm_num) h1 (by norm_num at h2 ⊢; linarith),
      range_default (by norm_num) (by norm_num) h1 (by norm_num at h2 ⊢; linarith)⟩) (by norm_num) (by norm_num) (by norm_num) hT
    ((pow_le_pow_of_le_one (by norm_num) (by norm_num) (show 100 ≤ 700 by norm_num)).trans (by norm_num)) (by norm_num)
    (by norm_num) (by norm_num) (by norm_num) (fun x h1 _ => by rw [dif_pos h1]; exact hB x h1)
    (fun x h1 h2 => by
      rw [dif_pos h1]
      exact condition_default (by norm_num) (by norm_num) (by norm_num) (by norm_num) h1 (by norm_num at h2 ⊢; linarith) (hB1 x h1))
    (by norm_num) (by norm_num) (by norm_num) (by simp; norm_num)
  refine ⟨w, v, by exact_mod_cast h1, h3⟩

end Snompy.Props
