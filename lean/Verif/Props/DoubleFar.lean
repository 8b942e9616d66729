import Verif.Lemmas.DoubleFar
import Verif.Spec.Rounding
import Verif.Props.FarClassic

/-!
# C120: Fresnel coefficients in double precision
-/

namespace Snompy.Props

open Snompy

/-- The momentum of a far-field method given as double-precision numbers. -/
def atQ64 (L : Libm) (q nu : ℝ) (pol : String) : Stack.FarArgs (F64 L) :=
  { q := some (.fin q), nuVac := some (.fin nu), polarization := pol }

/-- The matrix of a bulk sample, with the wavevectors `k0`, `k1`. -/
theorem bulk64_matrix (L : Libm) (pol : String) (hpol : pol = "p" ∨ pol = "s") (e0 e1 k0 k1 : ℂ) (q nu : ℝ)
    (h0 : (CplxOps.sqrt (C128.mk' L e0 * CplxOps.ofR (RealOps.npow (F64.fin nu) 2) - CplxOps.ofR (RealOps.npow (F64.fin q) 2)) : C128 L) = C128.mk' L k0)
    (h1 : (CplxOps.sqrt (C128.mk' L e1 * CplxOps.ofR (RealOps.npow (F64.fin nu) 2) - CplxOps.ofR (RealOps.npow (F64.fin q) 2)) : C128 L) = C128.mk' L k1) :
    (layeredC128 L e0 [] e1).transferMatrix (atQ64 L q nu pol) = .ok (Stack.interface
      (if pol = "p" then C128.mk' L e0 * C128.mk' L k1 / (C128.mk' L e1 * C128.mk' L k0) else C128.mk' L k1 / C128.mk' L k0)) := by
  have hnz : (layeredC128 L e0 [] e1).nuZ (.fin nu) (.fin q) = [C128.mk' L k0, C128.mk' L k1] := by
    rw [← h0, ← h1]
    rfl
  have h : (layeredC128 L e0 [] e1).transferMatrix (atQ64 L q nu pol) =
      (Stack.farTransFactor ((layeredC128 L e0 [] e1).eps.zip ((layeredC128 L e0 [] e1).nuZ (.fin nu) (.fin q))) pol >>= fun tf =>
        (layeredC128 L e0 [] e1).farMatrix tf ((layeredC128 L e0 [] e1).nuZ (.fin nu) (.fin q))) := rfl
  rw [h, hnz]
  rcases hpol with rfl | rfl <;> rfl

theorem sized_of {x : ℝ} {m n : ℕ} (h1 : (1 / 2) ^ m ≤ x) (h2 : x ≤ 2 ^ n) (hm : m ≤ 800) (hn : n ≤ 800) : Sized x :=
  ⟨(pow_le_pow_of_le_one (by norm_num) (by norm_num) hm).trans h1, h2.trans (pow_le_pow_right₀ (by norm_num) hn)⟩

theorem quot_le {v w : ℂ} {m n : ℕ} (hv : ‖v‖ ≤ 2 ^ n) (hw : (1 / 2) ^ m ≤ ‖w‖) : ‖v‖ / ‖w‖ ≤ 2 ^ (n + m) := by
  have hp : (0 : ℝ) < (1 / 2) ^ m := by positivity
  rw [div_le_iff₀ (hp.trans_le hw)]
  refine hv.trans ?_
  have : (2 : ℝ) ^ (n + m) * (1 / 2) ^ m ≤ 2 ^ (n + m) * ‖w‖ := mul_le_mul_of_nonneg_left hw (by positivity)
  rw [pow_add, mul_assoc, ← mul_pow, show (2 * (1 / 2) : ℝ) = 1 by norm_num, one_pow, mul_one] at this
  rwa [pow_add]

/-- The factor of the interface. -/
theorem bulk64_factor (L : Libm) (pol : String) {a0 a1 : C128 L} (e0 e1 k0 k1 : ℂ) (K : ℝ) (hK1 : 1 ≤ K) (hK : K ≤ 10 ^ 9)
    (he0 : Usual ‖e0‖) (he1 : Usual ‖e1‖) (h0 : a0.Near k0 (10 * K)) (h1 : a1.Near k1 (10 * K))
    (l0 : (1 / 2) ^ 110 ≤ ‖k0‖) (u0 : ‖k0‖ ≤ 2 ^ 91) (l1 : (1 / 2) ^ 110 ≤ ‖k1‖) (u1 : ‖k1‖ ≤ 2 ^ 91) :
    ∃ t, (if pol = "p" then C128.mk' L e0 * a1 / (C128.mk' L e1 * a0) else a1 / a0) = C128.mk' L t ∧
      ‖t - (if pol = "p" then e0 * k1 / (e1 * k0) else k1 / k0)‖ ≤
        98 * K * uro * ‖(if pol = "p" then e0 * k1 / (e1 * k0) else k1 / k0 : ℂ)‖ + uro ^ 3 ∧
      ‖(if pol = "p" then e0 * k1 / (e1 * k0) else k1 / k0 : ℂ)‖ ≤ 2 ^ 325 := by
  have hu := uro_pos
  have hu' := uro_lt
  have hKu : K * uro ≤ 1 / 10 ^ 6 := by nlinarith
  have hKu0 : 0 ≤ K * uro := mul_nonneg (by linarith) hu.le
  have div : ∀ (b c : C128 L) (v w : ℂ) (k : ℝ), 1 ≤ k → k ≤ 31 / 2 * K → b.Near v k → c.Near w k → ‖v‖ ≤ 2 ^ 151 → (1 / 2) ^ 170 ≤ ‖w‖ → ‖w‖ ≤ 2 ^ 151 →
      ∃ t, b / c = C128.mk' L t ∧ ‖t - v / w‖ ≤ 98 * K * uro * ‖v / w‖ + uro ^ 3 ∧ ‖v / w‖ ≤ 2 ^ 325 := by
    rintro b c v w k hk1 hk ⟨x, rfl, hx⟩ ⟨y, rfl, hy⟩ hv hw hw'
    have hku : k * uro ≤ 31 / 2 * K * uro := mul_le_mul_of_nonneg_right hk hu.le
    have hku0 : 0 ≤ k * uro := mul_nonneg (by linarith) hu.le
    have hvw : ‖v‖ / ‖w‖ ≤ 2 ^ (151 + 170) := quot_le hv hw
    have hM := pow_le_max (n := 3 + (151 + 170)) (by norm_num)
    rw [pow_add] at hM
    have hM2 := pow_le_max (n := 3 + 151) (by norm_num)
    rw [pow_add] at hM2
    obtain ⟨z, z1, z2⟩ := C128.div_near (L := L) (δ := k * uro) (ε := k * uro) hku0 (by linarith) hku0 (by linarith) hx hy (by linarith)
      (sized_of hw hw' (by norm_num) (by norm_num)) (by
        calc ‖v‖ / ‖w‖ * 8 ≤ 2 ^ (151 + 170) * 8 := mul_le_mul_of_nonneg_right hvw (by norm_num)
          _ = 2 ^ 3 * 2 ^ (151 + 170) := by ring
          _ ≤ _ := hM)
    refine ⟨z, z1, z2.trans ?_, ?_⟩
    · have : (k * uro + k * uro) / (1 - k * uro) + 66 * uro ≤ 98 * K * uro := by
        have d1 : (k * uro + k * uro) / (1 - k * uro) ≤ 32 * (K * uro) := by
          rw [div_le_iff₀ (by linarith)]
          nlinarith
        have d2 : uro * 1 ≤ K * uro := by nlinarith
        linarith
      linarith [mul_le_mul_of_nonneg_right this (norm_nonneg (v / w))]
    · rw [norm_div]
      exact hvw.trans (pow_le_pow_right₀ (by norm_num) (by norm_num))
  have prod : ∀ e k : ℂ, Usual ‖e‖ → (1 / 2) ^ 110 ≤ ‖k‖ → ‖k‖ ≤ 2 ^ 91 → (1 / 2 : ℝ) ^ 170 ≤ ‖e * k‖ ∧ ‖e * k‖ ≤ 2 ^ 151 := by
    intro e k he l u
    rw [norm_mul, show (170 : ℕ) = 60 + 110 from rfl, show (151 : ℕ) = 60 + 91 from rfl, pow_add, pow_add]
    exact ⟨mul_le_mul he.1 l (by positivity) (norm_nonneg _), mul_le_mul he.2 u (norm_nonneg _) (by positivity)⟩
  split_ifs
  · obtain ⟨p1, p2⟩ := prod e0 k1 he0 l1 u1
    obtain ⟨p3, p4⟩ := prod e1 k0 he1 l0 u0
    refine div _ _ _ _ (101 / 100 * (0 + 10 * K) + 5) (by linarith) (by linarith) ?_ ?_ p2 p3 p4
    · exact (C128.near_mk' e0).mul h1 le_rfl (by linarith) (by norm_num) (by linarith) (sized_of p1 p2 (by norm_num) (by norm_num))
    · exact (C128.near_mk' e1).mul h0 le_rfl (by linarith) (by norm_num) (by linarith) (sized_of p3 p4 (by norm_num) (by norm_num))
  · refine div _ _ _ _ (10 * K) (by linarith) (by linarith) h1 h0 ?_ ?_ ?_
    · exact u1.trans (pow_le_pow_right₀ (by norm_num) (by norm_num))
    · exact (pow_le_pow_of_le_one (by norm_num) (by norm_num) (by norm_num)).trans l0
    · exact u0.trans (pow_le_pow_right₀ (by norm_num) (by norm_num))

/-- Condition number of the wavevector in a medium: `K`. -/
def Conditioned (K nu q : ℝ) (e : ℂ) : Prop := ‖e‖ * nu ^ 2 + q ^ 2 ≤ K * ‖e * (nu : ℂ) ^ 2 - (q : ℂ) ^ 2‖

/-- Reflection and transmission of a bulk sample of absorbing or lossless media, in double precision.  `K` is the condition number of the
wavevectors, and `S` tells how far away a resonance is (the denominator of Fresnel's coefficient). -/
theorem C120_bulk (L : Libm) (pol : String) (hpol : pol = "p" ∨ pol = "s") (e0 e1 : ℂ) (nu q K S : ℝ)
    (he0 : Usual ‖e0‖) (he1 : Usual ‖e1‖) (hnu : Usual nu) (hq : |q| ≤ 2 ^ 60) (hi0 : 0 ≤ e0.im) (hi1 : 0 ≤ e1.im)
    (hK1 : 1 ≤ K) (hS1 : 1 ≤ S) (hKS : K * S ≤ 10 ^ 9) (hc0 : Conditioned K nu q e0) (hc1 : Conditioned K nu q e1)
    (hS : ‖(if pol = "p" then e1 else 1) * (Medium.at nu q e0).k‖ + ‖(if pol = "p" then e0 else 1) * (Medium.at nu q e1).k‖ ≤
      S * ‖(Medium.at nu q e0).fresnelDen pol (Medium.at nu q e1)‖) :
    (∃ z : ℂ, (layeredC128 L e0 [] e1).reflCoef (atQ64 L q nu pol) = .ok ⟨.fin z.re, .fin z.im⟩ ∧
      ‖z - (Medium.at nu q e0).fresnel pol (Medium.at nu q e1)‖ ≤ 300 * K * S ^ 2 * (1 / 2) ^ 53) ∧
    ∃ z : ℂ, (layeredC128 L e0 [] e1).transCoef (atQ64 L q nu pol) = .ok ⟨.fin z.re, .fin z.im⟩ ∧
      ‖z - (1 + (Medium.at nu q e0).fresnel pol (Medium.at nu q e1))‖ ≤ 600 * K * S ^ 2 * (1 / 2) ^ 53 := by
  have hu := uro_pos
  have hu' := uro_lt
  have hK : K ≤ 10 ^ 9 := by nlinarith
  have hSm : S ≤ 10 ^ 9 := by nlinarith
  obtain ⟨n0, l0, u0⟩ := near_kz (L := L) hi0 he0 hnu hq hK1 hK hc0
  obtain ⟨n1, l1, u1⟩ := near_kz (L := L) hi1 he1 hnu hq hK1 hK hc1
  obtain ⟨t, t1, t2, t3⟩ := bulk64_factor L pol e0 e1 (kz nu q e0) (kz nu q e1) K hK1 hK he0 he1 n0 n1 l0 u0 l1 u1
  obtain ⟨z0, g0, -⟩ := n0
  obtain ⟨z1, g1, -⟩ := n1
  have hm := bulk64_matrix L pol hpol e0 e1 z0 z1 q nu g0 g1
  rw [g0, g1] at t1
  rw [t1] at hm
  have k0 : kz nu q e0 ≠ 0 := norm_pos_iff.1 (lt_of_lt_of_le (by positivity) l0)
  have hne1 : e1 ≠ 0 := norm_pos_iff.1 (lt_of_lt_of_le (by positivity) he1.1)
  obtain ⟨r1, r2⟩ := adm_ratio pol nu q e0 e1 k0 fun _ => hne1
  have k1 : kz nu q e1 ≠ 0 := norm_pos_iff.1 (lt_of_lt_of_le (by positivity) l1)
  have hadm : adm pol nu q e0 / adm pol nu q e1 = if pol = "p" then e0 * kz nu q e1 / (e1 * kz nu q e0) else kz nu q e1 / kz nu q e0 := by
    unfold adm
    split_ifs <;> field_simp
  rw [hadm] at r1 r2
  have hS' : 1 + ‖(if pol = "p" then e0 * kz nu q e1 / (e1 * kz nu q e0) else kz nu q e1 / kz nu q e0 : ℂ)‖ ≤
      S * ‖1 + (if pol = "p" then e0 * kz nu q e1 / (e1 * kz nu q e0) else kz nu q e1 / kz nu q e0 : ℂ)‖ := by
    unfold Medium.fresnelDen Medium.at at hS
    change ‖_ * kz nu q e0‖ + ‖_ * kz nu q e1‖ ≤ S * ‖if pol = "p" then e1 * kz nu q e0 + e0 * kz nu q e1 else kz nu q e0 + kz nu q e1‖ at hS
    have gen : ∀ x y : ℂ, x ≠ 0 → ‖x‖ + ‖y‖ ≤ S * ‖x + y‖ → 1 + ‖y / x‖ ≤ S * ‖1 + y / x‖ := by
      intro x y hx h
      have hp := norm_pos_iff.2 hx
      rw [norm_div, show 1 + y / x = (x + y) / x by field_simp, norm_div, ← mul_div_assoc, le_div_iff₀ hp, add_mul, one_mul,
        div_mul_cancel₀ _ hp.ne']
      exact h
    split_ifs at hS ⊢
    · exact gen _ _ (mul_ne_zero hne1 k0) hS
    · rw [one_mul, one_mul] at hS
      exact gen _ _ k0 hS
  generalize (if pol = "p" then e0 * kz nu q e1 / (e1 * kz nu q e0) else kz nu q e1 / kz nu q e0 : ℂ) = a at *
  have hG : (2 : ℝ) ^ 325 * 2 ^ 4 ≤ maxDouble := by
    rw [← pow_add]
    exact pow_le_max (by norm_num)
  have hG4 : (4 : ℝ) ≤ 2 ^ 325 := le_trans (by norm_num : (4 : ℝ) ≤ 2 ^ 2) (pow_le_pow_right₀ (by norm_num) (by norm_num))
  generalize (2 : ℝ) ^ 325 = G at *
  have hG8 : G * 8 ≤ maxDouble := by linarith
  obtain ⟨x, x1, x2⟩ := C128.near_entry (L := L) (s := -1) (c := 98 * K) C128.clit_neg_one (by simp) (by linarith) (by linarith) t2 t3 hG4 hG8
  obtain ⟨y, y1, y2⟩ := C128.near_entry (L := L) (s := 1) (c := 98 * K) C128.clit_one (by simp) (by linarith) (by linarith) t2 t3 hG4 hG8
  rw [one_mul] at y2
  have hE : (98 * K + 12) * uro ≤ 110 * K * uro := mul_le_mul_of_nonneg_right (by linarith) hu.le
  have ha0 := norm_nonneg a
  have hT : (1 + ‖a‖) / 2 * 8 ≤ maxDouble := by linarith
  have e2 : ‖(2 : ℂ)‖ = 2 := by simp
  have hn : ‖(1 + -1 * a) / 2‖ ≤ (1 + ‖a‖) / 2 := by
    have := norm_add_le (1 : ℂ) (-1 * a)
    rw [norm_div, e2]
    rw [norm_mul, norm_neg, norm_one, one_mul] at this
    linarith
  have hd : ‖(1 + a) / 2‖ ≤ (1 + ‖a‖) / 2 := by
    have := norm_add_le (1 : ℂ) a
    rw [norm_div, e2]
    rw [norm_one] at this
    linarith
  have hd' : (1 + ‖a‖) / 2 ≤ S * ‖(1 + a) / 2‖ := by
    rw [norm_div, e2]
    linarith
  have hKSu : K * S * uro ≤ 1 / 10 ^ 6 := by nlinarith
  have hKu0 : 0 ≤ K * uro := mul_nonneg (by linarith) hu.le
  have hT0 : 0 ≤ (1 + ‖a‖) / 2 := by linarith
  have hden : 1 + a ≠ 0 := by
    intro h
    rw [h, norm_zero, mul_zero] at hS'
    linarith
  have hfin : (203 / 100 * (110 * K * uro) * S + 67 * uro) * S ≤ 300 * K * S ^ 2 * (1 / 2) ^ 53 := by
    have : uro = (1 / 2) ^ 53 := rfl
    rw [← this]
    have b1 : uro * S ≤ K * (uro * S) := le_mul_of_one_le_left (mul_nonneg hu.le (by linarith)) hK1
    have b2 : K * uro * S ≤ K * uro * S * S := le_mul_of_one_le_right (mul_nonneg hKu0 (by linarith)) hS1
    nlinarith
  constructor
  · obtain ⟨z, w1, w2⟩ := C128.near_quot (L := L) (E := 110 * K * uro) (T := (1 + ‖a‖) / 2) (S := S) (by linarith) hS1 (by nlinarith) (by linarith) hT
      (x2.trans (mul_le_mul_of_nonneg_right hE hT0)) (y2.trans (mul_le_mul_of_nonneg_right hE hT0)) hn hd hd' (by linarith)
    refine ⟨z, ?_, ?_⟩
    · unfold Stack.reflCoef
      rw [hm]
      change Except.ok (((clit 1 + clit (-1) * C128.mk' L t) / clit 2 : C128 L) / ((clit 1 + clit 1 * C128.mk' L t) / clit 2)) = _
      rw [x1, y1, w1]
      rfl
    · have : (1 + -1 * a) / 2 / ((1 + a) / 2) = (Medium.at nu q e0).fresnel pol (Medium.at nu q e1) := by
        rw [← r2]
        field_simp
        ring
      rw [← this]
      exact w2.trans (hfin)
  · obtain ⟨z, w1, w2⟩ := C128.near_quot (L := L) (x := 1) (n := 1) (y := y) (d := (1 + a) / 2) (E := 110 * K * uro / 2) (T := 1 + ‖a‖) (S := 2 * S)
      (by linarith) (by linarith) (by nlinarith) (by linarith) (by linarith)
      (by rw [sub_self, norm_zero]; exact mul_nonneg (by linarith) (by linarith)) ((y2.trans (mul_le_mul_of_nonneg_right hE hT0)).trans (by linarith))
      (by rw [norm_one]; linarith) (by linarith) (by linarith) (by linarith)
    refine ⟨z, ?_, ?_⟩
    · unfold Stack.transCoef
      rw [hm]
      change Except.ok ((clit 1 : C128 L) / ((clit 1 + clit 1 * C128.mk' L t) / clit 2)) = _
      rw [y1, C128.clit_one, w1]
      rfl
    · have : 1 / ((1 + a) / 2) = 1 + (Medium.at nu q e0).fresnel pol (Medium.at nu q e1) := by
        rw [← r2]
        field_simp
        ring
      rw [← this]
      have := hfin
      linarith

/-- Light from a lossless environment on an absorbing or lossless substrate: only the wavevectors have to be well conditioned. -/
theorem C120_passive (L : Libm) (pol : String) (hpol : pol = "p" ∨ pol = "s") (e0 : ℝ) (e1 : ℂ) (nu q K : ℝ)
    (he0 : Usual e0) (he1 : Usual ‖e1‖) (hnu : Usual nu) (hq : q ^ 2 < e0 * nu ^ 2) (hq' : |q| ≤ 2 ^ 60) (hi1 : 0 ≤ e1.im)
    (hK1 : 1 ≤ K) (hK : K ≤ 5 * 10 ^ 8) (hc0 : Conditioned K nu q e0) (hc1 : Conditioned K nu q e1) :
    (∃ z : ℂ, (layeredC128 L e0 [] e1).reflCoef (atQ64 L q nu pol) = .ok ⟨.fin z.re, .fin z.im⟩ ∧
      ‖z - (Medium.at nu q e0).fresnel pol (Medium.at nu q e1)‖ ≤ 600 * K * (1 / 2) ^ 53) ∧
    ∃ z : ℂ, (layeredC128 L e0 [] e1).transCoef (atQ64 L q nu pol) = .ok ⟨.fin z.re, .fin z.im⟩ ∧
      ‖z - (1 + (Medium.at nu q e0).fresnel pol (Medium.at nu q e1))‖ ≤ 1200 * K * (1 / 2) ^ 53 := by
  have he00 : 0 < e0 := lt_of_lt_of_le (by positivity) he0.1
  have hnu0 : 0 < nu := lt_of_lt_of_le (by positivity) hnu.1
  have hne1 : e1 ≠ 0 := norm_pos_iff.1 (lt_of_lt_of_le (by positivity) he1.1)
  have hk0 := kz_real (nu := nu) (q := q) (e := e0) (by linarith)
  have hk0p : 0 < √(e0 * nu ^ 2 - q ^ 2) := Real.sqrt_pos.2 (by linarith)
  have hsq2 : √2 ^ 2 = (2 : ℝ) := Real.sq_sqrt (by norm_num)
  have hs1 : (1 : ℝ) ≤ √2 := Real.one_le_sqrt.2 (by norm_num)
  have hs2 : √2 ≤ (2 : ℝ) := by nlinarith
  have gen : ∀ x y : ℂ, 0 ≤ x.re * y.re + x.im * y.im → ‖x‖ + ‖y‖ ≤ √2 * ‖x + y‖ := by
    intro x y h
    refine (abs_le_of_sq_le_sq' ?_ (by positivity)).2
    have hx := Complex.normSq_eq_norm_sq x
    have hy := Complex.normSq_eq_norm_sq y
    have hxy := Complex.normSq_eq_norm_sq (x + y)
    simp only [Complex.normSq_apply, Complex.add_re, Complex.add_im] at hx hy hxy
    rw [mul_pow, hsq2]
    nlinarith [sq_nonneg (‖x‖ - ‖y‖)]
  obtain ⟨c, hc, -, hre⟩ := adm_inv_re pol nu q e1 hne1 hnu0.ne'
  have key := C120_bulk L pol hpol e0 e1 nu q K √2 (by rwa [Complex.norm_real, Real.norm_eq_abs, abs_of_pos he00]) he1 hnu hq' (by simp) hi1
    hK1 hs1 (by nlinarith) hc0 hc1 (by
      unfold Medium.fresnelDen Medium.at
      change ‖_ * kz nu q e0‖ + ‖_ * kz nu q e1‖ ≤ √2 * ‖if pol = "p" then e1 * kz nu q e0 + e0 * kz nu q e1 else kz nu q e0 + kz nu q e1‖
      have hre0 : 0 ≤ (1 / adm pol nu q e1).re := by
        rw [hre]
        exact mul_nonneg hc (kz_re_nonneg _ _ _)
      rw [hk0]
      unfold adm at hre0
      split_ifs at hre0 ⊢
      · refine gen _ _ ?_
        rw [one_div_div, Complex.div_re, ← add_div] at hre0
        have h1 : 0 ≤ (kz nu q e1).re * e1.re + (kz nu q e1).im * e1.im := by
          have hn : 0 < Complex.normSq e1 := Complex.normSq_pos.2 hne1
          have := mul_nonneg hre0 hn.le
          rwa [div_mul_cancel₀ _ hn.ne'] at this
        simp only [Complex.mul_re, Complex.mul_im, Complex.ofReal_re, Complex.ofReal_im, mul_zero, zero_mul, sub_zero, add_zero, zero_add]
        have := mul_nonneg (mul_nonneg he00.le hk0p.le) h1
        nlinarith
      · rw [one_mul, one_mul]
        refine gen _ _ ?_
        rw [one_div_one_div] at hre0
        simp only [Complex.ofReal_re, Complex.ofReal_im, zero_mul, add_zero]
        exact mul_nonneg hk0p.le hre0)
  rw [hsq2] at key
  obtain ⟨⟨z, z1, z2⟩, w, w1, w2⟩ := key
  exact ⟨⟨z, z1, z2.trans (le_of_eq (by ring))⟩, w, w1, w2.trans (le_of_eq (by ring))⟩

/-- Total reflection: beyond the critical angle, the computed reflection has modulus 1 up to rounding. -/
theorem C120_total (L : Libm) (pol : String) (hpol : pol = "p" ∨ pol = "s") (e0 e1 nu q K : ℝ)
    (he0 : Usual e0) (he1 : Usual e1) (hnu : Usual nu) (hq : q ^ 2 < e0 * nu ^ 2) (hq' : |q| ≤ 2 ^ 60) (hcrit : e1 * nu ^ 2 < q ^ 2)
    (hK1 : 1 ≤ K) (hK : K ≤ 5 * 10 ^ 8) (hc0 : Conditioned K nu q e0) (hc1 : Conditioned K nu q e1) :
    ∃ z : ℂ, (layeredC128 L e0 [] e1).reflCoef (atQ64 L q nu pol) = .ok ⟨.fin z.re, .fin z.im⟩ ∧ |‖z‖ - 1| ≤ 600 * K * (1 / 2) ^ 53 := by
  have he00 : 0 < e0 := lt_of_lt_of_le (by positivity) he0.1
  have he10 : 0 < e1 := lt_of_lt_of_le (by positivity) he1.1
  obtain ⟨⟨z, z1, z2⟩, -⟩ := C120_passive L pol hpol e0 e1 nu q K he0 (by rwa [Complex.norm_real, Real.norm_eq_abs, abs_of_pos he10]) hnu hq hq'
    (by simp) hK1 hK hc0 hc1
  refine ⟨z, z1, ?_⟩
  have h1 : ‖(Medium.at nu q e0).fresnel pol (Medium.at nu q e1)‖ = 1 := by
    have hk0 := kz_real (nu := nu) (q := q) (e := e0) (by linarith)
    have hk0p : 0 < √(e0 * nu ^ 2 - q ^ 2) := Real.sqrt_pos.2 (by linarith)
    obtain ⟨r1, r2⟩ := kz_re_im (nu := nu) (q := q) (e := e1)
    rw [Complex.ofReal_re] at r1
    rw [Complex.ofReal_im, zero_mul] at r2
    have hre : (kz nu q e1).re = 0 := by
      by_contra hne
      have hi : (kz nu q e1).im = 0 := by
        rcases mul_eq_zero.1 (show (kz nu q e1).re * (kz nu q e1).im = 0 by linarith) with h | h
        · exact absurd h hne
        · exact h
      rw [hi] at r1
      nlinarith [sq_nonneg (kz nu q e1).re]
    unfold Medium.fresnel Medium.fresnelNum Medium.fresnelDen Medium.at
    change ‖(if pol = "p" then (e1 : ℂ) * kz nu q e0 - e0 * kz nu q e1 else kz nu q e0 - kz nu q e1) /
      (if pol = "p" then (e1 : ℂ) * kz nu q e0 + e0 * kz nu q e1 else kz nu q e0 + kz nu q e1)‖ = 1
    rw [hk0, norm_div]
    have gen : ∀ (x : ℝ) (y : ℂ), 0 < x → y.re = 0 → ‖(x : ℂ) - y‖ / ‖(x : ℂ) + y‖ = 1 := by
      intro x y hx hy
      have hp : 0 < ‖(x : ℂ) + y‖ := norm_pos_iff.2 fun h => by
        have := congrArg Complex.re h
        rw [Complex.add_re, Complex.ofReal_re, hy] at this
        simp at this
        linarith
      rw [div_eq_one_iff_eq hp.ne', Complex.norm_def, Complex.norm_def]
      congr 1
      simp only [Complex.normSq_apply, Complex.sub_re, Complex.add_re, Complex.sub_im, Complex.add_im, Complex.ofReal_re, Complex.ofReal_im, hy]
      ring
    split_ifs
    · rw [← Complex.ofReal_mul]
      exact gen _ _ (by positivity) (by rw [Complex.re_ofReal_mul, hre, mul_zero])
    · exact gen _ _ hk0p hre
  have h2 := abs_norm_sub_norm_le z ((Medium.at nu q e0).fresnel pol (Medium.at nu q e1))
  rw [h1] at h2
  exact h2.trans z2

/-- An angle of incidence is a momentum up to rounding. -/
theorem C120_angle (L : Libm) (pol : String) (e0 e1 : ℂ) (nu theta : ℝ) (hnu : |nu| ≤ 2 ^ 60) :
    ∃ q : ℝ, |q - nu * Real.sin (abs theta)| ≤ 5 * (1 / 2) ^ 53 * |nu * Real.sin (abs theta)| + (1 / 2) ^ 900 ∧
      (layeredC128 L e0 [] e1).reflCoef { thetaIn := some (.fin theta), nuVac := some (.fin nu), polarization := pol } =
        (layeredC128 L e0 [] e1).reflCoef (atQ64 L q nu pol) ∧
      (layeredC128 L e0 [] e1).transCoef { thetaIn := some (.fin theta), nuVac := some (.fin nu), polarization := pol } =
        (layeredC128 L e0 [] e1).transCoef (atQ64 L q nu pol) := by
  have hu := uro_pos
  have hu' := uro_lt
  have heta := eta_lt
  have heta0 := eta_pos
  have hs := L.sin_err |theta|
  have hsn := Real.abs_sin_le_one |theta|
  set s := Real.sin |theta| with hsdef
  set l := L.sin |theta| with hl
  rw [show ((1 / 2 : ℝ) ^ 52) = 2 * uro by unfold uro; norm_num] at hs
  have hl1 : |l| ≤ 2 := by
    have := abs_sub_abs_le_abs_sub l s
    nlinarith [abs_nonneg s]
  have hM : (2 : ℝ) ^ 70 ≤ maxDouble := pow_le_max (by norm_num)
  have h1 : (F64.ofReal l : F64 L) = .fin (rnd l) := F64.ofReal_fin (by nlinarith [abs_nonneg l])
  have r1 := rnd_err l
  have hr1 : |rnd l| ≤ 3 := by
    have := abs_sub_abs_le_abs_sub (rnd l) l
    nlinarith [abs_nonneg l]
  have hmul : |nu * rnd l| ≤ 2 ^ 60 * 3 := by
    rw [abs_mul]
    exact mul_le_mul hnu hr1 (abs_nonneg _) (by positivity)
  have h2 : (F64.ofReal (nu * rnd l) : F64 L) = .fin (rnd (nu * rnd l)) := F64.ofReal_fin (by nlinarith [abs_nonneg (nu * rnd l)])
  have hq : Stack.resolveQ (F64.fin nu : F64 L) none (some (.fin theta)) = .ok (.fin (rnd (nu * rnd l))) := by
    change Except.ok (F64.fin nu * F64.ofReal l : F64 L) = _
    rw [h1, F64.fin_mul, h2]
  have htm : (layeredC128 L e0 [] e1).transferMatrix { thetaIn := some (.fin theta), nuVac := some (.fin nu), polarization := pol } =
      (layeredC128 L e0 [] e1).transferMatrix (atQ64 L (rnd (nu * rnd l)) nu pol) := by
    have e : (layeredC128 L e0 [] e1).transferMatrix { thetaIn := some (.fin theta), nuVac := some (.fin nu), polarization := pol } =
        (Stack.resolveQ (F64.fin nu : F64 L) none (some (.fin theta)) >>= fun q =>
          Stack.farTransFactor ((layeredC128 L e0 [] e1).eps.zip ((layeredC128 L e0 [] e1).nuZ (.fin nu) q)) pol >>= fun tf =>
          (layeredC128 L e0 [] e1).farMatrix tf ((layeredC128 L e0 [] e1).nuZ (.fin nu) q)) := rfl
    rw [e, hq]
    rfl
  refine ⟨rnd (nu * rnd l), ?_, ?_, ?_⟩
  · have e53 : ((1 / 2 : ℝ) ^ 53) = uro := rfl
    rw [e53, abs_mul]
    have r2 := rnd_err (nu * rnd l)
    have hs0 := abs_nonneg s
    have b0 : uro * (uro * |s|) ≤ 1 / 10 ^ 15 * (uro * |s|) := mul_le_mul_of_nonneg_right hu'.le (mul_nonneg hu.le hs0)
    have d1 : |rnd l - s| ≤ 31 / 10 * (uro * |s|) + eta := by
      have t1 := abs_sub_le (rnd l) l s
      have t2 := abs_sub_abs_le_abs_sub l s
      have t3 : uro * |l| ≤ uro * (|s| + 2 * uro * |s|) := mul_le_mul_of_nonneg_left (by linarith) hu.le
      nlinarith [mul_nonneg hu.le hs0]
    have d2 : |rnd l| ≤ |s| + 31 / 10 * (uro * |s|) + eta := by
      have := abs_sub_abs_le_abs_sub (rnd l) s
      linarith
    have d3 : |nu * rnd l - nu * s| ≤ |nu| * (31 / 10 * (uro * |s|) + eta) := by
      rw [← mul_sub, abs_mul]
      exact mul_le_mul_of_nonneg_left d1 (abs_nonneg _)
    have d4 : uro * |nu * rnd l| ≤ uro * (|nu| * (|s| + 31 / 10 * (uro * |s|) + eta)) := by
      rw [abs_mul]
      exact mul_le_mul_of_nonneg_left (mul_le_mul_of_nonneg_left d2 (abs_nonneg _)) hu.le
    have d5 := abs_sub_le (rnd (nu * rnd l)) (nu * rnd l) (nu * s)
    have d6 : |nu| * eta ≤ 2 ^ 60 * eta := mul_le_mul_of_nonneg_right hnu heta0.le
    have d7 : uro * (|nu| * eta) ≤ 1 * (|nu| * eta) := mul_le_mul_of_nonneg_right (by linarith) (mul_nonneg (abs_nonneg _) heta0.le)
    have d8 : 2 ^ 62 * eta ≤ (1 / 2) ^ 900 := by
      have q1 : 2 ^ 62 * eta ≤ 2 ^ 62 * (uro / 2 ^ 1000) := mul_le_mul_of_nonneg_left eta_le (by positivity)
      refine q1.trans ?_
      rw [show (1000 : ℕ) = 100 + 900 from rfl, pow_add, ← div_div, ← mul_div_assoc, one_div_pow, ← one_div_mul_eq_div]
      refine mul_le_of_le_one_right (by positivity) ?_
      rw [← mul_div_assoc, div_le_one (by positivity)]
      linarith
    have d9 : |nu| * (uro * (uro * |s|)) ≤ |nu| * (1 / 10 ^ 15 * (uro * |s|)) := mul_le_mul_of_nonneg_left b0 (abs_nonneg _)
    have d10 : 0 ≤ |nu| * (uro * |s|) := mul_nonneg (abs_nonneg _) (mul_nonneg hu.le hs0)
    generalize (1 / 2 : ℝ) ^ 900 = Z at *
    nlinarith
  · unfold Stack.reflCoef
    rw [htm]
  · unfold Stack.transCoef
    rw [htm]

/-- A square that is rounded: `(1 + 2⁻³⁰)²`. -/
theorem rnd_square : rnd ((1 + (1 / 2) ^ 30) ^ 2) = 1 + (1 / 2) ^ 29 := by
  have hl : Int.log 2 |((1 : ℝ) + (1 / 2) ^ 30) ^ 2| = 0 := by
    rw [abs_of_pos (by positivity)]
    refine le_antisymm ?_ ?_
    · have := (Int.lt_zpow_iff_log_lt (b := 2) (by norm_num) (r := ((1 : ℝ) + (1 / 2) ^ 30) ^ 2) (by positivity) (x := 1)).1 (by norm_num)
      omega
    · exact (Int.zpow_le_iff_le_log (b := 2) (by norm_num) (r := ((1 : ℝ) + (1 / 2) ^ 30) ^ 2) (by positivity) (x := 0)).1 (by norm_num)
  have hu : ulpExp ((1 + (1 / 2) ^ 30) ^ 2) = -52 := by
    unfold ulpExp
    rw [hl]
    norm_num
  unfold rnd
  rw [hu]
  have hz : ((2 : ℝ) ^ (-52 : ℤ)) = (1 / 2) ^ 52 := by norm_num
  rw [hz]
  have hr : round (((1 : ℝ) + (1 / 2) ^ 30) ^ 2 / (1 / 2) ^ 52) = 2 ^ 52 + 2 ^ 23 := by
    refine round_eq_of_lt ?_
    push_cast
    rw [abs_lt]
    constructor <;> norm_num
  have hf : Int.fract (((1 : ℝ) + (1 / 2) ^ 30) ^ 2 / (1 / 2) ^ 52) ≠ 1 / 2 := by
    have : ((1 : ℝ) + (1 / 2) ^ 30) ^ 2 / (1 / 2) ^ 52 = ((2 ^ 52 + 2 ^ 23 : ℤ) : ℝ) + (1 / 2) ^ 8 := by
      push_cast
      norm_num
    rw [this, Int.fract_intCast_add, Int.fract_eq_self.2 ⟨by norm_num, by norm_num⟩]
    norm_num
  unfold roundEven
  rw [if_neg hf, hr]
  push_cast
  norm_num

/-- Close to the critical angle half of the digits are lost: here the computed coefficient is 1 up to `10⁻¹⁴`, the exact one differs from 1
by more than `10⁻⁹`. -/
theorem C120_critical (L : Libm) : ∃ z : ℂ,
    (layeredC128 L 2 [] ((1 + (1 / 2) ^ 29 : ℝ) : ℂ)).reflCoef (atQ64 L (1 + (1 / 2) ^ 30) 1 "s") = .ok ⟨.fin z.re, .fin z.im⟩ ∧ ‖z - 1‖ ≤ 1e-13 ∧
      1e-9 ≤ ‖(Medium.at 1 (1 + (1 / 2) ^ 30) 2).fresnel "s" (Medium.at 1 (1 + (1 / 2) ^ 30) ((1 + (1 / 2) ^ 29 : ℝ) : ℂ)) - 1‖ := by
  set q : ℝ := 1 + (1 / 2) ^ 30 with hqd
  set e1 : ℝ := 1 + (1 / 2) ^ 29 with hed
  clear_value q e1
  have hu := uro_pos
  have hu' := uro_lt
  have hq2 : q ^ 2 = e1 + (1 / 2) ^ 60 := by
    rw [hqd, hed]
    norm_num
  have hqb : |q| ≤ 2 ^ 60 := by
    rw [hqd, abs_of_pos (by positivity)]
    norm_num
  have hnu : Usual 1 := ⟨by norm_num, by norm_num⟩
  have he1r : Rep e1 := ⟨2 ^ 52 + 2 ^ 23, -52, by norm_num, by norm_num, by rw [hed]; norm_num⟩
  have hM : (2 : ℝ) ^ 10 ≤ maxDouble := pow_le_max (by norm_num)
  have he1b : |e1| ≤ maxDouble := by
    rw [hed, abs_of_pos (by positivity)]
    linarith [show (1 + (1 / 2) ^ 29 : ℝ) ≤ 2 ^ 10 by norm_num]
  have hw2 : ‖(2 : ℂ) * ((1 : ℝ) : ℂ) ^ 2 - (q : ℂ) ^ 2‖ = 2 - q ^ 2 := by
    rw [show (2 : ℂ) * ((1 : ℝ) : ℂ) ^ 2 - (q : ℂ) ^ 2 = ((2 - q ^ 2 : ℝ) : ℂ) by push_cast; ring, Complex.norm_real, Real.norm_eq_abs, abs_of_pos]
    rw [hq2, hed]
    norm_num
  obtain ⟨n0, l0, u0⟩ := near_kz (L := L) (e := 2) (nu := 1) (q := q) (K := 4) (by simp) ⟨by simp; norm_num, by simp; norm_num⟩ hnu hqb (by norm_num)
    (by norm_num) (by
      rw [hw2, hq2, hed, Complex.norm_ofNat]
      norm_num)
  obtain ⟨z0, g0, g0e⟩ := n0
  have g1 : (CplxOps.sqrt (C128.mk' L (e1 : ℂ) * CplxOps.ofR (RealOps.npow (F64.fin 1) 2) - CplxOps.ofR (RealOps.npow (F64.fin q) 2)) : C128 L) =
      C128.mk' L 0 := by
    have a1 : (RealOps.npow (F64.fin 1) 2 : F64 L) = .fin 1 := by
      change F64.ofReal (1 ^ 2) = _
      rw [one_pow, F64.ofReal_one]
    have a2 : (RealOps.npow (F64.fin q) 2 : F64 L) = .fin e1 := by
      change F64.ofReal (q ^ 2) = _
      have := rnd_square
      rw [← hqd, ← hed] at this
      unfold F64.ofReal
      rw [this, if_pos he1b]
    rw [a1, a2]
    have a3 : (C128.mk' L (e1 : ℂ) * CplxOps.ofR (F64.fin 1) - CplxOps.ofR (F64.fin e1) : C128 L) = C128.mk' L 0 := by
      change (⟨(F64.fin e1 * F64.fin 1 - F64.fin 0 * F64.fin 0) - F64.fin e1, (F64.fin e1 * F64.fin 0 + F64.fin 0 * F64.fin 1) - F64.fin 0⟩ : C128 L) =
        ⟨.fin 0, .fin 0⟩
      have b1 : (F64.ofReal e1 : F64 L) = .fin e1 := F64.ofReal_rep he1r he1b
      simp only [F64.fin_mul, mul_one, mul_zero, F64.ofReal_zero, b1, F64.fin_sub, F64.fin_add, neg_zero, add_zero, add_neg_cancel]
    rw [a3]
    change C128.ofComplex (Complex.sqrt ⟨0, 0⟩) = _
    rw [show (⟨0, 0⟩ : ℂ) = ((0 : ℝ) : ℂ) from rfl, csqrt_ofReal le_rfl, Real.sqrt_zero]
    unfold C128.ofComplex C128.mk'
    simp only [Complex.ofReal_re, Complex.ofReal_im, F64.ofReal_zero, Complex.zero_re, Complex.zero_im]
  have hm := bulk64_matrix L "s" (Or.inr rfl) 2 e1 z0 0 q 1 g0 g1
  rw [if_neg (by decide)] at hm
  have hz0l : (1 / 2 : ℝ) ^ 111 ≤ ‖z0‖ ∧ ‖z0‖ ≤ 2 ^ 92 := by
    have h1 := norm_sub_norm_le z0 (kz 1 q 2)
    have h2 := norm_sub_norm_le (kz 1 q 2) z0
    rw [norm_sub_rev] at h2
    have h3 : 10 * 4 * uro * ‖kz 1 q 2‖ ≤ 1 / 100 * ‖kz 1 q 2‖ := mul_le_mul_of_nonneg_right (by linarith) (norm_nonneg _)
    have h4 : (1 / 2 : ℝ) ^ 111 = (1 / 2) ^ 110 / 2 := by norm_num
    have h5 : (2 : ℝ) ^ 92 = 2 * 2 ^ 91 := by norm_num
    rw [h4, h5]
    have h6 := norm_nonneg (kz 1 q 2)
    generalize ‖kz 1 q 2‖ = A at *
    constructor <;> linarith
  obtain ⟨t, t1, t2⟩ := C128.div_err (L := L) (v := 0) (w := z0)
    ((pow_le_pow_of_le_one (by norm_num) (by norm_num) (by norm_num)).trans hz0l.1) (by rw [norm_zero, zero_mul]; linarith)
    (by
      have := pow_le_max (n := 94) (by norm_num)
      have h5 : (2 : ℝ) ^ 94 = 4 * 2 ^ 92 := by norm_num
      linarith [hz0l.2])
    (by
      have := Arith.uro3_lt
      rw [norm_zero, zero_div, zero_mul]
      linarith)
  rw [t1] at hm
  rw [zero_div, sub_zero, norm_zero, zero_div, mul_zero, zero_add] at t2
  have t3 : ‖t - 0‖ ≤ 1 * uro * ‖(0 : ℂ)‖ + uro ^ 3 := by
    rw [sub_zero, norm_zero, mul_zero, zero_add]
    exact t2
  obtain ⟨x, x1, x2⟩ := C128.near_entry (L := L) (s := -1) (c := 1) (G := 4) C128.clit_neg_one (by simp) le_rfl (by norm_num) t3 (by simp) le_rfl
    (by linarith)
  obtain ⟨y, y1, y2⟩ := C128.near_entry (L := L) (s := 1) (c := 1) (G := 4) C128.clit_one (by simp) le_rfl (by norm_num) t3 (by simp) le_rfl (by linarith)
  rw [mul_zero, add_zero, norm_zero, add_zero] at x2 y2
  have hhalf : ‖(1 / 2 : ℂ)‖ = 1 / 2 := by simp
  obtain ⟨z, w1, w2⟩ := C128.near_quot (L := L) (E := (1 + 12) * uro) (T := 1 / 2) (S := 1) (by positivity) le_rfl (by linarith) le_rfl (by linarith) x2 y2
    hhalf.le hhalf.le (by rw [hhalf, one_mul]) (by norm_num)
  rw [div_self (by norm_num)] at w2
  refine ⟨z, ?_, ?_, ?_⟩
  · unfold Stack.reflCoef
    rw [hm]
    change Except.ok (((clit 1 + clit (-1) * C128.mk' L t) / clit 2 : C128 L) / ((clit 1 + clit 1 * C128.mk' L t) / clit 2)) = _
    rw [x1, y1, w1]
    rfl
  · refine w2.trans ?_
    norm_num
    linarith
  · have hk1 : ‖kz 1 q e1‖ = (1 / 2) ^ 30 := by
      have h1 : ‖kz 1 q e1‖ ^ 2 = ((1 / 2) ^ 30) ^ 2 := by
        rw [← norm_pow, kz_sq, show ((e1 : ℂ)) * ((1 : ℝ) : ℂ) ^ 2 - (q : ℂ) ^ 2 = ((e1 - q ^ 2 : ℝ) : ℂ) by push_cast; ring, Complex.norm_real,
          Real.norm_eq_abs, hq2, abs_of_neg (by norm_num)]
        norm_num
      exact (pow_left_inj₀ (norm_nonneg _) (by positivity) two_ne_zero).1 h1
    have hk0 : ‖kz 1 q 2‖ ≤ 1 := by
      refine (pow_le_pow_iff_left₀ (norm_nonneg _) zero_le_one two_ne_zero).1 ?_
      rw [← norm_pow, kz_sq, hw2, hq2, hed]
      norm_num
    unfold Medium.fresnel Medium.fresnelNum Medium.fresnelDen Medium.at
    rw [if_neg (by decide), if_neg (by decide)]
    change 1e-9 ≤ ‖(kz 1 q 2 - kz 1 q e1) / (kz 1 q 2 + kz 1 q e1) - 1‖
    by_cases h0 : kz 1 q 2 + kz 1 q e1 = 0
    · rw [h0, div_zero, zero_sub, norm_neg, norm_one]
      norm_num
    · rw [show (kz 1 q 2 - kz 1 q e1) / (kz 1 q 2 + kz 1 q e1) - 1 = -(2 * kz 1 q e1) / (kz 1 q 2 + kz 1 q e1) by field_simp; ring,
        norm_div, norm_neg, norm_mul, hk1, le_div_iff₀ (norm_pos_iff.2 h0)]
      have := norm_add_le (kz 1 q 2) (kz 1 q e1)
      rw [hk1] at this
      rw [Complex.norm_ofNat]
      have h9 : ‖kz 1 q 2 + kz 1 q e1‖ ≤ 3 / 2 := by
        refine this.trans ?_
        linarith [hk0, show ((1 / 2 : ℝ)) ^ 30 ≤ 1 / 2 by norm_num]
      refine (mul_le_mul_of_nonneg_left h9 (by norm_num)).trans ?_
      norm_num

/-- Glass seen from air, at normal incidence. -/
example (L : Libm) : ∃ z : ℂ, (layeredC128 L 1 [] 4).reflCoef (atQ64 L 0 1 "s") = .ok ⟨.fin z.re, .fin z.im⟩ ∧
    ‖z - (Medium.at 1 0 1).fresnel "s" (Medium.at 1 0 4)‖ ≤ 300 * 1 * 1 ^ 2 * (1 / 2) ^ 53 := by
  have h : ∀ e : ℝ, 0 ≤ e → kz 1 0 e = ((√e : ℝ) : ℂ) := fun e he => by
    have := kz_real (nu := 1) (q := 0) (e := e) (by simpa using he)
    simpa using this
  refine (C120_bulk L "s" (Or.inr rfl) 1 4 1 0 1 1 ⟨by simp; norm_num, by simp; norm_num⟩ ⟨by simp; norm_num, by simp; norm_num⟩
    ⟨by norm_num, by norm_num⟩ (by simp) (by simp) (by simp) le_rfl le_rfl (by norm_num) (by unfold Conditioned; simp) (by unfold Conditioned; simp) ?_).1
  unfold Medium.fresnelDen Medium.at
  rw [if_neg (by decide), if_neg (by decide), if_neg (by decide)]
  change ‖1 * kz 1 0 1‖ + ‖1 * kz 1 0 4‖ ≤ 1 * ‖kz 1 0 1 + kz 1 0 4‖
  have h1 := h 1 (by norm_num)
  have h4 := h 4 (by norm_num)
  push_cast at h1 h4
  rw [h1, h4, one_mul, one_mul, one_mul, ← Complex.ofReal_add, Complex.norm_real, Complex.norm_real, Complex.norm_real, Real.norm_of_nonneg (by positivity),
    Real.norm_of_nonneg (by positivity), Real.norm_of_nonneg (by positivity)]

/-- A metal at 30°, and total reflection. -/
example (L : Libm) : ∃ z : ℂ, (layeredC128 L ((1 : ℝ) : ℂ) [] (-12)).reflCoef (atQ64 L (1 / 2) 1 "p") = .ok ⟨.fin z.re, .fin z.im⟩ ∧
    ‖z - (Medium.at 1 (1 / 2) ((1 : ℝ) : ℂ)).fresnel "p" (Medium.at 1 (1 / 2) (-12))‖ ≤ 600 * 2 * (1 / 2) ^ 53 :=
  (C120_passive L "p" (Or.inl rfl) 1 (-12) 1 (1 / 2) 2 ⟨by norm_num, by norm_num⟩ ⟨by simp; norm_num, by simp; norm_num⟩ ⟨by norm_num, by norm_num⟩
    (by norm_num) (by rw [abs_of_pos (by norm_num)]; norm_num) (by simp) (by norm_num) (by norm_num) (by unfold Conditioned; norm_num)
    (by unfold Conditioned; norm_num)).1

example (L : Libm) : ∃ z : ℂ, (layeredC128 L ((4 : ℝ) : ℂ) [] ((1 : ℝ) : ℂ)).reflCoef (atQ64 L (3 / 2) 1 "p") = .ok ⟨.fin z.re, .fin z.im⟩ ∧
    |‖z‖ - 1| ≤ 600 * 5 * (1 / 2) ^ 53 :=
  C120_total L "p" (Or.inl rfl) 4 1 1 (3 / 2) 5 ⟨by norm_num, by norm_num⟩ ⟨by norm_num, by norm_num⟩ ⟨by norm_num, by norm_num⟩
    (by norm_num) (by rw [abs_of_pos (by norm_num)]; norm_num) (by norm_num) (by norm_num) (by norm_num) (by unfold Conditioned; norm_num)
    (by unfold Conditioned; norm_num)

example (L : Libm) : ∃ q : ℝ, |q - 1 * Real.sin (abs 1)| ≤ 5 * (1 / 2) ^ 53 * |1 * Real.sin (abs 1)| + (1 / 2) ^ 900 := by
  obtain ⟨q, h, -, -⟩ := C120_angle L "p" 1 12 1 1 (by norm_num)
  exact ⟨q, h⟩

end Snompy.Props
