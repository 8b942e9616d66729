import Verif.Lemmas.DoubleMat
import Verif.Spec.Rounding

/-!
# Rounding errors in the quasistatic transfer matrix
-/

namespace Snompy

open Matrix

theorem one_le_rowNorm (a : ℂ) : 1 ≤ rowNorm a := by
  have h := norm_add_le (1 + a) (1 - a)
  rw [show (1 + a) + (1 - a) = 2 by ring] at h
  have : ‖(2 : ℂ)‖ = 2 := by simp
  unfold rowNorm
  linarith

theorem norm_le_rowNorm (a : ℂ) : ‖a‖ ≤ rowNorm a := by
  have h := norm_sub_le (1 + a) (1 - a)
  rw [show (1 + a) - (1 - a) = 2 * a by ring, norm_mul] at h
  rw [show ‖(2 : ℂ)‖ = 2 by simp] at h
  unfold rowNorm
  linarith

theorem pow_le_max {n : ℕ} (h : n ≤ 1023) : (2 : ℝ) ^ n ≤ maxDouble :=
  (pow_le_pow_right₀ (by norm_num) h).trans maxDouble_ge

theorem four_pow_le : (2 : ℝ) ^ 1000 * 4 ≤ maxDouble := by
  have h := pow_le_max (n := 1000 + 2) (by norm_num)
  rw [pow_add, show (2 : ℝ) ^ 2 = 4 by norm_num] at h
  exact h

theorem four_le_pow : (4 : ℝ) ≤ 2 ^ 1000 :=
  le_trans (by norm_num : (4 : ℝ) ≤ 2 ^ 2) (pow_le_pow_right₀ (by norm_num) (by norm_num))

namespace Arith

variable {L : Libm} {C : Type} [CplxOps (F64 L) ℤ C] (A : Arith L C)

theorem uro3_lt : uro ^ 3 < uro / 10 ^ 6 := by
  have := uro_lt
  have h := uro_pos
  have : uro ^ 2 < 1 / 10 ^ 6 := by nlinarith
  calc uro ^ 3 = uro * uro ^ 2 := by ring
    _ < uro * (1 / 10 ^ 6) := mul_lt_mul_of_pos_left this h
    _ = _ := by ring

/-- One entry of the interface matrix. -/
theorem entry {t s : C} {τ σ a : ℂ} (ht : A.Val t τ) (hs : A.Val s σ) (hσ : ‖σ‖ = 1)
    (ha : ‖τ - a‖ ≤ A.kdiv * uro * ‖a‖ + uro ^ 3) {G : ℝ} (hm : ‖a‖ ≤ G) (hmax : G * 4 ≤ maxDouble) (hbig : 4 ≤ G) :
    ∃ z, A.Val ((clit 1 + s * t) / clit 2) z ∧
      ‖z - (1 + σ * a) / 2‖ ≤ (A.kdiv + 12) * uro * (1 + ‖a‖) / 2 := by
  have hu := uro_pos
  have hu' := uro_lt
  have he := eta_pos
  have heu := eta_lt
  have h3 := uro3_lt
  have h3' : 0 < uro ^ 3 := by positivity
  have k1 := A.kdiv_ge
  have k2 := A.kdiv_le
  have n0 := norm_nonneg a
  have hku : A.kdiv * uro ≤ 1 / 10 ^ 12 := by nlinarith
  have hku0 : 0 ≤ A.kdiv * uro := by positivity
  have nτ : ‖τ‖ ≤ ‖a‖ * (1 + A.kdiv * uro) + uro ^ 3 := by
    have := norm_sub_norm_le τ a
    linarith
  have nτ' : ‖τ‖ ≤ 1.01 * ‖a‖ + uro ^ 3 := by nlinarith
  have small : ∀ x : ℝ, 0 ≤ x → ∀ k : ℝ, k ≤ 4 → x * (1 + k * uro) ≤ x * 1.01 := fun x hx k hk =>
    mul_le_mul_of_nonneg_left (by nlinarith) hx
  obtain ⟨m, vm, em⟩ := A.mul _ _ _ _ hs ht (by
    rw [hσ, one_mul]; linarith [small ‖τ‖ (norm_nonneg _) 4 le_rfl])
  rw [hσ, one_mul] at em
  have em' : ‖m - σ * a‖ ≤ (A.kdiv + 5) * uro * ‖a‖ + 2 * uro ^ 3 + 8 * eta := by
    have h1 : m - σ * a = (m - σ * τ) + σ * (τ - a) := by ring
    have h2 : ‖m - σ * a‖ ≤ ‖m - σ * τ‖ + ‖τ - a‖ := by
      rw [h1]
      refine (norm_add_le _ _).trans ?_
      rw [norm_mul, hσ, one_mul]
    nlinarith
  have nm : ‖m‖ ≤ 1.02 * ‖a‖ + 1 / 10 ^ 6 := by
    have h1 := norm_sub_norm_le m (σ * a)
    rw [norm_mul, hσ, one_mul] at h1
    have : (A.kdiv + 5) * uro ≤ 0.01 := by nlinarith
    have := mul_le_mul_of_nonneg_right this n0
    nlinarith
  obtain ⟨w, vw, ew⟩ := A.add _ _ _ _ A.one vm (by
    rw [norm_one]; linarith [small (1 + ‖m‖) (by positivity) 2 (by norm_num)])
  rw [norm_one] at ew
  have ew' : ‖w - (1 + σ * a)‖ ≤ (A.kdiv + 7.5) * uro * (1 + ‖a‖) := by
    have h1 : w - (1 + σ * a) = (w - (1 + m)) + (m - σ * a) := by ring
    rw [h1]
    refine (norm_add_le _ _).trans ?_
    nlinarith [mul_nonneg hu.le n0]
  have n1 : ‖1 + σ * a‖ ≤ 1 + ‖a‖ := by
    refine (norm_add_le _ _).trans ?_
    rw [norm_mul, hσ, one_mul, norm_one]
  have nw : ‖w‖ ≤ 1.01 * (1 + ‖a‖) := by
    have h1 := norm_sub_norm_le w (1 + σ * a)
    have : (A.kdiv + 7.5) * uro ≤ 0.01 := by nlinarith
    have := mul_le_mul_of_nonneg_right this (by linarith : 0 ≤ 1 + ‖a‖)
    linarith
  obtain ⟨z, vz, ez⟩ := A.half _ _ vw (by
    linarith [small ‖w‖ (norm_nonneg _) 4 le_rfl])
  refine ⟨z, vz, ?_⟩
  have h1 : z - (1 + σ * a) / 2 = (z - w / 2) + (w - (1 + σ * a)) / 2 := by ring
  have h2 : ‖(2 : ℂ)‖ = 2 := by simp
  rw [h1]
  refine (norm_add_le _ _).trans ?_
  rw [norm_div, h2] at ez ⊢
  nlinarith [mul_nonneg hu.le n0]

/-- Rounding factor of an interface matrix. -/
noncomputable def rhoT : ℝ := 1 + (2 * A.kdiv + 24) * uro

theorem near_interface {x y : C} {e f : ℂ} (hx : A.Val x e) (hy : A.Val y f) (he : Moderate e) (hf : Moderate f) :
    A.Near (Stack.interface (x / y)) (TM (e / f)) (rowNorm (e / f)) A.rhoT := by
  have hu := uro_pos
  have hu' := uro_lt
  have h3 := uro3_lt
  have k1 := A.kdiv_ge
  have k2 := A.kdiv_le
  have r1 := A.room_ge
  have r2 := A.room_le
  have hku : A.kdiv * uro ≤ 1 := by nlinarith
  have hf0 : 0 < ‖f‖ := lt_of_lt_of_le (by positivity) hf.1
  have ha : ‖e‖ / ‖f‖ ≤ 2 ^ 1000 := by
    rw [div_le_iff₀ hf0]
    calc ‖e‖ ≤ 2 ^ 500 := he.2
      _ = 2 ^ 1000 * (1 / 2) ^ 500 := by
        rw [one_div, inv_pow, show (1000 : ℕ) = 500 + 500 by norm_num, pow_add, mul_assoc,
          mul_inv_cancel₀ (by positivity), mul_one]
      _ ≤ 2 ^ 1000 * ‖f‖ := mul_le_mul_of_nonneg_left hf.1 (by positivity)
  have hmax := four_pow_le
  have hmax' : (2 : ℝ) ^ 500 * 4 ≤ maxDouble :=
    le_trans (mul_le_mul_of_nonneg_right (pow_le_pow_right₀ (by norm_num) (by norm_num)) (by norm_num)) hmax
  have hbig := four_le_pow
  have hp0 : 0 ≤ ‖e‖ / ‖f‖ := by positivity
  have c1 : (1 / 2) ^ 900 ≤ ‖f‖ :=
    le_trans (pow_le_pow_of_le_one (by norm_num) (by norm_num) (by norm_num)) hf.1
  have c2 : ‖e‖ * A.room ≤ maxDouble := le_trans (mul_le_mul he.2 r2 (by linarith) (by positivity)) hmax'
  have c3 : ‖f‖ * A.room ≤ maxDouble := le_trans (mul_le_mul hf.2 r2 (by linarith) (by positivity)) hmax'
  clear hmax'
  generalize (2 : ℝ) ^ 1000 = G at *
  obtain ⟨τ, vτ, eτ⟩ := A.div _ _ _ _ hx hy c1 c2 c3
    (by
      clear c1
      have : ‖e‖ / ‖f‖ * (1 + A.kdiv * uro) ≤ ‖e‖ / ‖f‖ * 2 := mul_le_mul_of_nonneg_left (by linarith) hp0
      linarith)
  clear c1
  rw [← norm_div] at eτ ha
  set a := e / f with hadef
  obtain ⟨z1, v1, e1⟩ := A.entry vτ A.one (by simp) eτ ha hmax hbig
  obtain ⟨z2, v2, e2⟩ := A.entry vτ A.neg_one (by simp) eτ ha hmax hbig
  have hN := one_le_rowNorm a
  have hN' := norm_le_rowNorm a
  have hent : ‖z1 - (1 + a) / 2‖ + ‖z2 - (1 - a) / 2‖ ≤ (A.rhoT - 1) * rowNorm a := by
    rw [show (1 + 1 * a) / 2 = (1 + a) / 2 by ring] at e1
    rw [show (1 + -1 * a) / 2 = (1 - a) / 2 by ring] at e2
    have : (A.kdiv + 12) * uro * (1 + ‖a‖) ≤ (A.kdiv + 12) * uro * (2 * rowNorm a) :=
      mul_le_mul_of_nonneg_left (by linarith) (by positivity)
    unfold rhoT
    linarith
  have hrow : ‖(1 + a) / 2‖ + ‖(1 - a) / 2‖ ≤ rowNorm a := by
    have h2 : ‖(2 : ℂ)‖ = 2 := by simp
    rw [norm_div, norm_div, h2]
    unfold rowNorm
    linarith
  refine ⟨!![z1, z2; z2, z1], ⟨v1, v2, v2, v1⟩, ?_, ?_, hN, ?_⟩
  · intro i
    fin_cases i
    · exact hrow
    · rw [add_comm]; exact hrow
  · intro i
    fin_cases i
    · exact hent
    · rw [add_comm]; exact hent
  · unfold rhoT
    nlinarith

theorem near_prop {p x : ℝ} (hp : Rep p) (hpl : |p| ≤ expLimit) :
    A.Near (Stack.propagation 1 (-1) (CplxOps.ofR (F64.fin p) : C)) (PM (x : ℂ)) (Real.exp |x|)
      ((1 + 9 * uro) * Real.exp |p - x|) := by
  obtain ⟨a, b, va, ea, v01, v10, vb, eb⟩ := A.prop p hp hpl
  have hu := uro_pos
  have he := eta_lt
  have hN : 1 ≤ Real.exp |x| := Real.one_le_exp (abs_nonneg _)
  have hd : 1 ≤ Real.exp |p - x| := Real.one_le_exp (abs_nonneg _)
  -- both diagonal entries in the same way
  have key : ∀ (c : ℂ) (s y : ℝ), |s - y| ≤ |p - x| → y ≤ |x| →
      ‖c - (Real.exp s : ℝ)‖ ≤ 8 * uro * Real.exp s + 8 * eta →
      ‖c - (Real.exp y : ℝ)‖ ≤ ((1 + 9 * uro) * Real.exp |p - x| - 1) * Real.exp |x| := by
    intro c s y hs hy hc
    have h1 : Real.exp s ≤ Real.exp y * Real.exp |p - x| := by
      rw [← Real.exp_add]
      exact Real.exp_le_exp.2 (by linarith [(abs_le.1 hs).2])
    have h2 : |Real.exp s - Real.exp y| ≤ Real.exp y * (Real.exp |p - x| - 1) := by
      rw [abs_le]
      constructor
      · have h3 : Real.exp y * Real.exp (-|p - x|) ≤ Real.exp s := by
          rw [← Real.exp_add]
          exact Real.exp_le_exp.2 (by linarith [(abs_le.1 hs).1])
        have h4 : 2 - Real.exp |p - x| ≤ Real.exp (-|p - x|) := by
          have h5 : Real.exp |p - x| * Real.exp (-|p - x|) = 1 := by rw [← Real.exp_add]; simp
          nlinarith
        nlinarith [Real.exp_pos y]
      · linarith
    have h6 := norm_sub_le_norm_sub_add_norm_sub c (Real.exp s : ℝ) ((Real.exp y : ℝ) : ℂ)
    have h7 : ‖((Real.exp s : ℝ) : ℂ) - ((Real.exp y : ℝ) : ℂ)‖ = |Real.exp s - Real.exp y| := by
      rw [← Complex.ofReal_sub, Complex.norm_real, Real.norm_eq_abs]
    rw [h7] at h6
    have hyN : Real.exp y ≤ Real.exp |x| := Real.exp_le_exp.2 hy
    have hy0 := Real.exp_pos y
    have h8 : 8 * uro * Real.exp s ≤ 8 * uro * (Real.exp |x| * Real.exp |p - x|) :=
      mul_le_mul_of_nonneg_left (h1.trans (mul_le_mul_of_nonneg_right hyN (by positivity))) (by positivity)
    have h9 : Real.exp y * (Real.exp |p - x| - 1) ≤ Real.exp |x| * (Real.exp |p - x| - 1) :=
      mul_le_mul_of_nonneg_right hyN (by linarith)
    have h10 : 1 ≤ Real.exp |x| * Real.exp |p - x| := one_le_mul_of_one_le_of_one_le hN hd
    nlinarith
  have ka := key a p x le_rfl (le_abs_self x) (by exact_mod_cast ea)
  have kb := key b (-p) (-x) (by rw [← abs_neg]; apply le_of_eq; congr 1; ring) (neg_le_abs x)
    (by exact_mod_cast eb)
  refine ⟨!![a, 0; 0, b], ⟨va, v01, v10, vb⟩, ?_, ?_, hN, ?_⟩
  · intro i
    fin_cases i
    · simp only [PM, Fin.zero_eta, Fin.isValue, of_apply, cons_val', cons_val_zero, cons_val_one, norm_zero, add_zero]
      rw [Complex.norm_exp, Complex.ofReal_re]
      exact Real.exp_le_exp.2 (le_abs_self x)
    · simp only [PM, Fin.mk_one, Fin.isValue, of_apply, cons_val', cons_val_zero, cons_val_one, norm_zero, zero_add]
      rw [Complex.norm_exp, Complex.neg_re, Complex.ofReal_re]
      exact Real.exp_le_exp.2 (neg_le_abs x)
  · intro i
    fin_cases i
    · simpa [PM] using ka
    · simpa [PM] using kb
  · nlinarith

/-- Product of the row norms. -/
noncomputable def genNorm (y0 : ℂ) : List (ℂ × ℝ) → ℂ → ℝ
  | [], ys => rowNorm (y0 / ys)
  | (y, x) :: L, ys => rowNorm (y0 / y) * (Real.exp |x| * genNorm y L ys)

/-- Product of the rounding factors. -/
noncomputable def genRho (A : Arith L C) : List ℝ → ℝ
  | [] => 1
  | d :: l => (1 + 9 * uro) * Real.exp d * (1 + 8 * uro) * A.rhoT * (1 + 8 * uro) * genRho A l

theorem rhoT_ge : 1 ≤ A.rhoT := by
  unfold rhoT
  nlinarith [A.kdiv_ge, uro_pos]

theorem genNorm_ge (y0 : ℂ) (l : List (ℂ × ℝ)) (ys : ℂ) : 1 ≤ genNorm y0 l ys := by
  induction l generalizing y0 with
  | nil => exact one_le_rowNorm _
  | cons a l ih =>
    exact one_le_mul_of_one_le_of_one_le (one_le_rowNorm _)
      (one_le_mul_of_one_le_of_one_le (Real.one_le_exp (abs_nonneg _)) (ih _))

theorem genRho_ge (l : List ℝ) (h : ∀ d ∈ l, 0 ≤ d) : 1 ≤ A.genRho l := by
  induction l with
  | nil => exact le_rfl
  | cons a l ih =>
    have hu := uro_pos
    have := A.rhoT_ge
    have := ih fun d hd => h d (List.mem_cons_of_mem _ hd)
    have he : 1 ≤ Real.exp a := Real.one_le_exp (h a (by simp))
    unfold genRho
    refine one_le_mul_of_one_le_of_one_le (one_le_mul_of_one_le_of_one_le (one_le_mul_of_one_le_of_one_le
      (one_le_mul_of_one_le_of_one_le (one_le_mul_of_one_le_of_one_le ?_ he) ?_) ?_) ?_) ?_ <;> linarith

theorem near_chain {σ : Type} (y : σ → ℂ) (x p : σ → ℝ) (tf : σ → σ → C) (pr : σ → Mat2 C) (s : σ) (l : List σ) (sub : σ)
    (htf : ∀ a ∈ s :: l, ∀ b ∈ l ++ [sub],
      A.Near (Stack.interface (tf a b)) (TM (y a / y b)) (rowNorm (y a / y b)) A.rhoT)
    (hpr : ∀ a ∈ s :: l, A.Near (pr a) (PM (x a : ℂ)) (Real.exp |x a|) ((1 + 9 * uro) * Real.exp |p a - x a|))
    (X : Mat2 C) (M : CMat) (N ρ : ℝ) (hX : A.Near X M N ρ)
    (hmax : N * (Real.exp |x s| * genNorm (y s) (l.map fun a => (y a, x a)) (y sub)) *
      (ρ * A.genRho ((s :: l).map fun a => |p a - x a|)) ≤ maxDouble) :
    A.Near (Stack.chain X (((adj tf s (l ++ [sub])).map Stack.interface).zip ((s :: l).map pr)))
      (M * (PM (x s : ℂ) * gen (y s) (l.map fun a => (y a, (x a : ℂ))) (y sub)))
      (N * (Real.exp |x s| * genNorm (y s) (l.map fun a => (y a, x a)) (y sub)))
      (ρ * A.genRho ((s :: l).map fun a => |p a - x a|)) := by
  have hu := uro_pos
  have hT := A.rhoT_ge
  induction l generalizing s X M N ρ with
  | nil =>
    simp only [List.map_nil, List.map_cons, genNorm, genRho, List.nil_append, adj, List.zip_cons_cons,
      List.zip_nil_right, Stack.chain, List.foldl_cons, List.foldl_nil, gen, mul_one] at hmax ⊢
    have h1 := hpr s (by simp)
    have h2 := htf s (by simp) sub (by simp)
    have hN : 1 ≤ N := by obtain ⟨_, _, _, _, h, _⟩ := hX; exact h
    have hρ : 1 ≤ ρ := by obtain ⟨_, _, _, _, _, h⟩ := hX; exact h
    have hx : 1 ≤ Real.exp |x s| := Real.one_le_exp (abs_nonneg _)
    have hd : 1 ≤ Real.exp |p s - x s| := Real.one_le_exp (abs_nonneg _)
    have hn := one_le_rowNorm (y s / y sub)
    have m1 : N * ρ * (Real.exp |x s| * ((1 + 9 * uro) * Real.exp |p s - x s|)) * (1 + 8 * uro) ≤ maxDouble := by
      refine le_trans ?_ hmax
      have e : N * (Real.exp |x s| * rowNorm (y s / y sub)) *
          (ρ * ((1 + 9 * uro) * Real.exp |p s - x s| * (1 + 8 * uro) * A.rhoT * (1 + 8 * uro))) =
          N * ρ * (Real.exp |x s| * ((1 + 9 * uro) * Real.exp |p s - x s|)) * (1 + 8 * uro) *
            (rowNorm (y s / y sub) * A.rhoT * (1 + 8 * uro)) := by ring
      rw [e]
      refine le_mul_of_one_le_right (by positivity) ?_
      exact one_le_mul_of_one_le_of_one_le (one_le_mul_of_one_le_of_one_le hn hT) (by linarith)
    have n1 := A.near_mul hX h1 m1
    have n2 := A.near_mul n1 h2 (by refine le_trans (le_of_eq ?_) hmax; ring)
    have e1 : N * (Real.exp |x s| * rowNorm (y s / y sub)) = N * Real.exp |x s| * rowNorm (y s / y sub) := by ring
    have e2 : ρ * ((1 + 9 * uro) * Real.exp |p s - x s| * (1 + 8 * uro) * A.rhoT * (1 + 8 * uro)) =
      ρ * ((1 + 9 * uro) * Real.exp |p s - x s|) * (1 + 8 * uro) * A.rhoT * (1 + 8 * uro) := by ring
    rw [e1, e2, ← Matrix.mul_assoc]
    exact n2
  | cons b l ih =>
    have h1 := hpr s (by simp)
    have h2 := htf s (by simp) b (by simp)
    have hN : 1 ≤ N := by obtain ⟨_, _, _, _, h, _⟩ := hX; exact h
    have hρ : 1 ≤ ρ := by obtain ⟨_, _, _, _, _, h⟩ := hX; exact h
    have hx : 1 ≤ Real.exp |x s| := Real.one_le_exp (abs_nonneg _)
    have hd : 1 ≤ Real.exp |p s - x s| := Real.one_le_exp (abs_nonneg _)
    have hn := one_le_rowNorm (y s / y b)
    have hg : 1 ≤ A.genRho ((b :: l).map fun a => |p a - x a|) := A.genRho_ge _ (by
      intro d hd
      obtain ⟨a, -, rfl⟩ := List.mem_map.1 hd
      exact abs_nonneg _)
    have hG : 1 ≤ Real.exp |x b| * genNorm (y b) (l.map fun a => (y a, x a)) (y sub) :=
      one_le_mul_of_one_le_of_one_le (Real.one_le_exp (abs_nonneg _)) (genNorm_ge _ _ _)
    have hmax' : N * Real.exp |x s| * rowNorm (y s / y b) *
        (Real.exp |x b| * genNorm (y b) (l.map fun a => (y a, x a)) (y sub)) *
        (ρ * ((1 + 9 * uro) * Real.exp |p s - x s|) * (1 + 8 * uro) * A.rhoT * (1 + 8 * uro) *
          A.genRho ((b :: l).map fun a => |p a - x a|)) ≤ maxDouble := by
      refine le_trans (le_of_eq ?_) hmax
      simp only [List.map_cons, genNorm, genRho]
      ring
    have m2 : N * Real.exp |x s| * (ρ * ((1 + 9 * uro) * Real.exp |p s - x s|) * (1 + 8 * uro)) *
        (rowNorm (y s / y b) * A.rhoT) * (1 + 8 * uro) ≤ maxDouble := by
      refine le_trans ?_ hmax'
      have e : N * Real.exp |x s| * rowNorm (y s / y b) *
        (Real.exp |x b| * genNorm (y b) (l.map fun a => (y a, x a)) (y sub)) *
        (ρ * ((1 + 9 * uro) * Real.exp |p s - x s|) * (1 + 8 * uro) * A.rhoT * (1 + 8 * uro) *
          A.genRho ((b :: l).map fun a => |p a - x a|)) =
        N * Real.exp |x s| * (ρ * ((1 + 9 * uro) * Real.exp |p s - x s|) * (1 + 8 * uro)) *
        (rowNorm (y s / y b) * A.rhoT) * (1 + 8 * uro) *
        ((Real.exp |x b| * genNorm (y b) (l.map fun a => (y a, x a)) (y sub)) *
          A.genRho ((b :: l).map fun a => |p a - x a|)) := by ring
      rw [e]
      refine le_mul_of_one_le_right (by positivity) ?_
      exact one_le_mul_of_one_le_of_one_le hG hg
    have m1 : N * ρ * (Real.exp |x s| * ((1 + 9 * uro) * Real.exp |p s - x s|)) * (1 + 8 * uro) ≤ maxDouble := by
      refine le_trans ?_ m2
      have e : N * Real.exp |x s| * (ρ * ((1 + 9 * uro) * Real.exp |p s - x s|) * (1 + 8 * uro)) *
        (rowNorm (y s / y b) * A.rhoT) * (1 + 8 * uro) =
          N * ρ * (Real.exp |x s| * ((1 + 9 * uro) * Real.exp |p s - x s|)) * (1 + 8 * uro) *
            (rowNorm (y s / y b) * A.rhoT * (1 + 8 * uro)) := by ring
      rw [e]
      refine le_mul_of_one_le_right (by positivity) ?_
      exact one_le_mul_of_one_le_of_one_le (one_le_mul_of_one_le_of_one_le hn hT) (by linarith)
    have n1 := A.near_mul hX h1 m1
    have n2 := A.near_mul n1 h2 m2
    have h := ih b (fun a ha c hc => htf a (by simp only [List.mem_cons] at ha ⊢; tauto) c
      (by simp only [List.cons_append, List.mem_cons] at hc ⊢; tauto))
      (fun a ha => hpr a (by simp only [List.mem_cons] at ha ⊢; tauto)) _ _ _ _ n2 hmax'
    have e1 : N * (Real.exp |x s| * genNorm (y s) ((b :: l).map fun a => (y a, x a)) (y sub)) =
        N * Real.exp |x s| * rowNorm (y s / y b) *
        (Real.exp |x b| * genNorm (y b) (l.map fun a => (y a, x a)) (y sub)) := by
      simp only [List.map_cons, genNorm]; ring
    have e2 : ρ * A.genRho ((s :: b :: l).map fun a => |p a - x a|) =
        ρ * ((1 + 9 * uro) * Real.exp |p s - x s|) * (1 + 8 * uro) * A.rhoT * (1 + 8 * uro) *
          A.genRho ((b :: l).map fun a => |p a - x a|) := by
      rw [List.map_cons, genRho]; ring
    have e3 : M * (PM (x s : ℂ) * gen (y s) ((b :: l).map fun a => (y a, (x a : ℂ))) (y sub)) =
        M * PM (x s : ℂ) * TM (y s / y b) * (PM (x b : ℂ) * gen (y b) (l.map fun a => (y a, (x a : ℂ))) (y sub)) := by
      simp only [List.map_cons, gen, Matrix.mul_assoc]
    rw [e1, e2, e3]
    simpa only [List.cons_append, adj, List.map_cons, List.zip_cons_cons, Stack.chain, List.foldl_cons] using h

end Arith

end Snompy
