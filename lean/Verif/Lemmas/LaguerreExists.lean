import Verif.Spec.Laguerre
import Mathlib.Analysis.SpecialFunctions.Gamma.Basic
import Mathlib.Analysis.InnerProductSpace.Spectrum
import Mathlib.Analysis.InnerProductSpace.Dual
import Mathlib.RingTheory.Polynomial.DegreeLT

/-!
# Gauss-Laguerre rules exist for every order

The nodes are the eigenvalues of the multiplication by `x`, compressed to the polynomials of degree below `n` with the
inner product `∫ p q exp(-x)`; the weights are the squared components of `1` along the eigenvectors.
-/

namespace Snompy.Laguerre

open Polynomial MeasureTheory Set

/-- `∫ p(x) exp(-x) dx` over the positive half-line. -/
noncomputable def Lam (p : ℝ[X]) : ℝ := ∫ x in Ioi (0 : ℝ), p.eval x * Real.exp (-x)

theorem integrable_pow (k : ℕ) : IntegrableOn (fun x : ℝ => x ^ k * Real.exp (-x)) (Ioi 0) := by
  have h := Real.GammaIntegral_convergent (s := k + 1) (by positivity)
  refine h.congr_fun (fun x _ => ?_) measurableSet_Ioi
  simp only [add_sub_cancel_right, Real.rpow_natCast]
  ring

theorem integral_pow (k : ℕ) : ∫ x in Ioi (0 : ℝ), x ^ k * Real.exp (-x) = k.factorial := by
  rw [← Real.Gamma_nat_eq_factorial, Real.Gamma_eq_integral (by positivity)]
  refine setIntegral_congr_fun measurableSet_Ioi fun x _ => ?_
  simp only [add_sub_cancel_right, Real.rpow_natCast]
  ring

theorem integrable (p : ℝ[X]) : IntegrableOn (fun x : ℝ => p.eval x * Real.exp (-x)) (Ioi 0) := by
  have h : (fun x : ℝ => p.eval x * Real.exp (-x)) =
      fun x => ∑ k ∈ Finset.range (p.natDegree + 1), p.coeff k * (x ^ k * Real.exp (-x)) := by
    funext x
    rw [eval_eq_sum_range, Finset.sum_mul]
    exact Finset.sum_congr rfl fun k _ => by ring
  rw [h]
  exact integrable_finsetSum _ fun k _ => (integrable_pow k).const_mul _

theorem Lam_add (p q : ℝ[X]) : Lam (p + q) = Lam p + Lam q := by
  unfold Lam
  rw [← integral_add (integrable p) (integrable q)]
  simp only [eval_add, add_mul]

theorem Lam_smul (c : ℝ) (p : ℝ[X]) : Lam (c • p) = c * Lam p := by
  unfold Lam
  rw [← integral_const_mul]
  simp only [eval_smul, smul_eq_mul, mul_assoc]

theorem Lam_pow (k : ℕ) : Lam (X ^ k) = k.factorial := by
  unfold Lam
  simp only [eval_pow, eval_X]
  exact integral_pow k

theorem Lam_nonneg {p : ℝ[X]} (h : ∀ x, 0 < x → 0 ≤ p.eval x) : 0 ≤ Lam p :=
  setIntegral_nonneg measurableSet_Ioi fun x hx => mul_nonneg (h x hx) (Real.exp_pos _).le

theorem Lam_pos {p : ℝ[X]} (h : ∀ x, 0 < x → 0 ≤ p.eval x) (hp : p ≠ 0) : 0 < Lam p := by
  refine lt_of_le_of_ne (Lam_nonneg h) fun h0 => hp ?_
  have h1 : (fun x => p.eval x * Real.exp (-x)) =ᵐ[volume.restrict (Ioi 0)] 0 := by
    refine (setIntegral_eq_zero_iff_of_nonneg_ae ?_ (integrable p)).1 h0.symm
    exact (ae_restrict_mem measurableSet_Ioi).mono fun x hx => mul_nonneg (h x hx) (Real.exp_pos _).le
  have h2 : ∀ᵐ x ∂volume, x ∈ Ioi (0 : ℝ) → p.IsRoot x := by
    rw [← ae_restrict_iff' measurableSet_Ioi]
    exact h1.mono fun x hx => by
      rcases mul_eq_zero.1 hx with h | h
      · exact h
      · exact absurd h (Real.exp_pos _).ne'
  by_contra hne
  have hfin : (Ioi (0 : ℝ) ∩ {x | p.IsRoot x}).Finite := (p.finite_setOfPred_isRoot hne).subset inter_subset_right
  have h3 : volume (Ioi (0 : ℝ) \ {x | p.IsRoot x}) = 0 := by
    rw [ae_iff] at h2
    convert h2 using 2
    ext x
    simp
  have h4 : volume (Ioi (0 : ℝ)) = 0 := by
    rw [← inter_union_sdiff (Ioi (0 : ℝ)) {x | p.IsRoot x}]
    exact measure_union_null (hfin.measure_zero _) h3
  simp at h4

/-- The polynomials of degree below `n`. -/
def V (n : ℕ) : Type := degreeLT ℝ n

noncomputable instance (n : ℕ) : AddCommGroup (V n) := inferInstanceAs (AddCommGroup (degreeLT ℝ n))

noncomputable instance (n : ℕ) : Module ℝ (V n) := inferInstanceAs (Module ℝ (degreeLT ℝ n))

/-- The polynomial itself. -/
def V.poly {n : ℕ} (v : V n) : ℝ[X] := v.1

theorem poly_add {n : ℕ} (u v : V n) : (u + v).poly = u.poly + v.poly := rfl

theorem poly_smul {n : ℕ} (c : ℝ) (v : V n) : (c • v).poly = c • v.poly := rfl

theorem poly_inj {n : ℕ} {u v : V n} (h : u.poly = v.poly) : u = v := Subtype.ext h

theorem poly_zero {n : ℕ} : (0 : V n).poly = 0 := rfl

instance (n : ℕ) : FiniteDimensional ℝ (V n) :=
  Module.Finite.equiv (degreeLTEquiv ℝ n).symm

theorem finrank_V (n : ℕ) : Module.finrank ℝ (V n) = n := by
  have : Module.finrank ℝ (degreeLT ℝ n) = n := by
    rw [LinearEquiv.finrank_eq (degreeLTEquiv ℝ n)]
    simp
  exact this

/-- `∫ p q exp(-x)`. -/
@[instance_reducible]
noncomputable def core (n : ℕ) : InnerProductSpace.Core ℝ (V n) where
  inner u v := Lam (u.poly * v.poly)
  conj_inner_symm u v := by simp [mul_comm]
  re_inner_nonneg u := by
    simpa using Lam_nonneg fun x _ => by simpa using mul_self_nonneg (u.poly.eval x)
  add_left u v w := by simp only [poly_add, add_mul, Lam_add]
  smul_left u v c := by simp only [poly_smul, smul_mul_assoc, Lam_smul]; simp
  definite u h := by
    by_contra hu
    have : u.poly ≠ 0 := fun h0 => hu (poly_inj h0)
    exact (Lam_pos (p := u.poly * u.poly) (fun x _ => by simpa using mul_self_nonneg (u.poly.eval x))
      (mul_ne_zero this this)).ne' h

noncomputable instance (n : ℕ) : NormedAddCommGroup (V n) := (core n).toNormedAddCommGroup

noncomputable instance (n : ℕ) : InnerProductSpace ℝ (V n) := InnerProductSpace.ofCore (core n).toCore

theorem inner_def {n : ℕ} (u v : V n) : inner ℝ u v = Lam (u.poly * v.poly) := rfl

/-- Multiplication by `x` followed by the orthogonal projection back to degree below `n`. -/
noncomputable def T (n : ℕ) : V n →ₗ[ℝ] V n where
  toFun u := (InnerProductSpace.toDual ℝ (V n)).symm (LinearMap.toContinuousLinearMap
    { toFun := fun v => Lam (X * u.poly * v.poly)
      map_add' := fun a b => by simp only [poly_add, mul_add, Lam_add]
      map_smul' := fun c a => by simp only [poly_smul, mul_smul_comm, Lam_smul]; simp })
  map_add' u v := by
    refine ext_inner_right ℝ fun w => ?_
    rw [inner_add_left]
    simp only [InnerProductSpace.toDual_symm_apply]
    simp [poly_add, mul_add, add_mul, Lam_add]
  map_smul' c u := by
    refine ext_inner_right ℝ fun w => ?_
    rw [RingHom.id_apply, inner_smul_left]
    simp only [InnerProductSpace.toDual_symm_apply]
    simp [poly_smul, Lam_smul]

theorem inner_T {n : ℕ} (u v : V n) : inner ℝ (T n u) v = Lam (X * u.poly * v.poly) := by
  simp [T, InnerProductSpace.toDual_symm_apply]

theorem T_symm (n : ℕ) : (T n).IsSymmetric := fun u v => by
  rw [inner_T, real_inner_comm, inner_T]
  congr 1
  ring

/-- The monomial of degree `k < n`. -/
noncomputable def mono {n : ℕ} (k : ℕ) (h : k < n) : V n :=
  ⟨X ^ k, mem_degreeLT.2 (by rw [degree_X_pow]; exact_mod_cast h)⟩

theorem T_mono {n k : ℕ} (h : k + 1 < n) : T n (mono k (by omega)) = mono (k + 1) h := by
  refine ext_inner_right ℝ fun v => ?_
  rw [inner_T, inner_def]
  congr 2
  simp only [V.poly, mono]
  ring

theorem T_pow_one {n k : ℕ} (h : k < n) : ((T n) ^ k) (mono 0 (by omega)) = mono k h := by
  induction k with
  | zero => simp
  | succ k ih =>
    rw [pow_succ', Module.End.mul_apply, ih (by omega), T_mono h]

theorem inner_T_pow {n : ℕ} (hn : 0 < n) {k : ℕ} (h : k < 2 * n) :
    inner ℝ (mono 0 hn) (((T n) ^ k) (mono 0 hn)) = (k.factorial : ℝ) := by
  have key : ∀ a b : ℕ, a < n → b < n →
      inner ℝ (mono 0 hn) (((T n) ^ (a + b)) (mono 0 hn)) = Lam (X ^ a * X ^ b) ∧
      inner ℝ (mono 0 hn) (((T n) ^ (a + b + 1)) (mono 0 hn)) = Lam (X * X ^ a * X ^ b) := by
    intro a b ha hb
    have hs : ∀ (a : ℕ) (u v : V n), inner ℝ u (((T n) ^ a) v) = inner ℝ (((T n) ^ a) u) v := fun a u v =>
      ((T_symm n).pow a u v).symm
    constructor
    · rw [pow_add, Module.End.mul_apply, hs, T_pow_one ha, T_pow_one hb]
      rfl
    · rw [show a + b + 1 = a + 1 + b by omega, pow_add, Module.End.mul_apply, hs, pow_succ', Module.End.mul_apply,
        T_pow_one ha, T_pow_one hb, inner_T]
      rfl
  rcases Nat.even_or_odd k with ⟨m, hm⟩ | ⟨m, hm⟩
  · rw [hm, (key m m (by omega) (by omega)).1, ← pow_add, Lam_pow]
  · have := (key m m (by omega) (by omega)).2
    rw [hm, two_mul, this, ← pow_succ', ← pow_add, Lam_pow]
    congr 2
    omega

/-- The nodes and weights. -/
noncomputable def rule (n : ℕ) : List (ℝ × ℝ) :=
  List.ofFn fun i : Fin n => ((T_symm n).eigenvalues (finrank_V n) i,
    (if h : 0 < n then inner ℝ (mono 0 h) ((T_symm n).eigenvectorBasis (finrank_V n) i) else 0 : ℝ) ^ 2)

theorem T_pow_eigen {n : ℕ} (i : Fin n) (k : ℕ) :
    ((T n) ^ k) ((T_symm n).eigenvectorBasis (finrank_V n) i) =
      ((T_symm n).eigenvalues (finrank_V n) i) ^ k • (T_symm n).eigenvectorBasis (finrank_V n) i := by
  induction k with
  | zero => simp
  | succ k ih =>
    rw [pow_succ', Module.End.mul_apply, ih, map_smul, (T_symm n).apply_eigenvectorBasis (finrank_V n) i, smul_smul]
    simp [pow_succ]

/-- A Gauss-Laguerre rule exists for every positive order. -/
theorem gaussLaguerre_rule {n : ℕ} (hn : 0 < n) : GaussLaguerre n (rule n) := by
  set e := (T_symm n).eigenvectorBasis (finrank_V n) with he
  set l := (T_symm n).eigenvalues (finrank_V n) with hl
  refine ⟨by simp [rule], ?_, ?_, ?_⟩
  · intro xw hxw
    obtain ⟨i, rfl⟩ := List.mem_ofFn.1 hxw
    show 0 < l i
    have h1 : inner ℝ (T n (e i)) (e i) = l i := by
      rw [he, (T_symm n).apply_eigenvectorBasis (finrank_V n) i, ← he, ← hl, real_inner_smul_left,
        real_inner_self_eq_norm_sq, e.norm_eq_one]
      simp
    rw [← h1, inner_T]
    have h0 : (e i).poly ≠ 0 := fun h0 => e.toBasis.ne_zero i (by simpa using poly_inj (u := e i) (v := 0) h0)
    refine Lam_pos (fun x hx => ?_) (mul_ne_zero (mul_ne_zero X_ne_zero h0) h0)
    simp only [eval_mul, eval_X, mul_assoc]
    exact mul_nonneg hx.le (mul_self_nonneg _)
  · intro xw hxw
    obtain ⟨i, rfl⟩ := List.mem_ofFn.1 hxw
    simp only [hn, dif_pos]
    rw [← he]
    refine sq_pos_of_ne_zero fun h0 => ?_
    have hk : ∀ k < n, Lam (X ^ k * (e i).poly) = 0 := by
      intro k hk
      have h1 : inner ℝ (((T n) ^ k) (mono 0 hn)) (e i) = 0 := by
        rw [(T_symm n).pow k, he, T_pow_eigen, ← he, real_inner_smul_right, h0, mul_zero]
      rw [T_pow_one hk, inner_def] at h1
      exact h1
    have h2 : Lam ((e i).poly * (e i).poly) = 0 := by
      have hp0 : (e i).poly ≠ 0 := fun h0 => e.toBasis.ne_zero i (by simpa using poly_inj (u := e i) (v := 0) h0)
      have hsum : (e i).poly = ∑ k ∈ Finset.range n, (e i).poly.coeff k • (X : ℝ[X]) ^ k := by
        simp only [smul_eq_C_mul]
        exact as_sum_range' _ n ((natDegree_lt_iff_degree_lt hp0).2 (mem_degreeLT.1 (e i).2)) |>.trans
          (Finset.sum_congr rfl fun k _ => (C_mul_X_pow_eq_monomial).symm)
      have hl : ∀ (s : Finset ℕ) (f : ℕ → ℝ[X]), Lam (∑ k ∈ s, f k) = ∑ k ∈ s, Lam (f k) := by
        intro s f
        induction s using Finset.cons_induction with
        | empty => simp [Lam]
        | cons a s ha ih => rw [Finset.sum_cons, Finset.sum_cons, Lam_add, ih]
      rw [hsum, Finset.sum_mul, hl, ← hsum]
      refine Finset.sum_eq_zero fun k hk' => ?_
      rw [smul_mul_assoc, Lam_smul, hk k (Finset.mem_range.1 hk'), mul_zero]
    have h3 : inner ℝ (e i) (e i) = (0 : ℝ) := h2
    rw [real_inner_self_eq_norm_sq, e.norm_eq_one] at h3
    norm_num at h3
  · intro k hk
    rw [rule, List.map_ofFn, List.sum_ofFn]
    simp only [Function.comp_apply, hn, dif_pos]
    rw [← he, ← hl, ← inner_T_pow hn hk, ← e.sum_inner_mul_inner]
    refine Finset.sum_congr rfl fun i _ => ?_
    rw [← (T_symm n).pow k, he, T_pow_eigen, ← he, ← hl, real_inner_smul_left, real_inner_comm]
    ring

end Snompy.Laguerre
