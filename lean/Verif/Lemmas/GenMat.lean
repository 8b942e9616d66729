import Verif.Spec.Layered
import Mathlib.LinearAlgebra.Matrix.Determinant.Basic
import Mathlib.LinearAlgebra.Matrix.Notation
import Mathlib.Analysis.SpecialFunctions.Exp
import Mathlib.Tactic.FieldSimp
import Mathlib.Tactic.LinearCombination

/-!
# The transfer matrices as products of complex matrices

Both transfer matrices of a finite sample have the form
`T(y₀/y₁) P(x₁) T(y₁/y₂) P(x₂) ... T(yₙ/y_sub)`.
-/

namespace Snompy

open Matrix

/-- Complex 2×2 matrices. -/
abbrev CMat := Matrix (Fin 2) (Fin 2) ℂ

/-- Interface matrix. -/
noncomputable def TM (a : ℂ) : CMat := !![(1 + a) / 2, (1 - a) / 2; (1 - a) / 2, (1 + a) / 2]

/-- Propagation matrix. -/
noncomputable def PM (x : ℂ) : CMat := !![Complex.exp x, 0; 0, Complex.exp (-x)]

/-- The product `T(y₀/y₁) P(x₁) T(y₁/y₂) ... T(yₙ/y_sub)`. -/
noncomputable def gen (y0 : ℂ) : List (ℂ × ℂ) → ℂ → CMat
  | [], ys => TM (y0 / ys)
  | (y, x) :: L, ys => TM (y0 / y) * (PM x * gen y L ys)

/-- A finite matrix as numpy sees it. -/
def toFP (M : CMat) : Mat2 (FP ℂ) :=
  ⟨FP.num (M 0 0), FP.num (M 0 1), FP.num (M 1 0), FP.num (M 1 1)⟩

section scalar
theorem slit (x : ℝ) : (lit x : FP ℝ) = FP.num x := rfl
theorem sclit (x : ℂ) : (clit x : FP ℂ) = FP.num x := rfl
theorem sofR (x : ℝ) : (ofR (FP.num x) : FP ℂ) = FP.num (x : ℂ) := rfl
theorem sexp (x : ℂ) : (CplxOps.exp (FP.num x) : FP ℂ) = FP.num (Complex.exp x) := rfl
theorem ssqrt (x : ℂ) : (CplxOps.sqrt (FP.num x) : FP ℂ) = FP.num (Complex.sqrt x) := rfl
theorem snpow (x : ℝ) (n : ℕ) : (RealOps.npow (FP.num x) n : FP ℝ) = FP.num (x ^ n) := rfl
theorem scpow (x : ℂ) (n : ℕ) : (CplxOps.cpow (FP.num x) n : FP ℂ) = FP.num (x ^ n) := rfl
theorem scabs (x : ℂ) : (CplxOps.cabs (FP.num x : FP ℂ)) = FP.num ‖x‖ := rfl
theorem ssin (x : ℝ) : (RealOps.sin (FP.num x) : FP ℝ) = FP.num (Real.sin x) := rfl
theorem scos (x : ℝ) : (RealOps.cos (FP.num x) : FP ℝ) = FP.num (Real.cos x) := rfl
theorem sabs (x : ℝ) : (RealOps.abs (FP.num x) : FP ℝ) = FP.num |x| := rfl
theorem sclip (x : ℝ) : (RealOps.clip (-maxExpArg) maxExpArg (FP.num x) : FP ℝ) =
    FP.num (clipped x) := rfl
theorem sones (x : FP ℝ) : (RealOps.onesLike x : FP ℝ) = FP.num 1 := rfl
theorem slog {x : ℝ} (hx : 0 < x) : (RealOps.log (FP.num x) : FP ℝ) = FP.num (Real.log x) := by
  show FP.rlog _ = _
  simp [FP.rlog, hx]
theorem slog_nan {x : ℝ} (hx : ¬ 0 < x) : (RealOps.log (FP.num x) : FP ℝ) = FP.nan := by
  show FP.rlog _ = _
  simp [FP.rlog, hx]
theorem sdiv2 (a : ℂ) : (FP.num a / FP.num 2 : FP ℂ) = FP.num (a / 2) :=
  FP.num_div _ two_ne_zero
end scalar

theorem interface_num (a : ℂ) : Stack.interface (FP.num a) = toFP (TM a) := by
  simp [Stack.interface, toFP, TM, sclit, sdiv2, sub_eq_add_neg]

theorem propagation_num (a b x : ℂ) (hb : b = -a) :
    Stack.propagation a b (FP.num x) = toFP (PM (a * x)) := by
  subst hb
  simp [Stack.propagation, toFP, PM, sclit, sexp]

theorem toFP_mul (M N : CMat) : (toFP M).matmul (toFP N) = toFP (M * N) := by
  simp [toFP, Mat2.matmul, Matrix.mul_apply, Fin.sum_univ_two]

/-- Values of `f` on neighbouring entries. -/
def adj {σ τ : Type} (f : σ → σ → τ) : σ → List σ → List τ
  | _, [] => []
  | a, b :: L => f a b :: adj f b L

theorem zipWith_adj {σ τ : Type} (f : σ → σ → τ) (a : σ) (L : List σ) :
    List.zipWith f (a :: L).dropLast (a :: L).tail = adj f a L := by
  induction L generalizing a with
  | nil => rfl
  | cons b L ih => simpa [adj] using ih b

theorem adj_map {σ τ ρ : Type} (f : σ → σ → τ) (g : ρ → σ) (a : ρ) (L : List ρ) :
    adj f (g a) (L.map g) = adj (fun a b => f (g a) (g b)) a L := by
  induction L generalizing a with
  | nil => rfl
  | cons b L ih => simp [adj, ih]

theorem chain_gen {σ : Type} (y x : σ → ℂ) (tf : σ → σ → FP ℂ) (pr : σ → Mat2 (FP ℂ)) (s : σ)
    (L : List σ) (sub : σ)
    (htf : ∀ a ∈ s :: L, ∀ b ∈ L ++ [sub], tf a b = FP.num (y a / y b))
    (hpr : ∀ a ∈ s :: L, pr a = toFP (PM (x a))) (M : CMat) :
    Stack.chain (toFP M) (((adj tf s (L ++ [sub])).map Stack.interface).zip ((s :: L).map pr)) =
      toFP (M * (PM (x s) * gen (y s) (L.map fun a => (y a, x a)) (y sub))) := by
  induction L generalizing s M with
  | nil =>
    simp only [List.nil_append, adj, List.map_cons, List.map_nil, List.zip_cons_cons,
      List.zip_nil_right, Stack.chain, List.foldl_cons, List.foldl_nil, gen]
    rw [htf s (by simp) sub (by simp), hpr s (by simp), interface_num, toFP_mul, toFP_mul,
      Matrix.mul_assoc]
  | cons b L ih =>
    have h := ih b (fun a ha c hc => htf a (by simp only [List.mem_cons] at ha ⊢; tauto) c
      (by simp only [List.cons_append, List.mem_cons] at hc ⊢; tauto))
      (fun a ha => hpr a (by simp only [List.mem_cons] at ha ⊢; tauto))
      (M * PM (x s) * TM (y s / y b))
    simp only [List.cons_append, adj, List.map_cons, List.zip_cons_cons, Stack.chain,
      List.foldl_cons, gen] at h ⊢
    rw [htf s (by simp) b (by simp), hpr s (by simp), interface_num, toFP_mul, toFP_mul, h]
    simp only [Matrix.mul_assoc]

theorem layered_multilayer (env : ℂ) (L : List (ℂ × ℝ)) (sub : ℂ) (nu : Option ℝ) :
    (layered env L sub nu).multilayer = decide (L ≠ []) := by
  simp only [Stack.multilayer, Stack.nLayers, layered]
  cases L <;> simp

/-- The quasistatic transfer matrix of a finite sample. -/
noncomputable def qsMat (q : ℝ) (env : ℂ) (L : List (ℂ × ℝ)) (sub : ℂ) : CMat :=
  gen env (L.map fun l => (l.1, (clipped (q * l.2) : ℂ))) sub

theorem transferMatrixQs_layered (env : ℂ) (L : List (ℂ × ℝ)) (sub : ℂ) (nu : Option ℝ) (q : ℝ)
    (hL : ∀ l ∈ L, l.1 ≠ 0) (hs : sub ≠ 0) :
    (layered env L sub nu).transferMatrixQs (FP.num q) = .ok (toFP (qsMat q env L sub)) := by
  have hm := layered_multilayer env L sub nu
  unfold Stack.transferMatrixQs
  rw [hm]
  cases L with
  | nil =>
    simp only [layered, List.map_nil, List.nil_append]
    rw [zipWith_adj]
    simp only [adj, List.map_cons, List.map_nil, FP.num_div _ hs, interface_num, qsMat, gen, sones,
      sofR, ne_eq, not_true_eq_false, decide_false, Bool.false_eq_true, if_false]
    simp [toFP]
  | cons l L =>
    have e1 : (layered env (l :: L) sub nu).eps =
        FP.num env :: FP.num l.1 :: ((L ++ [(sub, (0 : ℝ))]).map fun l => FP.num l.1) := by
      simp [layered]
    have e2 : (layered env (l :: L) sub nu).t = (l :: L).map fun l => FP.num l.2 := rfl
    rw [e1, e2, zipWith_adj]
    simp only [adj]
    rw [adj_map (fun a b : FP ℂ => a / b) (fun l : ℂ × ℝ => FP.num l.1) l]
    simp only [List.map_cons]
    rw [FP.num_div _ (hL l (by simp)), interface_num]
    simp only [ne_eq, reduceCtorEq, not_false_eq_true, decide_true, if_true]
    have hc := chain_gen (fun l : ℂ × ℝ => l.1) (fun l => (clipped (q * l.2) : ℂ))
      (fun a b => FP.num a.1 / FP.num b.1)
      (fun l => Stack.propagation 1 (-1) (ofR (RealOps.clip (-maxExpArg) maxExpArg
        (FP.num q * FP.num l.2))))
      l L (sub, 0) ?_ ?_ (TM (env / l.1))
    · simp only [List.map_cons, List.map_map, Function.comp_def] at hc ⊢
      rw [hc]
      rfl
    · intro a _ b hb
      refine FP.num_div _ ?_
      simp only [List.mem_append, List.mem_singleton] at hb
      rcases hb with hb | rfl
      · exact hL b (by simp [hb])
      · exact hs
    · intro a _
      simp only [FP.num_mul, sclip, sofR]
      rw [propagation_num _ _ _ rfl, one_mul]

/-- Wavevector `sqrt(eps nu² - q²)` in a medium. -/
noncomputable def kz (nu q : ℝ) (eps : ℂ) : ℂ := Complex.sqrt (eps * (nu : ℂ) ^ 2 - (q : ℂ) ^ 2)

/-- The quantity whose ratio is the interface factor of the far-field matrix. -/
noncomputable def adm (pol : String) (nu q : ℝ) (eps : ℂ) : ℂ :=
  if pol = "p" then eps / kz nu q eps else 1 / kz nu q eps

/-- The far-field transfer matrix of a finite sample. -/
noncomputable def farMat (pol : String) (nu q : ℝ) (env : ℂ) (L : List (ℂ × ℝ)) (sub : ℂ) : CMat :=
  gen (adm pol nu q env)
    (L.map fun l => (adm pol nu q l.1, -Complex.I * (kz nu q l.1 * l.2))) (adm pol nu q sub)

theorem nuZ_num (env : ℂ) (L : List (ℂ × ℝ)) (sub : ℂ) (snu : Option ℝ) (nu q : ℝ) :
    (layered env L sub snu).nuZ (FP.num nu) (FP.num q) =
      FP.num (kz nu q env) :: ((L ++ [(sub, (0 : ℝ))]).map fun l => FP.num (kz nu q l.1)) := by
  simp [Stack.nuZ, layered, snpow, sofR, ssqrt, kz, Function.comp_def]

theorem farMatrix_layered (pol : String) (env : ℂ) (L : List (ℂ × ℝ)) (sub : ℂ) (snu : Option ℝ)
    (nu q : ℝ) (hpol : pol = "p" ∨ pol = "s")
    (hp : pol = "p" → (∀ l ∈ L, l.1 ≠ 0) ∧ sub ≠ 0)
    (h0 : kz nu q env ≠ 0) (hL : ∀ l ∈ L, kz nu q l.1 ≠ 0) :
    (do
      let tf ← Stack.farTransFactor ((layered env L sub snu).eps.zip
        ((layered env L sub snu).nuZ (FP.num nu) (FP.num q))) pol
      (layered env L sub snu).farMatrix tf ((layered env L sub snu).nuZ (FP.num nu) (FP.num q))) =
      .ok (toFP (farMat pol nu q env L sub)) := by
  -- the interface factors
  set f : ℂ × ℝ → ℂ × ℝ → FP ℂ := fun a b =>
    if pol = "p" then FP.num a.1 * FP.num (kz nu q b.1) / (FP.num b.1 * FP.num (kz nu q a.1))
    else FP.num (kz nu q b.1) / FP.num (kz nu q a.1) with hf
  have hzip : (layered env L sub snu).eps.zip
      ((layered env L sub snu).nuZ (FP.num nu) (FP.num q)) =
      (((env, 0) :: (L ++ [(sub, 0)])).map fun l : ℂ × ℝ => (FP.num l.1, FP.num (kz nu q l.1))) := by
    rw [nuZ_num]
    have : (layered env L sub snu).eps = FP.num env :: ((L ++ [(sub, (0:ℝ))]).map fun l => FP.num l.1) := by
      simp [layered]
    rw [this, List.zip_cons_cons, List.zip_map']
    rfl
  have hfac : Stack.farTransFactor ((layered env L sub snu).eps.zip
        ((layered env L sub snu).nuZ (FP.num nu) (FP.num q))) pol =
      .ok (adj f (env, 0) (L ++ [(sub, 0)])) := by
    rw [hzip]
    unfold Stack.farTransFactor
    rcases hpol with rfl | rfl
    · simp only [if_true]
      rw [List.map_cons, zipWith_adj,
        adj_map _ (fun l : ℂ × ℝ => (FP.num l.1, FP.num (kz nu q l.1)))]
      simp [hf]
    · have : ("s" : String) ≠ "p" := by decide
      simp only [this, if_false, if_true]
      rw [List.map_cons, zipWith_adj,
        adj_map _ (fun l : ℂ × ℝ => (FP.num l.1, FP.num (kz nu q l.1)))]
      simp [hf, this]
  have hadm : ∀ a : ℂ × ℝ, kz nu q a.1 ≠ 0 → ∀ b ∈ L ++ [(sub, (0:ℝ))],
      f a b = FP.num (adm pol nu q a.1 / adm pol nu q b.1) := by
    intro a ha b hb
    rcases hpol with rfl | rfl
    · have hb0 : b.1 ≠ 0 := by
        simp only [List.mem_append, List.mem_singleton] at hb
        rcases hb with hb | rfl
        · exact (hp rfl).1 b hb
        · exact (hp rfl).2
      simp only [hf, if_true, FP.num_mul, adm]
      rw [FP.num_div _ (mul_ne_zero hb0 ha), div_div_div_eq, mul_comm (b.1)]
    · have : ("s" : String) ≠ "p" := by decide
      simp only [hf, this, if_false, adm]
      rw [FP.num_div _ ha, div_div_div_eq, one_mul, mul_one]
  rw [hfac]
  simp only [PyM.ok_bind]
  unfold Stack.farMatrix
  rw [layered_multilayer]
  cases L with
  | nil =>
    simp only [List.nil_append, adj, List.map_cons, List.map_nil, ne_eq, not_true_eq_false,
      decide_false, Bool.false_eq_true, if_false]
    rw [hadm (env, 0) h0 (sub, 0) (by simp), interface_num]
    rfl
  | cons l L =>
    simp only [List.cons_append, adj, List.map_cons]
    rw [hadm (env, 0) h0 l (by simp), interface_num]
    simp only [ne_eq, reduceCtorEq, not_false_eq_true, decide_true, if_true]
    have hc := chain_gen (fun l : ℂ × ℝ => adm pol nu q l.1)
      (fun l => -Complex.I * (kz nu q l.1 * l.2)) f
      (fun l => Stack.propagation (-Complex.I) Complex.I (FP.num (kz nu q l.1) * ofR (FP.num l.2)))
      l L (sub, 0) ?_ ?_ (TM (adm pol nu q env / adm pol nu q l.1))
    · have hpf : List.zipWith (fun nz t => nz * ofR t)
          ((layered env (l :: L) sub snu).nuZ (FP.num nu) (FP.num q)).dropLast.tail
          (layered env (l :: L) sub snu).t =
          (l :: L).map fun l => FP.num (kz nu q l.1) * ofR (FP.num l.2) := by
        rw [nuZ_num]
        have : (FP.num (kz nu q env) :: List.map (fun l => FP.num (kz nu q l.1))
            (l :: L ++ [(sub, (0:ℝ))])).dropLast.tail =
            (l :: L).map fun l => FP.num (kz nu q l.1) := by
          rw [List.map_append, ← List.cons_append]
          simp only [List.map_cons, List.map_nil, List.dropLast_concat, List.tail_cons]
        rw [this]
        have : (layered env (l :: L) sub snu).t = (l :: L).map fun l => FP.num l.2 := rfl
        rw [this, List.zipWith_map, List.zipWith_self]
      rw [hpf, List.map_map]
      simp only [Function.comp_def]
      rw [hc]
      rfl
    · intro a ha b hb
      exact hadm a (hL a ha) b (by simp only [List.cons_append, List.mem_cons]; tauto)
    · intro a _
      rw [sofR, FP.num_mul, propagation_num _ _ _ (neg_neg _).symm]

end Snompy
