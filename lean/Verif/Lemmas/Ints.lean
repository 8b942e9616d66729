import Verif.Spec.Ints
import Verif.Lemmas.Qs
import Mathlib.Analysis.Real.Pi.Bounds

/-!
# Lemmas for integer arguments
-/

namespace Snompy

variable {w : ℕ}

namespace IntN

theorem wrap_eq {k : ℤ} (h : |k| < 2 ^ (w - 1)) : wrap w k = int k := by
  unfold wrap
  congr 1
  obtain ⟨h1, h2⟩ := abs_lt.1 h
  cases w with
  | zero =>
    simp at h1 h2
    obtain rfl : k = 0 := by omega
    simp
  | succ n =>
    simp only [Nat.add_sub_cancel] at h1 h2
    have e : (((2 ^ (n + 1) : ℕ)) : ℤ) = 2 * 2 ^ n := by push_cast; ring
    exact Int.bmod_eq_of_le (by omega) (by omega)

theorem AtMost.mono {a b : ℕ} {x : IntN w} (h : x.AtMost a) (hb : a ≤ b) : x.AtMost b := fun k hk =>
  (h k hk).trans (by exact_mod_cast hb)

theorem atMost_flt (x : FP ℝ) (b : ℕ) : (flt x : IntN w).AtMost b := fun _ h => nomatch h

theorem add_flt (x : IntN w) (y : FP ℝ) : x + flt y = flt (x.val + y) := by cases x <;> rfl
theorem flt_add (x : FP ℝ) (y : IntN w) : flt x + y = flt (x + y.val) := by cases y <;> rfl
theorem sub_flt (x : IntN w) (y : FP ℝ) : x - flt y = flt (x.val - y) := by cases x <;> rfl
theorem flt_sub (x : FP ℝ) (y : IntN w) : flt x - y = flt (x - y.val) := by cases y <;> rfl
theorem mul_flt (x : IntN w) (y : FP ℝ) : x * flt y = flt (x.val * y) := by cases x <;> rfl
theorem flt_mul (x : FP ℝ) (y : IntN w) : flt x * y = flt (x * y.val) := by cases y <;> rfl

theorem add_spec {a b : ℕ} {x y : IntN w} (hx : x.AtMost a) (hy : y.AtMost b) (h : a + b < 2 ^ (w - 1)) :
    (x + y).val = x.val + y.val ∧ (x + y).AtMost (a + b) := by
  cases x with
  | flt x => rw [flt_add]; exact ⟨rfl, atMost_flt _ _⟩
  | int j =>
    cases y with
    | flt y => rw [add_flt]; exact ⟨rfl, atMost_flt _ _⟩
    | int k =>
      have hj := hx j rfl
      have hk := hy k rfl
      have h1 : |j + k| ≤ ((a + b : ℕ) : ℤ) := (abs_add_le _ _).trans (by push_cast; omega)
      have h2 : (int j + int k : IntN w) = int (j + k) := wrap_eq (lt_of_le_of_lt h1 (by exact_mod_cast h))
      rw [h2]
      refine ⟨?_, fun i hi => by obtain rfl := IntN.int.inj hi; exact h1⟩
      show FP.num ((j + k : ℤ) : ℝ) = FP.num (j : ℝ) + FP.num (k : ℝ)
      rw [FP.num_add]
      push_cast
      rfl

theorem mul_spec {a b : ℕ} {x y : IntN w} (hx : x.AtMost a) (hy : y.AtMost b) (h : a * b < 2 ^ (w - 1)) :
    (x * y).val = x.val * y.val ∧ (x * y).AtMost (a * b) := by
  cases x with
  | flt x => rw [flt_mul]; exact ⟨rfl, atMost_flt _ _⟩
  | int j =>
    cases y with
    | flt y => rw [mul_flt]; exact ⟨rfl, atMost_flt _ _⟩
    | int k =>
      have hj := hx j rfl
      have hk := hy k rfl
      have h1 : |j * k| ≤ ((a * b : ℕ) : ℤ) := by
        rw [abs_mul]
        push_cast
        exact mul_le_mul hj hk (abs_nonneg _) (by positivity)
      have h2 : (int j * int k : IntN w) = int (j * k) := wrap_eq (lt_of_le_of_lt h1 (by exact_mod_cast h))
      rw [h2]
      refine ⟨?_, fun i hi => by obtain rfl := IntN.int.inj hi; exact h1⟩
      show FP.num ((j * k : ℤ) : ℝ) = FP.num (j : ℝ) * FP.num (k : ℝ)
      rw [FP.num_mul]
      push_cast
      rfl

theorem npow_spec {a : ℕ} {x : IntN w} (hx : x.AtMost a) (n : ℕ) (h : a ^ n < 2 ^ (w - 1)) :
    (RealOps.npow x n).val = RealOps.npow x.val n ∧ (RealOps.npow x n).AtMost (a ^ n) := by
  cases x with
  | flt x => exact ⟨rfl, atMost_flt _ _⟩
  | int k =>
    have hk := hx k rfl
    have h1 : |k ^ n| ≤ ((a ^ n : ℕ) : ℤ) := by
      rw [abs_pow]
      push_cast
      exact pow_le_pow_left₀ (abs_nonneg _) hk n
    have h2 : (RealOps.npow (int k : IntN w) n) = int (k ^ n) := wrap_eq (lt_of_le_of_lt h1 (by exact_mod_cast h))
    rw [h2]
    refine ⟨?_, fun i hi => by obtain rfl := IntN.int.inj hi; exact h1⟩
    show FP.num ((k ^ n : ℤ) : ℝ) = FP.num ((k : ℝ) ^ n)
    push_cast
    rfl

theorem sub_sq_spec {a : ℕ} {x y : IntN w} (hx : x.AtMost a) (hy : y.AtMost a) (h : a ^ 2 < 2 ^ (w - 1)) :
    (RealOps.npow x 2 - RealOps.npow y 2).val = RealOps.npow x.val 2 - RealOps.npow y.val 2 := by
  have h1 := (npow_spec hx 2 h).1
  have h2 := (npow_spec hy 2 h).1
  cases x with
  | flt x =>
    show (flt (RealOps.npow x 2) - RealOps.npow y 2).val = _
    rw [flt_sub, ← h2]
    rfl
  | int j =>
    cases y with
    | flt y =>
      show (RealOps.npow (int j) 2 - flt (RealOps.npow y 2)).val = _
      rw [sub_flt, ← h1]
      rfl
    | int k =>
      have hj := hx j rfl
      have hk := hy k rfl
      have hb : ∀ i : ℤ, |i| ≤ a → 0 ≤ i ^ 2 ∧ i ^ 2 ≤ ((a ^ 2 : ℕ) : ℤ) := fun i hi => ⟨sq_nonneg i, by
        rw [← sq_abs]
        push_cast
        exact pow_le_pow_left₀ (abs_nonneg _) hi 2⟩
      have h' : ((a ^ 2 : ℕ) : ℤ) < 2 ^ (w - 1) := by exact_mod_cast h
      have e : ∀ i : ℤ, |i| ≤ a → (RealOps.npow (int i : IntN w) 2) = int (i ^ 2) := fun i hi =>
        wrap_eq (by rw [abs_of_nonneg (hb i hi).1]; exact lt_of_le_of_lt (hb i hi).2 h')
      rw [e j hj, e k hk]
      have h3 : (int (j ^ 2) - int (k ^ 2) : IntN w) = int (j ^ 2 - k ^ 2) := by
        refine wrap_eq (lt_of_le_of_lt (abs_le.2 ⟨?_, ?_⟩) h')
        · linarith [(hb j hj).1, (hb k hk).2]
        · linarith [(hb k hk).1, (hb j hj).2]
      rw [h3]
      show FP.num ((j ^ 2 - k ^ 2 : ℤ) : ℝ) = FP.num ((j : ℝ) ^ 2) - FP.num ((k : ℝ) ^ 2)
      rw [FP.num_sub]
      push_cast
      rfl

theorem abs_spec {a : ℕ} {x : IntN w} (hx : x.AtMost a) (h : a < 2 ^ (w - 1)) : (RealOps.abs x).val = RealOps.abs x.val := by
  cases x with
  | flt x => rfl
  | int k =>
    have hk := hx k rfl
    have h2 : RealOps.abs (int k : IntN w) = int |k| :=
      wrap_eq (by rw [abs_abs]; exact lt_of_le_of_lt hk (by exact_mod_cast h))
    rw [h2]
    show FP.num ((|k| : ℤ) : ℝ) = FP.num |(k : ℝ)|
    push_cast
    rfl

theorem lit_val (x : ℝ) : (lit x : IntN w).val = lit x := by
  show val (if x ∈ ({0, 1, 2, 4, 16} : Set ℝ) then int ⌊x⌋ else flt (.num x)) = _
  split_ifs with h
  · simp only [Set.mem_insert_iff, Set.mem_singleton_iff] at h
    rcases h with rfl | rfl | rfl | rfl | rfl <;> simp [val] <;> rfl
  · rfl

theorem lit_atMost (x : ℝ) : (lit x : IntN w).AtMost 16 := by
  show AtMost 16 (if x ∈ ({0, 1, 2, 4, 16} : Set ℝ) then int ⌊x⌋ else flt (.num x))
  split_ifs with h
  · simp only [Set.mem_insert_iff, Set.mem_singleton_iff] at h
    intro k hk
    obtain rfl := IntN.int.inj hk
    rcases h with rfl | rfl | rfl | rfl | rfl <;> norm_num
  · exact atMost_flt _ _

theorem lit_nat {n : ℕ} (h : (n : ℝ) ∈ ({0, 1, 2, 4, 16} : Set ℝ)) : (lit (n : ℝ) : IntN w) = int n := by
  show (if (n : ℝ) ∈ ({0, 1, 2, 4, 16} : Set ℝ) then int ⌊(n : ℝ)⌋ else flt (.num (n : ℝ))) = _
  rw [if_pos h, Int.floor_natCast]

theorem atMost_int (k : ℤ) : (int k : IntN w).AtMost k.natAbs := fun i hi => by
  obtain rfl := IntN.int.inj hi
  rw [Int.abs_eq_natAbs]

theorem lit0 : (lit 0 : IntN w) = int 0 := by have := lit_nat (w := w) (n := 0) (by simp); simpa using this
theorem lit2 : (lit 2 : IntN w).AtMost 2 := by
  have := lit_nat (w := w) (n := 2) (by simp)
  rw [show (lit 2 : IntN w) = int 2 by simpa using this]
  exact atMost_int 2
theorem lit4 : (lit 4 : IntN w).AtMost 4 := by
  have := lit_nat (w := w) (n := 4) (by simp)
  rw [show (lit 4 : IntN w) = int 4 by simpa using this]
  exact atMost_int 4
theorem lit1 : (lit 1 : IntN w).AtMost 1 := by
  have := lit_nat (w := w) (n := 1) (by simp)
  rw [show (lit 1 : IntN w) = int 1 by simpa using this]
  exact atMost_int 1
theorem lit_pi : (lit Real.pi : IntN w) = flt (.num Real.pi) := by
  show (if Real.pi ∈ ({0, 1, 2, 4, 16} : Set ℝ) then int ⌊Real.pi⌋ else flt (.num Real.pi)) = _
  rw [if_neg]
  simp only [Set.mem_insert_iff, Set.mem_singleton_iff, not_or]
  have h1 := Real.pi_gt_three
  have h2 := Real.pi_lt_four
  exact ⟨by linarith, by linarith, by linarith, by linarith, by linarith⟩

end IntN

/-! ## Programs -/

/-- Results that correspond. -/
def View {α β : Type} (v : α → β) (x : PyM α) (y : PyM β) : Prop := x.map v = y

theorem View.ok {α β : Type} {v : α → β} {a : α} {b : β} (h : v a = b) : View v (.ok a) (.ok b) := by rw [← h]; rfl

theorem View.error {α β : Type} {v : α → β} (e : PyErr) : View v (.error e) (.error e) := rfl

theorem View.bind {α β γ δ : Type} {v : α → β} {u : γ → δ} {x : PyM α} {y : PyM β} {f : α → PyM γ} {g : β → PyM δ} (h : View v x y)
    (hf : ∀ a, x = .ok a → View u (f a) (g (v a))) : View u (x >>= f) (y >>= g) := by
  unfold View at *
  subst h
  cases x with
  | error e => rfl
  | ok a => exact hf a rfl

theorem View.mapM {α β ι : Type} {v : α → β} (l : List ι) {f : ι → PyM α} {g : ι → PyM β} (h : ∀ i ∈ l, View v (f i) (g i)) :
    View (List.map v) (l.mapM f) (l.mapM g) := by
  induction l with
  | nil => rfl
  | cons i l ih =>
    simp only [List.mapM_cons]
    refine (h i List.mem_cons_self).bind fun a _ => (ih fun i hi => h i (List.mem_cons_of_mem _ hi)).bind fun b _ => ?_
    exact View.ok (by simp)

theorem View.quad0 {rule : List (ℝ × ℝ)} {p p'} {body : IntN w → IntN w → PyM (IntC w)} {body' : FP ℝ → FP ℝ → PyM (FP ℂ)}
    (h : ∀ x y : ℝ, View IntC.val (body (.flt (.num x)) (.flt (.num y))) (body' (.num x) (.num y))) :
    View IntC.val (CplxOps.quad0 rule p body) (CplxOps.quad0 rule p' body') :=
  (View.mapM rule fun xw _ => h xw.1 xw.2).bind fun _ _ => View.ok rfl

theorem View.trapz0 {grid : List ℝ} {p p'} {body : IntN w → PyM (IntC w)} {body' : FP ℝ → PyM (FP ℂ)}
    (h : ∀ x : ℝ, View IntC.val (body (.flt (.num x))) (body' (.num x))) :
    View IntC.val (CplxOps.trapz0 grid p body) (CplxOps.trapz0 grid p' body') :=
  (View.mapM grid fun x _ => h x).bind fun _ _ => View.ok rfl

theorem View.series0 {n : ℕ} {p p'} {body : ℤ → PyM (IntC w)} {body' : ℤ → PyM (FP ℂ)}
    (h : ∀ j : ℕ, View IntC.val (body j) (body' j)) :
    View IntC.val (CplxOps.series0 (C := IntC w) n p body) (CplxOps.series0 n p' body') :=
  (View.mapM (List.range n) fun x _ => h x).bind fun _ _ => View.ok rfl

/-- The entries of a matrix. -/
def Mat2.val (M : Mat2 (IntC w)) : Mat2 (FP ℂ) := ⟨M.m00.val, M.m01.val, M.m10.val, M.m11.val⟩

theorem chain_val (M : Mat2 (IntC w)) (l : List (Mat2 (IntC w) × Mat2 (IntC w))) :
    (Stack.chain M l).val = Stack.chain M.val (l.map fun p => (p.1.val, p.2.val)) := by
  unfold Stack.chain
  induction l generalizing M with
  | nil => rfl
  | cons p l ih =>
    simp only [List.foldl_cons, List.map_cons]
    rw [ih]
    rfl

theorem floats_multilayer (s : Stack (IntN w) (IntC w)) : s.floats.multilayer = s.multilayer := by
  simp [Stack.multilayer, Stack.nLayers, Stack.floats]

theorem zip_val (l m : List (Mat2 (IntC w))) :
    (l.zip m).map (fun p => (p.1.val, p.2.val)) = (l.map Mat2.val).zip (m.map Mat2.val) := by
  rw [List.zip_map]
  rfl

/-- The integers in the product of the momentum and a thickness fit. -/
def QtFits (w : ℕ) (s : Stack (IntN w) (IntC w)) (q : IntN w) : Prop := ∀ t ∈ s.t, (q * t).val = q.val * t.val

theorem QtFits.of_flt (s : Stack (IntN w) (IntC w)) (q : FP ℝ) : QtFits w s (.flt q) := fun t _ => by rw [IntN.flt_mul]; rfl

theorem QtFits.of_bound {s : Stack (IntN w) (IntC w)} {q : IntN w} {Q T : ℕ} (hq : q.AtMost Q) (ht : ∀ t ∈ s.t, t.AtMost T)
    (h : Q * T < 2 ^ (w - 1)) : QtFits w s q := fun t h1 => (IntN.mul_spec hq (ht t h1) h).1

theorem transferMatrixQs_ints (s : Stack (IntN w) (IntC w)) (q : IntN w) (h : QtFits w s q) :
    View Mat2.val (s.transferMatrixQs q) (s.floats.transferMatrixQs q.val) := by
  unfold Stack.transferMatrixQs
  dsimp only
  have e1 : List.map Stack.interface (List.zipWith (· / ·) s.floats.eps.dropLast s.floats.eps.tail) =
      (List.map Stack.interface (List.zipWith (· / ·) s.eps.dropLast s.eps.tail)).map Mat2.val := by
    show List.map Stack.interface (List.zipWith (· / ·) (s.eps.map IntC.val).dropLast (s.eps.map IntC.val).tail) = _
    rw [← List.map_dropLast, ← List.map_tail, List.zipWith_map, List.map_map, List.map_zipWith, List.map_zipWith]
    rfl
  rw [e1, floats_multilayer]
  generalize List.map Stack.interface (List.zipWith (· / ·) s.eps.dropLast s.eps.tail) = l
  cases l with
  | nil => exact View.error _
  | cons T0 Ts =>
    simp only [List.map_cons]
    split_ifs
    · refine View.ok ?_
      rw [chain_val, zip_val]
      congr 2
      rw [show s.floats.t = s.t.map IntN.val from rfl, List.map_map, List.map_map, List.map_map, List.map_map]
      refine List.map_congr_left fun t ht => ?_
      have := h t ht
      show (Stack.propagation 1 (-1) (ofR (RealOps.clip (-maxExpArg) maxExpArg (q * t)))).val =
        Stack.propagation 1 (-1) (ofR (RealOps.clip (-maxExpArg) maxExpArg (q.val * t.val)))
      rw [← this]
      rfl
    · refine View.ok ?_
      have : (ofR (RealOps.onesLike q) : IntC w).val = ofR (RealOps.onesLike q.val) := by
        cases q with
        | int k => show (FP.num (((1 : ℤ) : ℝ)) : FP ℝ).map _ = _; rw [Int.cast_one]; rfl
        | flt x => rfl
      rw [← this]
      rfl

theorem reflCoefQs_ints (s : Stack (IntN w) (IntC w)) (q : IntN w) (h : QtFits w s q) :
    View IntC.val (s.reflCoefQs q) (s.floats.reflCoefQs q.val) :=
  (transferMatrixQs_ints s q h).bind fun _ _ => View.ok rfl

theorem transCoefQs_ints (s : Stack (IntN w) (IntC w)) (q : IntN w) (h : QtFits w s q) :
    View IntC.val (s.transCoefQs q) (s.floats.transCoefQs q.val) :=
  (transferMatrixQs_ints s q h).bind fun _ _ => View.ok rfl

theorem reflCoefQs0_ints (s : Stack (IntN w) (IntC w)) : View IntC.val s.reflCoefQs s.floats.reflCoefQs := by
  have := reflCoefQs_ints s (lit 0) fun t _ => by
    rw [IntN.lit0]
    cases t with
    | flt x => rw [IntN.mul_flt]; rfl
    | int k =>
      have : (IntN.int 0 * IntN.int k : IntN w) = .int 0 := by
        show IntN.wrap w (0 * k) = _
        rw [zero_mul]
        exact IntN.wrap_eq (by simp)
      rw [this]
      show FP.num ((0 : ℤ) : ℝ) = FP.num ((0 : ℤ) : ℝ) * FP.num (k : ℝ)
      rw [FP.num_mul]
      simp
  rwa [IntN.lit_val] at this

/-! ## Charges above the surface -/

theorem View.refl {α : Type} (x : PyM α) : View id x x := by cases x <;> rfl

theorem reflCoefQs_div (s : Stack (IntN w) (IntC w)) (z : IntN w) (h2 : (lit 2 * z).val = lit 2 * z.val) (x : ℝ) :
    View IntC.val (s.reflCoefQs (.flt (.num x) / (lit 2 * z))) (s.floats.reflCoefQs (.num x / (lit 2 * z.val))) := by
  have := reflCoefQs_ints s (.flt (.num x / (lit 2 * z).val)) (QtFits.of_flt _ _)
  rw [← h2]
  exact this

theorem reflCoefQsAboveSurf_ints (s : Stack (IntN w) (IntC w)) (env : Env) (z : IntN w) (nLag : Option ℕ) (h1 : QtFits w s z)
    (h2 : (lit 2 * z).val = lit 2 * z.val) :
    View IntC.val (s.reflCoefQsAboveSurf env z nLag) (s.floats.reflCoefQsAboveSurf env z.val nLag) := by
  unfold Stack.reflCoefQsAboveSurf
  refine (View.refl (env.lagRule (nLag.getD env.defaults.nLag))).bind fun rule _ => (reflCoefQs_ints s z h1).bind fun like _ =>
    View.quad0 fun x y => ?_
  exact (reflCoefQs_div s z h2 x).bind fun b _ => View.ok rfl

theorem surfPotAndField_ints (s : Stack (IntN w) (IntC w)) (env : Env) (z : IntN w) (nLag : Option ℕ) (h1 : QtFits w s z)
    (h2 : (lit 2 * z).val = lit 2 * z.val) (h4 : (lit 4 * RealOps.npow z 2).val = lit 4 * RealOps.npow z.val 2) :
    View (Prod.map IntC.val IntC.val) (s.surfPotAndField env z nLag) (s.floats.surfPotAndField env z.val nLag) := by
  unfold Stack.surfPotAndField
  refine (View.refl (env.lagRule (nLag.getD env.defaults.nLag))).bind fun rule _ => (reflCoefQs_ints s z h1).bind fun like _ =>
    View.bind (View.quad0 fun x y => ?_) fun phi _ => View.bind (View.quad0 fun x y => ?_) fun e _ => View.ok ?_
  · exact (reflCoefQs_div s z h2 x).bind fun b _ => View.ok rfl
  · exact (reflCoefQs_div s z h2 x).bind fun b _ => View.ok rfl
  · show (phi.val / ofR (lit 2 * z).val, e.val / ofR (lit 4 * RealOps.npow z 2).val) = _
    rw [h2, h4]

theorem imageDepthAndCharge_ints (s : Stack (IntN w) (IntC w)) (env : Env) (z : IntN w) (nLag : Option ℕ) (h1 : QtFits w s z)
    (h2 : (lit 2 * z).val = lit 2 * z.val) (h4 : (lit 4 * RealOps.npow z 2).val = lit 4 * RealOps.npow z.val 2) :
    View (Prod.map IntN.val IntC.val) (s.imageDepthAndCharge env z nLag) (s.floats.imageDepthAndCharge env z.val nLag) := by
  refine (surfPotAndField_ints s env z nLag h1 h2 h4).bind fun v _ => View.ok ?_
  show ((IntN.flt (CplxOps.cabs (v.1.val / v.2.val)) - z).val, CplxOps.cpow v.1.val 2 / v.2.val) = _
  rw [IntN.flt_sub]
  rfl

/-- The depth of the image is a floating point number. -/
theorem imageDepth_flt (s : Stack (IntN w) (IntC w)) (env : Env) (z : IntN w) (nLag : Option ℕ) (v : IntN w × IntC w)
    (h : s.imageDepthAndCharge env z nLag = .ok v) : ∃ x, v.1 = .flt x := by
  unfold Stack.imageDepthAndCharge at h
  cases h' : s.surfPotAndField env z nLag with
  | error e => rw [h'] at h; cases h
  | ok u =>
    rw [h'] at h
    obtain rfl := Except.ok.inj h
    exact ⟨_, IntN.flt_sub _ _⟩

/-! ## Lock-in detection -/

theorem demod_ints (env : Env) {f : IntN w → PyM (IntC w)} {g : FP ℝ → PyM (FP ℂ)} (x0 amp n : IntN w) (nT : Option ℕ)
    (hf : ∀ x : FP ℝ, View IntC.val (f (.flt x)) (g x))
    (h0 : View IntC.val (f (x0 + lit 0 * amp)) (g (x0.val + lit 0 * amp.val))) :
    View IntC.val (demod env f x0 amp n nT) (demod env g x0.val amp.val n.val nT) := by
  refine h0.bind fun p _ => View.bind (View.trapz0 fun θ => ?_) fun t _ => View.ok rfl
  have e : x0 + RealOps.cos (IntN.flt (.num θ)) * amp = .flt (x0.val + RealOps.cos (.num θ) * amp.val) := by
    show x0 + IntN.flt (RealOps.cos (.num θ)) * amp = _
    rw [IntN.flt_mul, IntN.add_flt]
  rw [e]
  exact (hf _).bind fun v _ => View.ok rfl

theorem zero_amp (x0 amp : IntN w) {b : ℕ} (hx : x0.AtMost b) (hb : b < 2 ^ (w - 1)) :
    (x0 + lit 0 * amp).val = x0.val + lit 0 * amp.val ∧ (x0 + lit 0 * amp).AtMost b := by
  rw [IntN.lit0]
  cases amp with
  | flt x => rw [IntN.mul_flt, IntN.add_flt]; exact ⟨by simp [IntN.val]; rfl, IntN.atMost_flt _ _⟩
  | int k =>
    have e : (IntN.int 0 * IntN.int k : IntN w) = .int 0 := by
      show IntN.wrap w (0 * k) = _
      rw [zero_mul]
      exact IntN.wrap_eq (by simp)
    rw [e]
    obtain ⟨h1, h2⟩ := IntN.add_spec hx (b := 0) (y := .int 0) (IntN.atMost_int 0) (by simpa using hb)
    refine ⟨h1.trans ?_, h2⟩
    congr 1
    show FP.num ((0 : ℤ) : ℝ) = FP.num 0 * FP.num (k : ℝ)
    rw [FP.num_mul]
    simp

/-! ## Point dipoles -/

theorem pdmGeom_ints (z r : IntN w) (al : IntC w) (h : (RealOps.npow (r + z) 3).val = RealOps.npow (r.val + z.val) 3) :
    (Pdm.geomFunc z r al).val = Pdm.geomFunc z.val r.val al.val := by
  unfold Pdm.geomFunc
  show al.val / ofR (lit 16 * lit Real.pi * RealOps.npow (r + z) 3).val = _
  rw [IntN.lit_pi, IntN.mul_flt, IntN.flt_mul, h, IntN.lit_val]
  rfl

theorem pdmDefaults_ints (d : Defaults) (a : PdmArgs (IntN w) (IntC w)) {b : ℕ} (hr : ∀ r, a.rTip = some r → r.AtMost b)
    (hb : (max b 16) ^ 3 < 2 ^ (w - 1)) :
    View (Prod.map IntN.val IntC.val) (d.pdm a) (d.pdm a.floats) ∧ ∀ v, d.pdm a = .ok v → v.1.AtMost (max b 16) := by
  obtain ⟨r, e, al⟩ := a
  have h1 : (r.getD (lit d.rTip)).AtMost (max b 16) := by
    cases r with
    | none => exact (IntN.lit_atMost _).mono (le_max_right _ _)
    | some r => exact (hr r rfl).mono (le_max_left _ _)
  have h2 : (r.getD (lit d.rTip)).val = (r.map IntN.val).getD (lit d.rTip) := by
    cases r with
    | none => exact IntN.lit_val _
    | some r => rfl
  have h3 := (IntN.npow_spec h1 3 hb).1
  have h4 : (ofR (lit 4 * lit Real.pi * RealOps.npow (r.getD (lit d.rTip)) 3) : IntC w).val =
      ofR (lit 4 * lit Real.pi * RealOps.npow ((r.map IntN.val).getD (lit d.rTip)) 3) := by
    show ofR (lit 4 * lit Real.pi * RealOps.npow (r.getD (lit d.rTip)) 3).val = _
    rw [IntN.lit_pi, IntN.mul_flt, IntN.flt_mul, h3, h2, IntN.lit_val]
    rfl
  unfold Defaults.pdm PdmArgs.floats
  cases e <;> cases al
  · refine ⟨View.ok (Prod.ext h2 h4), fun v hv => ?_⟩
    obtain rfl := Except.ok.inj hv
    exact h1
  · refine ⟨View.ok (Prod.ext h2 rfl), fun v hv => ?_⟩
    obtain rfl := Except.ok.inj hv
    exact h1
  · refine ⟨View.ok (Prod.ext h2 ?_), fun v hv => ?_⟩
    · dsimp only [Prod.map_snd, Option.map_some]
      rw [← h4]
      rfl
    obtain rfl := Except.ok.inj hv
    exact h1
  · exact ⟨View.error _, fun v hv => nomatch hv⟩

theorem getD_ints (z : Option (IntN w)) (x : ℝ) : (z.getD (lit x)).val = (z.map IntN.val).getD (lit x) := by
  cases z with
  | none => exact IntN.lit_val _
  | some r => rfl

theorem getD_atMost {z : Option (IntN w)} (x : ℝ) {b : ℕ} (h : ∀ y, z = some y → y.AtMost b) (hb : 16 ≤ b) : (z.getD (lit x)).AtMost b := by
  cases z with
  | none => exact (IntN.lit_atMost _).mono hb
  | some r => exact h r rfl

theorem pdmEffPol_ints (env : Env) (s : Stack (IntN w) (IntC w)) (z : Option (IntN w)) (a : PdmArgs (IntN w) (IntC w)) {b c : ℕ}
    (hr : ∀ r, a.rTip = some r → r.AtMost b) (hz : ∀ y, z = some y → y.AtMost c) (hb : 16 ≤ b) (hc : 16 ≤ c)
    (h : (b + c) ^ 3 < 2 ^ (w - 1)) :
    View IntC.val (Pdm.effPol env s z a) (Pdm.effPol env s.floats (z.map IntN.val) a.floats) := by
  have e : max b 16 = b := max_eq_left hb
  have hb3 : b ^ 3 < 2 ^ (w - 1) := lt_of_le_of_lt (Nat.pow_le_pow_left (Nat.le_add_right b c) 3) h
  have hbc : b + c < 2 ^ (w - 1) := lt_of_le_of_lt (Nat.le_self_pow (by norm_num) _) h
  obtain ⟨h1, h2⟩ := pdmDefaults_ints env.defaults a hr (by rwa [e])
  rw [e] at h2
  unfold Pdm.effPol
  refine h1.bind fun v hv => (reflCoefQs0_ints s).bind fun β _ => View.ok ?_
  obtain ⟨g1, g2⟩ := IntN.add_spec (h2 v hv) (getD_atMost env.defaults.zTip hz hc) hbc
  have g3 := pdmGeom_ints (z.getD (lit env.defaults.zTip)) v.1 v.2 (by rw [(IntN.npow_spec g2 3 h).1, g1])
  show v.2.val / (clit 1 - (Pdm.geomFunc (z.getD (lit env.defaults.zTip)) v.1 v.2).val * β.val) = _
  rw [g3, getD_ints]

/-! ## Finite dipoles -/

/-- The operands of the finite dipole model are at most `b` and `D` in absolute value. -/
structure FdmTip.AtMost (b D : ℕ) (p : FdmTip (IntN w) (IntC w)) : Prop where
  rTip : p.rTip.AtMost b
  lTip : p.lTip.AtMost b
  dQ0 : p.dQ0.AtMost D
  dQ1 : p.dQ1.AtMost D
  dQa : p.dQa.AtMost D

/-- The numbers of a tip. -/
def FdmTip.val (p : FdmTip (IntN w) (IntC w)) : FdmTip (FP ℝ) (FP ℂ) :=
  ⟨p.rTip.val, p.lTip.val, p.gFactor.val, p.dQ0.val, p.dQ1.val, p.dQa.val⟩

theorem fdmDefaults_ints (d : Defaults) (a : FdmArgs (IntN w) (IntC w)) {b D : ℕ} (h : a.AtMost b D) (hb : 16 ≤ b)
    (hD : 16 ≤ D) (hw : 3 * b < 2 ^ (w - 1)) : (d.fdm a).val = d.fdm a.floats ∧ (d.fdm a).AtMost b D := by
  obtain ⟨r, l, g, d0, d1, dA⟩ := a
  have hr : (r.getD (lit d.rTip)).AtMost b := getD_atMost _ (fun y hy => h.1 y (.inl hy)) hb
  have hl : (l.getD (lit d.lTip)).AtMost b := getD_atMost _ (fun y hy => h.1 y (.inr hy)) hb
  have lf : (lit 1.31 : IntN w) = .flt (.num 1.31) := by
    show (if (1.31 : ℝ) ∈ ({0, 1, 2, 4, 16} : Set ℝ) then IntN.int ⌊(1.31 : ℝ)⌋ else IntN.flt (.num 1.31)) = _
    rw [if_neg]
    simp only [Set.mem_insert_iff, Set.mem_singleton_iff, not_or]
    norm_num
  have h2r := IntN.mul_spec IntN.lit2 hr (lt_of_le_of_lt (Nat.mul_le_mul_right b (by norm_num)) hw)
  have hs := IntN.add_spec hl h2r.2 (by omega)
  have d0' : ((d0.getD (lit 1.31 * l.getD (lit d.lTip) / (l.getD (lit d.lTip) + lit 2 * r.getD (lit d.rTip)))).val =
      (d0.map IntN.val).getD (lit 1.31 * (l.map IntN.val).getD (lit d.lTip) /
        ((l.map IntN.val).getD (lit d.lTip) + lit 2 * (r.map IntN.val).getD (lit d.rTip)))) ∧
      (d0.getD (lit 1.31 * l.getD (lit d.lTip) / (l.getD (lit d.lTip) + lit 2 * r.getD (lit d.rTip)))).AtMost D := by
    cases d0 with
    | some x => exact ⟨rfl, h.2 x (.inl rfl)⟩
    | none =>
      refine ⟨?_, IntN.atMost_flt _ _⟩
      show (lit 1.31 * l.getD (lit d.lTip)).val / (l.getD (lit d.lTip) + lit 2 * r.getD (lit d.rTip)).val = _
      rw [lf, IntN.flt_mul, hs.1, h2r.1, IntN.lit_val, getD_ints, getD_ints]
      rfl
  constructor
  · unfold FdmTip.val Defaults.fdm FdmArgs.floats
    simp only [getD_ints]
    refine congrArg₂ (fun x y => FdmTip.mk _ _ x y _ _) ?_ d0'.1
    cases g <;> rfl
  · exact ⟨hr, hl, d0'.2, getD_atMost _ (fun y hy => h.2 y (.inr (.inl hy))) hD,
      getD_atMost _ (fun y hy => h.2 y (.inr (.inr hy))) hD⟩

theorem fdmGeom_ints {z d r l : IntN w} (g : IntC w) {b D c : ℕ} (hz : z.AtMost c) (hd : d.AtMost D) (hr : r.AtMost b) (hl : l.AtMost b)
    (hw : 5 * b + 4 * c + 2 * D * (b + 1) < 2 ^ (w - 1)) :
    (Fdm.geomFunc z d r l g).val = Fdm.geomFunc z.val d.val r.val l.val g.val := by
  have z2 := IntN.mul_spec IntN.lit2 hz (by nlinarith)
  have z4 := IntN.mul_spec IntN.lit4 hz (by nlinarith)
  have l2 := IntN.mul_spec IntN.lit2 hl (by nlinarith)
  have l4 := IntN.mul_spec IntN.lit4 hl (by nlinarith)
  have dr := IntN.mul_spec hd hr (by nlinarith)
  have d2 := IntN.mul_spec IntN.lit2 hd (by nlinarith)
  have d2r := IntN.mul_spec d2.2 hr (by nlinarith)
  have s1 := IntN.add_spec hr z2.2 (by nlinarith)
  have s2 := IntN.add_spec s1.2 dr.2 (by nlinarith)
  have s3 := IntN.add_spec hr z4.2 (by nlinarith)
  have s4 := IntN.add_spec s3.2 d2r.2 (by nlinarith)
  unfold Fdm.geomFunc
  show (g.val - ofR ((r + lit 2 * z + d * r).val / (lit 2 * l).val)) *
    ofR (RealOps.log ((lit 4 * l).val / (r + lit 4 * z + lit 2 * d * r).val)) / ofR (RealOps.log ((lit 4 * l).val / r.val)) = _
  rw [s2.1, s1.1, z2.1, dr.1, l2.1, l4.1, s4.1, s3.1, z4.1, d2r.1, d2.1, IntN.lit_val, IntN.lit_val]

theorem fdmGeomMulti_ints {z r l : IntN w} (d : FP ℝ) (g : IntC w) {b D c : ℕ} (hz : z.AtMost c) (hr : r.AtMost b) (hl : l.AtMost b)
    (hw : 5 * b + 4 * c + 2 * D * (b + 1) < 2 ^ (w - 1)) :
    (Fdm.geomFuncMulti z (.flt d) r l g).val = Fdm.geomFuncMulti z.val d r.val l.val g.val := by
  have z2 := IntN.mul_spec IntN.lit2 hz (by nlinarith)
  have l2 := IntN.mul_spec IntN.lit2 hl (by nlinarith)
  have l4 := IntN.mul_spec IntN.lit4 hl (by nlinarith)
  have s0 := IntN.add_spec hr hz (by nlinarith)
  have s1 := IntN.add_spec hr z2.2 (by nlinarith)
  unfold Fdm.geomFuncMulti
  show (g.val - ofR ((r + z + .flt d).val / (lit 2 * l).val)) *
    ofR (RealOps.log ((lit 4 * l).val / (r + lit 2 * z + lit 2 * .flt d).val)) / ofR (RealOps.log ((lit 4 * l).val / r.val)) = _
  rw [IntN.add_flt, IntN.mul_flt, IntN.add_flt, l2.1, l4.1, s1.1, z2.1, IntN.lit_val, IntN.lit_val]
  show (g.val - ofR (((r + z).val + d) / _)) * ofR (RealOps.log (_ / (r.val + lit 2 * z.val + lit 2 * d))) / _ = _
  rw [s0.1]

theorem charge_ints {s : Stack (IntN w) (IntC w)} {z r d : IntN w} {b D c T : ℕ} (hz : z.AtMost c) (hr : r.AtMost b) (hd : d.AtMost D)
    (ht : ∀ t ∈ s.t, t.AtMost T) (hf : FdmFits w b D c T) :
    (z + r * d).val = z.val + r.val * d.val ∧ QtFits w s (z + r * d) ∧ (lit 2 * (z + r * d)).val = lit 2 * (z + r * d).val ∧
      (lit 4 * RealOps.npow (z + r * d) 2).val = lit 4 * RealOps.npow (z + r * d).val 2 := by
  have hs : c + b * D ≤ (c + b * D) ^ 2 := Nat.le_self_pow (by norm_num) _
  have h4 := hf.field
  have h1 := IntN.mul_spec hr hd (by nlinarith [hf.height])
  have h2 := IntN.add_spec hz h1.2 (by omega)
  have h3 := IntN.npow_spec h2.2 2 (by omega)
  refine ⟨by rw [h2.1, h1.1], QtFits.of_bound h2.2 ht hf.depth, ?_, ?_⟩
  · rw [(IntN.mul_spec IntN.lit2 h2.2 (by omega)).1, IntN.lit_val]
  · rw [(IntN.mul_spec IntN.lit4 h3.2 (by omega)).1, IntN.lit_val, h3.1]

theorem fdmEffPol_ints (env : Env) (s : Stack (IntN w) (IntC w)) (z : Option (IntN w)) (a : FdmArgs (IntN w) (IntC w)) (nLag : Option ℕ)
    (m : Option String) {b D c T : ℕ} (ha : a.AtMost b D) (hz : ∀ y, z = some y → y.AtMost c) (ht : ∀ t ∈ s.t, t.AtMost T)
    (hf : FdmFits w b D c T) :
    View IntC.val (Fdm.effPol env s z a nLag m) (Fdm.effPol env s.floats (z.map IntN.val) a.floats nLag m) := by
  obtain ⟨p1, p2⟩ := fdmDefaults_ints env.defaults a ha hf.tip hf.ratio (by have := hf.geom; nlinarith)
  have hz' := getD_atMost env.defaults.zTip hz hf.height
  unfold Fdm.effPol
  dsimp only
  rw [floats_multilayer, ← getD_ints, ← p1]
  generalize m.getD (if s.multilayer = true then "multi" else "bulk") = meth
  generalize z.getD (lit env.defaults.zTip) = x at hz'
  generalize env.defaults.fdm a = p at p2
  obtain ⟨r, l, g, d0, d1, dA⟩ := p
  obtain ⟨hr, hl, h0, h1, hA⟩ := p2
  dsimp only [FdmTip.val] at *
  have g0 := fdmGeom_ints g hz' h0 hr hl hf.geom
  have g1 := fdmGeom_ints g hz' h1 hr hl hf.geom
  obtain ⟨a1, a2, a3, a4⟩ := charge_ints hz' hr h0 ht hf
  obtain ⟨b1, b2, b3, b4⟩ := charge_ints hz' hr h1 ht hf
  obtain ⟨c1, c2, c3, c4⟩ := charge_ints hz' hr hA ht hf
  split_ifs
  · exact View.error _
  · refine (reflCoefQs0_ints s).bind fun β _ => View.ok ?_
    rw [← g0, ← g1]
    rfl
  · rw [← a1, ← b1]
    refine (imageDepthAndCharge_ints s env _ nLag a2 a3 a4).bind fun u hu => (imageDepthAndCharge_ints s env _ nLag b2 b3 b4).bind fun v hv => ?_
    obtain ⟨i, hi⟩ := imageDepth_flt s env _ nLag u hu
    obtain ⟨j, hj⟩ := imageDepth_flt s env _ nLag v hv
    refine View.ok ?_
    have m0 := fdmGeomMulti_ints i g hz' hr hl hf.geom
    have m1 := fdmGeomMulti_ints j g hz' hr hl hf.geom
    obtain ⟨u1, u2⟩ := u
    obtain ⟨v1, v2⟩ := v
    dsimp only at hi hj
    subst hi hj
    show Fdm.effPolFormula u2.val (Fdm.geomFuncMulti x (.flt i) r l g).val v2.val (Fdm.geomFuncMulti x (.flt j) r l g).val = _
    rw [m0, m1]
    rfl
  · rw [← c1]
    refine (reflCoefQsAboveSurf_ints s env _ nLag c2 c3).bind fun β _ => View.ok ?_
    rw [← g0, ← g1]
    rfl
  · exact View.error _

theorem fdmEffPolN_ints (env : Env) (s : Stack (IntN w) (IntC w)) (aTip n : IntN w) (z : Option (IntN w)) (nT : Option ℕ)
    (a : FdmArgs (IntN w) (IntC w)) (nLag : Option ℕ) (m : Option String) {b D c A T : ℕ} (ha : a.AtMost b D)
    (hz : ∀ y, z = some y → y.AtMost c) (hA : aTip.AtMost A) (ht : ∀ t ∈ s.t, t.AtMost T) (hc : 16 ≤ c) (hf : FdmFits w b D (c + A) T) :
    View IntC.val (Fdm.effPolN env s aTip n z nT a nLag m)
      (Fdm.effPolN env s.floats aTip.val n.val (z.map IntN.val) nT a.floats nLag m) := by
  have hcA : c + A < 2 ^ (w - 1) := by have := hf.geom; nlinarith
  have h1 := IntN.add_spec (getD_atMost env.defaults.zTip hz hc) hA hcA
  have h2 := zero_amp _ aTip h1.2 hcA
  unfold Fdm.effPolN
  dsimp only
  rw [← getD_ints, ← h1.1]
  refine demod_ints (f := fun x => Fdm.effPol env s (some x) a nLag m)
    (g := fun x => Fdm.effPol env s.floats (some x) a.floats nLag m) env _ aTip n nT (fun x => ?_) ?_
  · exact fdmEffPol_ints env s (some (.flt x)) a nLag m ha (fun y hy => by cases hy; exact IntN.atMost_flt _ _) ht hf
  · rw [← h2.1]
    exact fdmEffPol_ints env s (some _) a nLag m ha (fun y hy => by cases hy; exact h2.2) ht hf

theorem pdmEffPolN_ints (env : Env) (s : Stack (IntN w) (IntC w)) (aTip n : IntN w) (z : Option (IntN w)) (nT : Option ℕ)
    (a : PdmArgs (IntN w) (IntC w)) {b c A : ℕ} (hr : ∀ r, a.rTip = some r → r.AtMost b)
    (hz : ∀ y, z = some y → y.AtMost c) (hA : aTip.AtMost A) (hb : 16 ≤ b) (hc : 16 ≤ c) (h : (b + (c + A)) ^ 3 < 2 ^ (w - 1)) :
    View IntC.val (Pdm.effPolN env s aTip n z nT a) (Pdm.effPolN env s.floats aTip.val n.val (z.map IntN.val) nT a.floats) := by
  have hcA : c + A < 2 ^ (w - 1) :=
    lt_of_le_of_lt ((Nat.le_add_left _ b).trans (Nat.le_self_pow (by norm_num) _)) h
  have h1 := IntN.add_spec (getD_atMost env.defaults.zTip hz hc) hA hcA
  have h2 := zero_amp _ aTip h1.2 hcA
  unfold Pdm.effPolN
  dsimp only
  rw [← getD_ints, ← h1.1]
  refine demod_ints (f := fun x => Pdm.effPol env s (some x) a)
    (g := fun x => Pdm.effPol env s.floats (some x) a.floats) env _ aTip n nT (fun x => ?_) ?_
  · exact pdmEffPol_ints env s (some (.flt x)) a hr (fun y hy => by cases hy; exact IntN.atMost_flt _ _) hb (by omega) h
  · rw [← h2.1]
    exact pdmEffPol_ints env s (some _) a hr (fun y hy => by cases hy; exact h2.2) hb (by omega) h

/-! ## Taylor series -/

theorem fdmTaylorCoef_ints (env : Env) {z aTip r l d0 d1 : IntN w} (n : IntN w) (j : ℤ) (g : IntC w) (nT : Option ℕ) {b D c A : ℕ}
    (hz : z.AtMost c) (hA : aTip.AtMost A) (hr : r.AtMost b) (hl : l.AtMost b) (h0 : d0.AtMost D) (h1 : d1.AtMost D)
    (hw : 5 * b + 4 * (c + A) + 2 * D * (b + 1) < 2 ^ (w - 1)) :
    View IntC.val (Fdm.taylorCoef env z j aTip n r l g d0 d1 nT)
      (Fdm.taylorCoef env z.val j aTip.val n.val r.val l.val g.val d0.val d1.val nT) := by
  have hcA : c + A < 2 ^ (w - 1) := by nlinarith
  have e1 := IntN.add_spec hz hA hcA
  have e2 := zero_amp _ aTip e1.2 hcA
  have key : ∀ x : IntN w, x.AtMost (c + A) →
      View IntC.val (pure (Fdm.geomFuncTaylor x j r l g d0 d1)) (pure (Fdm.geomFuncTaylor x.val j r.val l.val g.val d0.val d1.val)) := by
    intro x hx
    refine View.ok ?_
    unfold Fdm.geomFuncTaylor
    dsimp only
    rw [← fdmGeom_ints g hx h0 hr hl hw, ← fdmGeom_ints g hx h1 hr hl hw]
    rfl
  unfold Fdm.taylorCoef
  dsimp only
  rw [← e1.1]
  refine (demod_ints (f := fun x => pure (Fdm.geomFuncTaylor x j r l g d0 d1))
    (g := fun x => pure (Fdm.geomFuncTaylor x j r.val l.val g.val d0.val d1.val)) env _ aTip n nT (fun x => ?_) ?_).bind
    fun d _ => View.ok rfl
  · exact key (.flt x) (IntN.atMost_flt _ _)
  · rw [← e2.1]
    exact key _ e2.2

theorem fdmTaylorBeta_ints (env : Env) (s : Stack (IntN w) (IntC w)) {z : IntN w} {p : FdmTip (IntN w) (IntC w)} (nLag : Option ℕ)
    (m : Option String) {b D c T : ℕ} (hz : z.AtMost c) (hp : p.AtMost b D) (ht : ∀ t ∈ s.t, t.AtMost T) (hf : FdmFits w b D c T) :
    View IntC.val (Fdm.taylorBeta env s z p nLag m) (Fdm.taylorBeta env s.floats z.val p.val nLag m) := by
  obtain ⟨c1, c2, c3, c4⟩ := charge_ints hz hp.rTip hp.dQa ht hf
  unfold Fdm.taylorBeta
  dsimp only
  rw [floats_multilayer]
  generalize m.getD (if s.multilayer = true then "Q_ave" else "bulk") = meth
  split_ifs
  · exact View.error _
  · exact reflCoefQs0_ints s
  · show View IntC.val _ (s.floats.reflCoefQsAboveSurf env (z.val + p.rTip.val * p.dQa.val) nLag)
    rw [← c1]
    exact reflCoefQsAboveSurf_ints s env _ nLag c2 c3
  · exact View.error _

theorem fdmEffPolNTaylor_ints (env : Env) (s : Stack (IntN w) (IntC w)) (aTip n : IntN w) (z : Option (IntN w))
    (a : FdmArgs (IntN w) (IntC w)) (nLag : Option ℕ) (m : Option String) (nT nTayl : Option ℕ) {b D c A T : ℕ} (ha : a.AtMost b D)
    (hz : ∀ y, z = some y → y.AtMost c) (hA : aTip.AtMost A) (ht : ∀ t ∈ s.t, t.AtMost T) (hc : 16 ≤ c) (hf : FdmFits w b D (c + A) T) :
    View IntC.val (Fdm.effPolNTaylor env s aTip n z a nLag m nT nTayl)
      (Fdm.effPolNTaylor env s.floats aTip.val n.val (z.map IntN.val) a.floats nLag m nT nTayl) := by
  obtain ⟨p1, p2⟩ := fdmDefaults_ints env.defaults a ha hf.tip hf.ratio (by have := hf.geom; nlinarith)
  have hz' := getD_atMost env.defaults.zTip hz hc
  unfold Fdm.effPolNTaylor
  dsimp only
  rw [← getD_ints, ← p1]
  refine (fdmTaylorBeta_ints env s nLag m (hz'.mono (Nat.le_add_right c A)) p2 ht hf).bind fun β _ => View.series0 fun j => ?_
  exact (fdmTaylorCoef_ints env n j _ nT hz' hA p2.rTip p2.lTip p2.dQ0 p2.dQ1 hf.geom).bind fun d _ => View.ok rfl

theorem pdmTaylorCoef_ints (env : Env) {z aTip r : IntN w} (n : IntN w) (j : ℤ) (al : IntC w) (nT : Option ℕ) {b c A : ℕ}
    (hz : z.AtMost c) (hA : aTip.AtMost A) (hr : r.AtMost b) (h : (b + (c + A)) ^ 3 < 2 ^ (w - 1)) :
    View IntC.val (Pdm.taylorCoef env z j aTip n r al nT) (Pdm.taylorCoef env z.val j aTip.val n.val r.val al.val nT) := by
  have hbc : b + (c + A) < 2 ^ (w - 1) := lt_of_le_of_lt (Nat.le_self_pow (by norm_num) _) h
  have e1 := IntN.add_spec hz hA (by omega)
  have e2 := zero_amp _ aTip e1.2 (by omega)
  have key : ∀ x : IntN w, x.AtMost (c + A) →
      View IntC.val (pure (CplxOps.jpow (Pdm.geomFunc x r al) j)) (pure (CplxOps.jpow (Pdm.geomFunc x.val r.val al.val) j)) := by
    intro x hx
    refine View.ok ?_
    obtain ⟨g1, g2⟩ := IntN.add_spec hr hx hbc
    rw [← pdmGeom_ints x r al (by rw [(IntN.npow_spec g2 3 h).1, g1])]
    rfl
  unfold Pdm.taylorCoef
  dsimp only
  rw [← e1.1]
  refine demod_ints (f := fun x => pure (CplxOps.jpow (Pdm.geomFunc x r al) j))
    (g := fun x => pure (CplxOps.jpow (Pdm.geomFunc x r.val al.val) j)) env _ aTip n nT (fun x => ?_) ?_
  · exact key (.flt x) (IntN.atMost_flt _ _)
  · rw [← e2.1]
    exact key _ e2.2

theorem pdmEffPolNTaylor_ints (env : Env) (s : Stack (IntN w) (IntC w)) (aTip n : IntN w) (z : Option (IntN w))
    (a : PdmArgs (IntN w) (IntC w)) (nT nTayl : Option ℕ) {b c A : ℕ} (hr : ∀ r, a.rTip = some r → r.AtMost b)
    (hz : ∀ y, z = some y → y.AtMost c) (hA : aTip.AtMost A) (hb : 16 ≤ b) (hc : 16 ≤ c) (h : (b + (c + A)) ^ 3 < 2 ^ (w - 1)) :
    View IntC.val (Pdm.effPolNTaylor env s aTip n z a nT nTayl)
      (Pdm.effPolNTaylor env s.floats aTip.val n.val (z.map IntN.val) a.floats nT nTayl) := by
  have e : max b 16 = b := max_eq_left hb
  have hb3 : b ^ 3 < 2 ^ (w - 1) := lt_of_le_of_lt (Nat.pow_le_pow_left (Nat.le_add_right b _) 3) h
  obtain ⟨h1, h2⟩ := pdmDefaults_ints env.defaults a hr (by rwa [e])
  rw [e] at h2
  unfold Pdm.effPolNTaylor
  dsimp only
  rw [← getD_ints]
  refine h1.bind fun v hv => (reflCoefQs0_ints s).bind fun β _ => View.series0 fun j => ?_
  exact (pdmTaylorCoef_ints env n j _ nT (getD_atMost env.defaults.zTip hz hc) hA (h2 v hv) h).bind fun d _ => View.ok rfl

/-! ## Inverses -/

theorem fdmInverse_ints (env : Env) (y : IntC w) (z : Option (IntN w)) (a : FdmArgs (IntN w) (IntC w)) {b D c T : ℕ} (ha : a.AtMost b D)
    (hz : ∀ y, z = some y → y.AtMost c) (hf : FdmFits w b D c T) :
    (Fdm.reflCoefQsFromEffPol env y z a).val = Fdm.reflCoefQsFromEffPol env y.val (z.map IntN.val) a.floats := by
  obtain ⟨p1, p2⟩ := fdmDefaults_ints env.defaults a ha hf.tip hf.ratio (by have := hf.geom; nlinarith)
  have hz' := getD_atMost env.defaults.zTip hz hf.height
  unfold Fdm.reflCoefQsFromEffPol
  dsimp only
  rw [← getD_ints, ← p1]
  dsimp only [FdmTip.val]
  rw [← fdmGeom_ints _ hz' p2.dQ0 p2.rTip p2.lTip hf.geom, ← fdmGeom_ints _ hz' p2.dQ1 p2.rTip p2.lTip hf.geom]
  rfl

theorem pdmInverse_ints (env : Env) (y : IntC w) (z : Option (IntN w)) (a : PdmArgs (IntN w) (IntC w)) {b c : ℕ}
    (hr : ∀ r, a.rTip = some r → r.AtMost b) (hz : ∀ y, z = some y → y.AtMost c) (hb : 16 ≤ b) (hc : 16 ≤ c)
    (h : (b + c) ^ 3 < 2 ^ (w - 1)) :
    View IntC.val (Pdm.reflCoefQsFromEffPol env y z a) (Pdm.reflCoefQsFromEffPol env y.val (z.map IntN.val) a.floats) := by
  have e : max b 16 = b := max_eq_left hb
  have hb3 : b ^ 3 < 2 ^ (w - 1) := lt_of_le_of_lt (Nat.pow_le_pow_left (Nat.le_add_right b c) 3) h
  have hbc : b + c < 2 ^ (w - 1) := lt_of_le_of_lt (Nat.le_self_pow (by norm_num) _) h
  obtain ⟨h1, h2⟩ := pdmDefaults_ints env.defaults a hr (by rwa [e])
  rw [e] at h2
  unfold Pdm.reflCoefQsFromEffPol
  dsimp only
  rw [← getD_ints]
  refine h1.bind fun v hv => View.ok ?_
  obtain ⟨g1, g2⟩ := IntN.add_spec (h2 v hv) (getD_atMost env.defaults.zTip hz hc) hbc
  have g3 := pdmGeom_ints (z.getD (lit env.defaults.zTip)) v.1 v.2 (by rw [(IntN.npow_spec g2 3 h).1, g1])
  show (y.val - v.2.val) / ((Pdm.geomFunc (z.getD (lit env.defaults.zTip)) v.1 v.2).val * y.val) = _
  rw [g3]
  rfl

/-! ## Light and permittivities -/

theorem zip_map_val (l : List (IntC w)) (f : IntC w → IntC w) (g : FP ℂ → FP ℂ) (h : ∀ x ∈ l, (f x).val = g x.val) :
    (l.map IntC.val).map g = (l.map f).map IntC.val := by
  rw [List.map_map, List.map_map]
  exact List.map_congr_left fun x hx => (h x hx).symm

theorem farTransFactor_ints (l m : List (IntC w)) (p : String) :
    View (List.map IntC.val) (Stack.farTransFactor (l.zip m) p) (Stack.farTransFactor ((l.map IntC.val).zip (m.map IntC.val)) p) := by
  have e : (l.map IntC.val).zip (m.map IntC.val) = (l.zip m).map (Prod.map IntC.val IntC.val) := List.zip_map
  rw [e]
  unfold Stack.farTransFactor
  rw [← List.map_dropLast, ← List.map_tail, List.zipWith_map, List.zipWith_map]
  split_ifs
  · exact View.ok (by rw [List.map_zipWith]; rfl)
  · exact View.ok (by rw [List.map_zipWith]; rfl)
  · exact View.error _

theorem farMatrix_ints (s : Stack (IntN w) (IntC w)) (l m : List (IntC w)) :
    View Mat2.val (s.farMatrix l m) (s.floats.farMatrix (l.map IntC.val) (m.map IntC.val)) := by
  unfold Stack.farMatrix
  have e1 : (l.map IntC.val).map Stack.interface = (l.map Stack.interface).map Mat2.val := by
    rw [List.map_map, List.map_map]
    rfl
  rw [e1, floats_multilayer]
  generalize l.map Stack.interface = k
  cases k with
  | nil => exact View.error _
  | cons T0 Ts =>
    simp only [List.map_cons]
    split_ifs
    · refine View.ok ?_
      rw [chain_val, zip_val]
      congr 2
      rw [show s.floats.t = s.t.map IntN.val from rfl, ← List.map_dropLast, ← List.map_tail, List.zipWith_map, List.map_map,
        List.map_zipWith, List.map_zipWith]
      rfl
    · exact View.ok rfl

theorem transferMatrix_ints (s : Stack (IntN w) (IntC w)) (a : Stack.FarArgs (IntN w)) {b : ℕ} (h : a.AtMost b s) (h1 : 1 ≤ b)
    (hb : b ^ 2 < 2 ^ (w - 1)) : View Mat2.val (s.transferMatrix a) (s.floats.transferMatrix a.floats) := by
  have hb1 : b < 2 ^ (w - 1) := lt_of_le_of_lt (Nat.le_self_pow (by norm_num) _) hb
  have n1 : View IntN.val (s.resolveNu a.nuVac) (s.floats.resolveNu a.floats.nuVac) := by
    unfold Stack.resolveNu
    rw [floats_multilayer]
    rw [show s.floats.nuVac = s.nuVac.map IntN.val from rfl, show a.floats.nuVac = a.nuVac.map IntN.val from rfl]
    cases a.nuVac with
    | some x => rfl
    | none =>
      cases s.nuVac with
      | some x => rfl
      | none =>
        simp only [Option.map_none]
        split_ifs
        · rfl
        · exact View.ok (IntN.lit_val _)
  have n2 : ∀ nu, s.resolveNu a.nuVac = .ok nu → nu.AtMost b := by
    intro nu hnu
    unfold Stack.resolveNu at hnu
    split at hnu
    · obtain rfl := Except.ok.inj hnu
      exact h _ (.inr (.inl ‹_›))
    · split at hnu
      · obtain rfl := Except.ok.inj hnu
        exact h _ (.inl ‹_›)
      · split_ifs at hnu
        obtain rfl := Except.ok.inj hnu
        exact IntN.lit1.mono h1
  have q1 : ∀ nu : IntN w, View IntN.val (Stack.resolveQ nu a.q a.thetaIn) (Stack.resolveQ nu.val a.floats.q a.floats.thetaIn) := by
    intro nu
    rw [show a.floats.q = a.q.map IntN.val from rfl, show a.floats.thetaIn = a.thetaIn.map IntN.val from rfl]
    unfold Stack.resolveQ
    cases hq : a.q <;> cases ht : a.thetaIn
    · exact View.ok (IntN.lit_val _)
    · refine View.ok ?_
      have e := IntN.abs_spec (h _ (.inr (.inr (.inr ht)))) hb1
      rw [show ∀ x : IntN w, RealOps.sin x = IntN.flt (RealOps.sin x.val) from fun _ => rfl, IntN.mul_flt, e]
      rfl
    · exact View.ok rfl
    · exact View.error _
  have q2 : ∀ nu q, Stack.resolveQ nu a.q a.thetaIn = .ok q → q.AtMost b := by
    intro nu q hq
    unfold Stack.resolveQ at hq
    split at hq
    · obtain rfl := Except.ok.inj hq
      rw [IntN.lit0]
      exact (IntN.atMost_int 0).mono (Nat.zero_le _)
    · obtain rfl := Except.ok.inj hq
      exact h _ (.inr (.inr (.inl ‹_›)))
    · obtain rfl := Except.ok.inj hq
      rw [show RealOps.sin (RealOps.abs _) = IntN.flt (w := w) _ from rfl, IntN.mul_flt]
      exact IntN.atMost_flt _ _
    · cases hq
  refine n1.bind fun nu hnu => (q1 nu).bind fun q hq => ?_
  have e : s.floats.nuZ nu.val q.val = (s.nuZ nu q).map IntC.val := by
    unfold Stack.nuZ
    refine zip_map_val s.eps _ _ fun x _ => ?_
    show CplxOps.sqrt (x.val * ofR (RealOps.npow nu 2).val - ofR (RealOps.npow q 2).val) = _
    rw [(IntN.npow_spec (n2 nu hnu) 2 hb).1, (IntN.npow_spec (q2 nu q hq) 2 hb).1]
  dsimp only
  rw [e]
  exact (farTransFactor_ints s.eps (s.nuZ nu q) a.polarization).bind fun v _ => farMatrix_ints s v _

theorem lorentzPerm_ints (nu nuJ gam : IntN w) (aJ nuP : Option (IntN w)) (fJ : IntN w) (eps : IntC w) {b f : ℕ} (h1 : nu.AtMost b)
    (h2 : nuJ.AtMost b) (h3 : ∀ x, nuP = some x → x.AtMost b) (h4 : fJ.AtMost f) (hf : 1 ≤ f) (hb : f * b ^ 2 < 2 ^ (w - 1)) :
    View IntC.val (lorentzPerm nu nuJ gam aJ nuP fJ eps)
      (lorentzPerm nu.val nuJ.val gam.val (aJ.map IntN.val) (nuP.map IntN.val) fJ.val eps.val) := by
  have hb2 : b ^ 2 < 2 ^ (w - 1) := lt_of_le_of_lt (Nat.le_mul_of_pos_left _ hf) hb
  unfold lorentzPerm
  have key : ∀ A : IntN w, (eps + ofR A / (ofR (RealOps.npow nuJ 2 - RealOps.npow nu 2) - clit Complex.I * ofR gam * ofR nu)).val =
      eps.val + ofR A.val / (ofR (RealOps.npow nuJ.val 2 - RealOps.npow nu.val 2) - clit Complex.I * ofR gam.val * ofR nu.val) := by
    intro A
    show eps.val + ofR A.val / (ofR (RealOps.npow nuJ 2 - RealOps.npow nu 2).val - clit Complex.I * ofR gam.val * ofR nu.val) = _
    rw [IntN.sub_sq_spec h2 h1 hb2]
  cases aJ <;> cases nuP
  · exact View.error _
  · refine View.ok ?_
    have e := IntN.npow_spec (h3 _ rfl) 2 hb2
    rw [key, (IntN.mul_spec h4 e.2 hb).1, e.1]
  · exact View.ok (key _)
  · exact View.error _

end Snompy
