import Verif.Lemmas.DenReduce
import Verif.Spec.ArrSample

/-!
# The optical methods of an array-valued sample, elementwise
-/

namespace Snompy

/-- All four entries of a matrix expression. -/
structure MatDen (M : Mat2 CArr) (s : Shape) (m : (ℕ → ℕ) → Mat2 (FP ℂ)) : Prop where
  h00 : Den M.m00 s fun i => (m i).m00
  h01 : Den M.m01 s fun i => (m i).m01
  h10 : Den M.m10 s fun i => (m i).m10
  h11 : Den M.m11 s fun i => (m i).m11

namespace MatDen

theorem matmul {A B : Mat2 CArr} {s t : Shape} {a b : (ℕ → ℕ) → Mat2 (FP ℂ)}
    (hA : MatDen A s a) (hB : MatDen B t b) :
    MatDen (A.matmul B) (s ⊔ᵇ t) fun i => (a i).matmul (b i) := by
  obtain ⟨a00, a01, a10, a11⟩ := hA
  obtain ⟨b00, b01, b10, b11⟩ := hB
  have hs : s ⊔ᵇ t ⊔ᵇ (s ⊔ᵇ t) = s ⊔ᵇ t := Shape.join_self _
  exact ⟨((a00.cmul b00).cadd (a01.cmul b10)).congr hs fun _ => rfl,
    ((a00.cmul b01).cadd (a01.cmul b11)).congr hs fun _ => rfl,
    ((a10.cmul b00).cadd (a11.cmul b10)).congr hs fun _ => rfl,
    ((a10.cmul b01).cadd (a11.cmul b11)).congr hs fun _ => rfl⟩

theorem interface {x : CArr} {s : Shape} {f : (ℕ → ℕ) → FP ℂ} (h : Den x s f) :
    MatDen (Stack.interface x) s fun i => Stack.interface (f i) := by
  constructor <;>
    refine Den.congr (Den.cdiv (Den.cadd (Den.clit _) (Den.cmul (Den.clit _) h)) (Den.clit _)) ?_
      (fun i => rfl) <;> simp

theorem propagation (a b : ℂ) {x : CArr} {s : Shape} {f : (ℕ → ℕ) → FP ℂ} (h : Den x s f) :
    MatDen (Stack.propagation a b x) s fun i => Stack.propagation a b (f i) := by
  constructor <;>
    refine Den.congr (Den.cmul (Den.exp (Den.cmul (Den.clit _) h)) (Den.clit _)) ?_
      (fun i => rfl) <;> simp

theorem congr {M : Mat2 CArr} {s s' : Shape} {m m' : (ℕ → ℕ) → Mat2 (FP ℂ)} (h : MatDen M s m)
    (hs : s = s') (hm : ∀ i, m i = m' i) : MatDen M s' m' := by
  subst hs
  have : m = m' := funext hm
  rwa [← this]

/-- The product over the layers. -/
theorem chain {τ : Type} (B : List τ) (T P : τ → Mat2 CArr) (Ts Ps : τ → (ℕ → ℕ) → Mat2 (FP ℂ))
    {u : Shape} (hT : ∀ b ∈ B, MatDen (T b) u (Ts b)) (hP : ∀ b ∈ B, MatDen (P b) u (Ps b))
    {M : Mat2 CArr} {m : (ℕ → ℕ) → Mat2 (FP ℂ)} (hM : MatDen M u m) :
    MatDen (Stack.chain M (B.map fun b => (T b, P b))) u
      fun i => Stack.chain (m i) (B.map fun b => (Ts b i, Ps b i)) := by
  induction B generalizing M m with
  | nil => exact hM
  | cons b B ih =>
    refine ih (fun c hc => hT c (by simp [hc])) (fun c hc => hP c (by simp [hc]))
      (M := (M.matmul (P b)).matmul (T b)) (m := fun i => ((m i).matmul (Ps b i)).matmul (Ts b i)) ?_
    exact ((hM.matmul (hP b (by simp))).matmul (hT b (by simp))).congr
      (by rw [Shape.join_self, Shape.join_self]) fun i => rfl

end MatDen

/-- The product over at least one layer, where interfaces and propagations have different shapes. -/
theorem MatDen.chain_pos {τ : Type} (B : List τ) (hB : B ≠ []) (T P : τ → Mat2 CArr)
    (Ts Ps : τ → (ℕ → ℕ) → Mat2 (FP ℂ)) {u v : Shape}
    (hT : ∀ b ∈ B, MatDen (T b) u (Ts b)) (hP : ∀ b ∈ B, MatDen (P b) v (Ps b))
    {M : Mat2 CArr} {m : (ℕ → ℕ) → Mat2 (FP ℂ)} (hM : MatDen M u m) :
    MatDen (Stack.chain M (B.map fun b => (T b, P b))) (u ⊔ᵇ v)
      fun i => Stack.chain (m i) (B.map fun b => (Ts b i, Ps b i)) := by
  have aux : ∀ (B : List τ), (∀ b ∈ B, MatDen (T b) u (Ts b)) → (∀ b ∈ B, MatDen (P b) v (Ps b)) →
      ∀ {M : Mat2 CArr} {m : (ℕ → ℕ) → Mat2 (FP ℂ)}, MatDen M (u ⊔ᵇ v) m →
      MatDen (Stack.chain M (B.map fun b => (T b, P b))) (u ⊔ᵇ v)
        fun i => Stack.chain (m i) (B.map fun b => (Ts b i, Ps b i)) := by
    intro B
    induction B with
    | nil => intro _ _ M m h; exact h
    | cons b B ih =>
      intro hT hP M m h
      refine ih (fun c hc => hT c (by simp [hc])) (fun c hc => hP c (by simp [hc]))
        (M := (M.matmul (P b)).matmul (T b))
        (m := fun i => ((m i).matmul (Ps b i)).matmul (Ts b i)) ?_
      exact ((h.matmul (hP b (by simp))).matmul (hT b (by simp))).congr (by ac_rfl) fun i => rfl
  cases B with
  | nil => exact absurd rfl hB
  | cons b B =>
    refine aux B (fun c hc => hT c (by simp [hc])) (fun c hc => hP c (by simp [hc]))
      (M := (M.matmul (P b)).matmul (T b))
      (m := fun i => ((m i).matmul (Ps b i)).matmul (Ts b i)) ?_
    exact ((hM.matmul (hP b (by simp))).matmul (hT b (by simp))).congr (by ac_rfl) fun i => rfl

theorem dropLast_zip_tail_map {α β : Type} (f : α → β) (l : List α) :
    (l.map f).dropLast.zip (l.map f).tail = (l.dropLast.zip l.tail).map fun p => (f p.1, f p.2) := by
  rw [← List.map_dropLast, ← List.map_tail, List.zip_map]
  rfl

theorem zipWith_eq_map_zip {α β γ : Type} (f : α → β → γ) (a : List α) (b : List β) :
    List.zipWith f a b = (a.zip b).map fun p => f p.1 p.2 := by
  rw [List.zip, List.map_zipWith]

/-- A computation of a matrix, elementwise. -/
def MatDenM (x : PyM (Mat2 CArr)) (s : Shape) (f : (ℕ → ℕ) → PyM (Mat2 (FP ℂ))) : Prop :=
  (∃ e, x = .error e ∧ ∀ i, f i = .error e) ∨
    ∃ M m, x = .ok M ∧ (∀ i, f i = .ok (m i)) ∧ MatDen M s m

namespace ArrSample

variable (S : ArrSample)

theorem eps_den {e : NDArray (FP ℂ)} (he : e ∈ S.eps) :
    Den (.ok e) (some S.epsShape) e.get :=
  ⟨e, rfl, S.eps_shape e he, fun _ => rfl⟩

theorem t_den {d : NDArray (FP ℝ)} (hd : d ∈ S.t) : Den (.ok d) (some S.tShape) d.get :=
  ⟨d, rfl, S.t_shape d hd, fun _ => rfl⟩

theorem multilayer_eq (nu : Option RArr) : (S.stack nu).multilayer = decide (S.t ≠ []) := by
  have h := S.layers
  simp only [Stack.multilayer, Stack.nLayers, stack, List.length_map, h]
  cases S.t <;> simp

theorem at_multilayer_eq (i : ℕ → ℕ) (nu : Option (FP ℝ)) :
    (S.at_ i nu).multilayer = decide (S.t ≠ []) := by
  have h := S.layers
  simp only [Stack.multilayer, Stack.nLayers, at_, List.length_map, h]
  cases S.t <;> simp

theorem shape_of_nil (h : S.t = []) : S.shape = some S.epsShape := by
  simp [shape, S.t_nil h]

theorem pairs_ne_nil : S.eps.dropLast.zip S.eps.tail ≠ [] := by
  have h := S.layers
  intro h0
  have := congrArg List.length h0
  simp [h] at this

theorem dep_at {sb : Shape} (h : S.shape ≤ᵇ sb) (nu : (ℕ → ℕ) → Option (FP ℝ)) (hnu : Dep sb nu) :
    Dep sb fun i => S.at_ i (nu i) := by
  rintro s0 rfl i j hij
  have he : some S.epsShape ≤ᵇ some s0 := Shape.le_trans (Shape.le_join_left _ _) h
  have ht : some S.tShape ≤ᵇ some s0 := Shape.le_trans (Shape.le_join_right _ _) h
  show S.at_ i (nu i) = S.at_ j (nu j)
  rw [hnu s0 rfl i j hij]
  simp only [at_, Stack.mk.injEq, and_true]
  constructor
  · apply List.map_congr_left
    intro e hm
    exact (S.eps_den hm).index_congr (canon_congr_of_le he hij)
  · apply List.map_congr_left
    intro e hm
    exact (S.t_den hm).index_congr (canon_congr_of_le ht hij)

/-- `transfer_matrix_qs`, elementwise. -/
theorem transferMatrixQs_den {q : RArr} {sq : Shape} {f : (ℕ → ℕ) → FP ℝ} (hq : Den q sq f)
    (nu : Option RArr) (nuS : (ℕ → ℕ) → Option (FP ℝ)) :
    MatDenM ((S.stack nu).transferMatrixQs q) (sq ⊔ᵇ S.shape)
      (fun i => (S.at_ i (nuS i)).transferMatrixQs (f i)) := by
  have hpairs := S.pairs_ne_nil
  have hlen : (S.eps.dropLast.zip S.eps.tail).length = S.t.length + 1 := by
    simp [S.layers]
  have hmem : ∀ p ∈ S.eps.dropLast.zip S.eps.tail, p.1 ∈ S.eps ∧ p.2 ∈ S.eps := by
    intro p hp
    have := List.of_mem_zip hp
    exact ⟨List.mem_of_mem_dropLast this.1, List.mem_of_mem_tail this.2⟩
  have hA : ∀ (i : ℕ → ℕ), List.zipWith (· / ·) (S.at_ i (nuS i)).eps.dropLast
      (S.at_ i (nuS i)).eps.tail =
      (S.eps.dropLast.zip S.eps.tail).map fun p => p.1.get i / p.2.get i := by
    intro i
    rw [zipWith_eq_map_zip]
    simp only [at_]
    rw [dropLast_zip_tail_map, List.map_map]
    rfl
  have hB : List.zipWith (· / ·) (S.stack nu).eps.dropLast (S.stack nu).eps.tail =
      (S.eps.dropLast.zip S.eps.tail).map fun p => (.ok p.1 : CArr) / .ok p.2 := by
    rw [zipWith_eq_map_zip]
    simp only [stack]
    rw [dropLast_zip_tail_map, List.map_map]
    rfl
  unfold Stack.transferMatrixQs
  simp only [hA, hB, multilayer_eq, at_multilayer_eq]
  cases hps : S.eps.dropLast.zip S.eps.tail with
  | nil => exact absurd hps hpairs
  | cons p0 ps =>
    rw [hps] at hmem hlen
    have hT : ∀ p ∈ p0 :: ps, MatDen (Stack.interface ((.ok p.1 : CArr) / .ok p.2))
        (some S.epsShape) fun i => Stack.interface (p.1.get i / p.2.get i) := by
      intro p hp
      obtain ⟨h1, h2⟩ := hmem p hp
      exact MatDen.interface (((S.eps_den h1).cdiv (S.eps_den h2)).congr (Shape.join_self _)
        fun i => rfl)
    have hT0 := hT p0 (by simp)
    simp only [List.map_cons]
    right
    by_cases ht : S.t = []
    · simp only [ht, ne_eq, not_true_eq_false, decide_false, Bool.false_eq_true, if_false]
      refine ⟨_, _, rfl, fun i => rfl, ?_⟩
      have hone := (hq.onesLike).ofR
      have hs : some S.epsShape ⊔ᵇ sq = sq ⊔ᵇ S.shape := by
        rw [S.shape_of_nil ht]; ac_rfl
      exact ⟨(hT0.h00.cmul hone).congr hs fun _ => rfl, (hT0.h01.cmul hone).congr hs fun _ => rfl,
        (hT0.h10.cmul hone).congr hs fun _ => rfl, (hT0.h11.cmul hone).congr hs fun _ => rfl⟩
    · simp only [ne_eq, ht, not_false_eq_true, decide_true, if_true]
      refine ⟨_, _, rfl, fun i => rfl, ?_⟩
      have hPs : ∀ d ∈ S.t, MatDen (Stack.propagation 1 (-1)
          (CplxOps.ofR (RealOps.clip (-maxExpArg) maxExpArg (q * (.ok d : RArr))) : CArr))
          (sq ⊔ᵇ some S.tShape) fun i => Stack.propagation 1 (-1)
            (CplxOps.ofR (RealOps.clip (-maxExpArg) maxExpArg (f i * d.get i))) := by
        intro d hd
        exact MatDen.propagation _ _ ((hq.rmul (S.t_den hd)).clip _ _).ofR
      have hzip : ((ps.map fun p => (.ok p.1 : CArr) / .ok p.2).map Stack.interface).zip
          (((S.stack nu).t.map fun t => RealOps.clip (-maxExpArg) maxExpArg (q * t)).map
            fun p => Stack.propagation 1 (-1) (CplxOps.ofR p : CArr)) =
          (ps.zip S.t).map fun b => (Stack.interface ((.ok b.1.1 : CArr) / .ok b.1.2),
            Stack.propagation 1 (-1)
              (CplxOps.ofR (RealOps.clip (-maxExpArg) maxExpArg (q * (.ok b.2 : RArr))) : CArr)) := by
        simp only [stack, List.map_map, List.zip_map]
        rfl
      have hzipS : ∀ i, ((ps.map fun p => p.1.get i / p.2.get i).map Stack.interface).zip
          (((S.at_ i (nuS i)).t.map fun t => RealOps.clip (-maxExpArg) maxExpArg (f i * t)).map
            fun p => Stack.propagation 1 (-1) (CplxOps.ofR p : FP ℂ)) =
          (ps.zip S.t).map fun b => (Stack.interface (b.1.1.get i / b.1.2.get i),
            Stack.propagation 1 (-1)
              (CplxOps.ofR (RealOps.clip (-maxExpArg) maxExpArg (f i * b.2.get i)))) := by
        intro i
        simp only [at_, List.map_map, List.zip_map]
        rfl
      rw [hzip]
      refine (MatDen.chain_pos (ps.zip S.t) ?_
        (fun b => Stack.interface ((.ok b.1.1 : CArr) / .ok b.1.2))
        (fun b => Stack.propagation 1 (-1)
          (CplxOps.ofR (RealOps.clip (-maxExpArg) maxExpArg (q * (.ok b.2 : RArr))) : CArr))
        (fun b i => Stack.interface (b.1.1.get i / b.1.2.get i))
        (fun b i => Stack.propagation 1 (-1)
          (CplxOps.ofR (RealOps.clip (-maxExpArg) maxExpArg (f i * b.2.get i))))
        (fun b hb => hT b.1 (List.mem_cons_of_mem _ (List.of_mem_zip hb).1))
        (fun b hb => hPs b.2 (List.of_mem_zip hb).2) hT0).congr ?_ ?_
      · intro h0
        have := congrArg List.length h0
        simp only [List.length_cons, Nat.add_right_cancel_iff] at hlen
        simp only [List.length_zip, hlen, min_self, List.length_nil, List.length_eq_zero_iff] at this
        exact ht this
      · unfold shape; ac_rfl
      · intro i
        rw [hzipS]

theorem le_refl_shape : S.shape ≤ᵇ S.shape := Shape.le_refl _

theorem at_dep {sb : Shape} (h : S.shape ≤ᵇ sb) : Dep sb fun i => S.at_ i none :=
  S.dep_at h (fun _ => none) (fun _ _ _ _ _ => rfl)

/-- `refl_coef_qs`, elementwise. -/
theorem reflCoefQs_den {q : RArr} {sq : Shape} {f : (ℕ → ℕ) → FP ℝ} (hq : Den q sq f)
    (nu : Option RArr) (nuS : (ℕ → ℕ) → Option (FP ℝ)) :
    DenM ((S.stack nu).reflCoefQs q) (sq ⊔ᵇ S.shape)
      (fun i => (S.at_ i (nuS i)).reflCoefQs (f i)) := by
  rcases S.transferMatrixQs_den hq nu nuS with ⟨e, hx, hf⟩ | ⟨M, m, hx, hf, hM⟩
  · simp only [Stack.reflCoefQs, hx, hf, PyM.error_bind]
    exact DenM.err e _
  · simp only [Stack.reflCoefQs, hx, hf, PyM.ok_bind, PyM.pure_eq_ok]
    exact DenM.ok ((hM.h10.cdiv hM.h00).congr (Shape.join_self _) fun i => rfl)

/-- `trans_coef_qs`, elementwise. -/
theorem transCoefQs_den {q : RArr} {sq : Shape} {f : (ℕ → ℕ) → FP ℝ} (hq : Den q sq f)
    (nu : Option RArr) (nuS : (ℕ → ℕ) → Option (FP ℝ)) :
    DenM ((S.stack nu).transCoefQs q) (sq ⊔ᵇ S.shape)
      (fun i => (S.at_ i (nuS i)).transCoefQs (f i)) := by
  rcases S.transferMatrixQs_den hq nu nuS with ⟨e, hx, hf⟩ | ⟨M, m, hx, hf, hM⟩
  · simp only [Stack.transCoefQs, hx, hf, PyM.error_bind]
    exact DenM.err e _
  · simp only [Stack.transCoefQs, hx, hf, PyM.ok_bind, PyM.pure_eq_ok]
    exact DenM.ok (((Den.clit 1).cdiv hM.h00).congr (by simp) fun i => rfl)

end ArrSample

end Snompy
