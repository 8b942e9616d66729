import Verif.Lemmas.DenQuad

/-!
# The far-field methods of an array-valued sample, elementwise
-/

namespace Snompy

namespace ArrSample

variable (S : ArrSample)

/-- Matrix product of the far-field methods, elementwise. -/
theorem farMatrix_den {u : Shape} (hu : some S.epsShape ≤ᵇ u) (nu : Option RArr)
    (nuS : (ℕ → ℕ) → Option (FP ℝ))
    (F : NDArray (FP ℂ) → CArr) (FS : NDArray (FP ℂ) → (ℕ → ℕ) → FP ℂ)
    (hF : ∀ e ∈ S.eps, Den (F e) u (FS e))
    (tf : NDArray (FP ℂ) × NDArray (FP ℂ) → CArr)
    (tfS : NDArray (FP ℂ) × NDArray (FP ℂ) → (ℕ → ℕ) → FP ℂ)
    (htf : ∀ p ∈ S.eps.dropLast.zip S.eps.tail, Den (tf p) u (tfS p)) :
    MatDenM ((S.stack nu).farMatrix ((S.eps.dropLast.zip S.eps.tail).map tf) (S.eps.map F))
      (u ⊔ᵇ S.shape)
      (fun i => (S.at_ i (nuS i)).farMatrix
        ((S.eps.dropLast.zip S.eps.tail).map fun p => tfS p i) (S.eps.map fun e => FS e i)) := by
  have hpairs := S.pairs_ne_nil
  have hlen : (S.eps.dropLast.zip S.eps.tail).length = S.t.length + 1 := by
    simp [S.layers]
  unfold Stack.farMatrix
  simp only [multilayer_eq, at_multilayer_eq]
  cases hps : S.eps.dropLast.zip S.eps.tail with
  | nil => exact absurd hps hpairs
  | cons p0 ps =>
    rw [hps] at htf hlen
    have hT : ∀ p ∈ p0 :: ps, MatDen (Stack.interface (tf p)) u
        fun i => Stack.interface (tfS p i) := fun p hp => MatDen.interface (htf p hp)
    have hT0 := hT p0 (by simp)
    simp only [List.map_cons]
    right
    by_cases ht : S.t = []
    · simp only [ht, ne_eq, not_true_eq_false, decide_false, Bool.false_eq_true, if_false]
      refine ⟨_, _, rfl, fun i => rfl, hT0.congr ?_ fun i => rfl⟩
      rw [S.shape_of_nil ht, Shape.join_comm]
      exact hu.symm
    · simp only [ne_eq, ht, not_false_eq_true, decide_true, if_true]
      refine ⟨_, _, rfl, fun i => rfl, ?_⟩
      have hmid : ∀ b ∈ S.eps.dropLast.tail.zip S.t, b.1 ∈ S.eps ∧ b.2 ∈ S.t := fun b hb =>
        ⟨List.mem_of_mem_dropLast (List.mem_of_mem_tail (List.of_mem_zip hb).1),
          (List.of_mem_zip hb).2⟩
      have hPs : ∀ b ∈ S.eps.dropLast.tail.zip S.t,
          MatDen (Stack.propagation (-Complex.I) Complex.I (F b.1 * ofR (.ok b.2 : RArr)))
          (u ⊔ᵇ some S.tShape) fun i => Stack.propagation (-Complex.I) Complex.I
            (FS b.1 i * ofR (b.2.get i)) := by
        intro b hb
        obtain ⟨h1, h2⟩ := hmid b hb
        exact MatDen.propagation _ _ ((hF _ h1).cmul (S.t_den h2).ofR)
      have hzip : ((ps.map tf).map Stack.interface).zip
          ((List.zipWith (fun nz t => nz * ofR t) (S.eps.map F).dropLast.tail (S.stack nu).t).map
            fun p => Stack.propagation (-Complex.I) Complex.I p) =
          (ps.zip (S.eps.dropLast.tail.zip S.t)).map fun b => (Stack.interface (tf b.1),
            Stack.propagation (-Complex.I) Complex.I (F b.2.1 * ofR (.ok b.2.2 : RArr))) := by
        rw [zipWith_eq_map_zip, ← List.map_dropLast, ← List.map_tail]
        simp only [stack, List.map_map, List.zip_map]
        rfl
      have hzipS : ∀ i, ((ps.map fun p => tfS p i).map Stack.interface).zip
          ((List.zipWith (fun nz t => nz * ofR t) (S.eps.map fun e => FS e i).dropLast.tail
            (S.at_ i (nuS i)).t).map fun p => Stack.propagation (-Complex.I) Complex.I p) =
          (ps.zip (S.eps.dropLast.tail.zip S.t)).map fun b => (Stack.interface (tfS b.1 i),
            Stack.propagation (-Complex.I) Complex.I (FS b.2.1 i * ofR (b.2.2.get i))) := by
        intro i
        rw [zipWith_eq_map_zip, ← List.map_dropLast, ← List.map_tail]
        simp only [at_, List.map_map, List.zip_map]
        rfl
      rw [hzip]
      refine (MatDen.chain_pos (ps.zip (S.eps.dropLast.tail.zip S.t)) ?_
        (fun b => Stack.interface (tf b.1))
        (fun b => Stack.propagation (-Complex.I) Complex.I (F b.2.1 * ofR (.ok b.2.2 : RArr)))
        (fun b i => Stack.interface (tfS b.1 i))
        (fun b i => Stack.propagation (-Complex.I) Complex.I (FS b.2.1 i * ofR (b.2.2.get i)))
        (fun b hb => hT b.1 (List.mem_cons_of_mem _ (List.of_mem_zip hb).1))
        (fun b hb => hPs b.2 (List.of_mem_zip hb).2) hT0).congr ?_ ?_
      · intro h0
        have := congrArg List.length h0
        have hl := S.layers
        simp only [List.length_cons, Nat.add_right_cancel_iff] at hlen
        simp [hlen, hl] at this
        exact ht this
      · unfold shape
        have h1 : some S.epsShape ⊔ᵇ u = u := hu
        calc u ⊔ᵇ (u ⊔ᵇ some S.tShape) = u ⊔ᵇ some S.tShape := by shape_ac
          _ = (some S.epsShape ⊔ᵇ u) ⊔ᵇ some S.tShape := by rw [h1]
          _ = u ⊔ᵇ (some S.epsShape ⊔ᵇ some S.tShape) := by shape_ac
      · intro i
        rw [hzipS]

/-- `transfer_matrix` after `nu_vac` and `q` were resolved, elementwise. -/
theorem farCore_den (pol : String) {q nu : RArr} {sq sn : Shape} {Q N : (ℕ → ℕ) → FP ℝ}
    (hq : Den q sq Q) (hn : Den nu sn N) (snu : Option RArr) (snuS : (ℕ → ℕ) → Option (FP ℝ)) :
    MatDenM (do
        let transFactor ← Stack.farTransFactor
          ((S.stack snu).eps.zip ((S.stack snu).nuZ nu q)) pol
        (S.stack snu).farMatrix transFactor ((S.stack snu).nuZ nu q))
      (sn ⊔ᵇ sq ⊔ᵇ S.shape)
      (fun i => do
        let transFactor ← Stack.farTransFactor
          ((S.at_ i (snuS i)).eps.zip ((S.at_ i (snuS i)).nuZ (N i) (Q i))) pol
        (S.at_ i (snuS i)).farMatrix transFactor ((S.at_ i (snuS i)).nuZ (N i) (Q i))) := by
  have hzipA : (S.stack snu).eps.zip ((S.stack snu).nuZ nu q) =
      S.eps.map fun e => ((.ok e : CArr), CplxOps.sqrt
        ((.ok e : CArr) * ofR (RealOps.npow nu 2) - ofR (RealOps.npow q 2))) := by
    simp only [stack, Stack.nuZ, List.map_map]
    rw [List.zip_map']
    rfl
  have hzipB : ∀ i, (S.at_ i (snuS i)).eps.zip ((S.at_ i (snuS i)).nuZ (N i) (Q i)) =
      S.eps.map fun e => (e.get i, CplxOps.sqrt
        (e.get i * ofR (RealOps.npow (N i) 2) - ofR (RealOps.npow (Q i) 2))) := by
    intro i
    simp only [at_, Stack.nuZ, List.map_map]
    rw [List.zip_map']
    rfl
  have hnuzA : (S.stack snu).nuZ nu q = S.eps.map fun e => CplxOps.sqrt
        ((.ok e : CArr) * ofR (RealOps.npow nu 2) - ofR (RealOps.npow q 2)) := by
    simp only [stack, Stack.nuZ, List.map_map]; rfl
  have hnuzB : ∀ i, (S.at_ i (snuS i)).nuZ (N i) (Q i) = S.eps.map fun e => CplxOps.sqrt
        (e.get i * ofR (RealOps.npow (N i) 2) - ofR (RealOps.npow (Q i) 2)) := by
    intro i
    simp only [at_, Stack.nuZ, List.map_map]; rfl
  have hmem : ∀ p ∈ S.eps.dropLast.zip S.eps.tail, p.1 ∈ S.eps ∧ p.2 ∈ S.eps := by
    intro p hp
    have := List.of_mem_zip hp
    exact ⟨List.mem_of_mem_dropLast this.1, List.mem_of_mem_tail this.2⟩
  have hF : ∀ e ∈ S.eps, Den (CplxOps.sqrt
        ((.ok e : CArr) * ofR (RealOps.npow nu 2) - ofR (RealOps.npow q 2)))
      (some S.epsShape ⊔ᵇ sn ⊔ᵇ sq) fun i => CplxOps.sqrt
        (e.get i * ofR (RealOps.npow (N i) 2) - ofR (RealOps.npow (Q i) 2)) := by
    intro e he
    exact (((S.eps_den he).cmul (hn.npow 2).ofR).csub (hq.npow 2).ofR).sqrt
  have hle : some S.epsShape ≤ᵇ some S.epsShape ⊔ᵇ sn ⊔ᵇ sq := by
    rw [Shape.join_assoc]; exact Shape.le_join_left _ _
  have hshape : some S.epsShape ⊔ᵇ sn ⊔ᵇ sq ⊔ᵇ S.shape = sn ⊔ᵇ sq ⊔ᵇ S.shape := by
    unfold shape; shape_ac
  rw [hzipA, hnuzA]
  have hfun : (fun i => (do
        let transFactor ← Stack.farTransFactor
          ((S.at_ i (snuS i)).eps.zip ((S.at_ i (snuS i)).nuZ (N i) (Q i))) pol
        (S.at_ i (snuS i)).farMatrix transFactor ((S.at_ i (snuS i)).nuZ (N i) (Q i)) :
          PyM (Mat2 (FP ℂ)))) = fun i => (do
        let transFactor ← Stack.farTransFactor
          (S.eps.map fun e => (e.get i, CplxOps.sqrt
            (e.get i * ofR (RealOps.npow (N i) 2) - ofR (RealOps.npow (Q i) 2)))) pol
        (S.at_ i (snuS i)).farMatrix transFactor (S.eps.map fun e => CplxOps.sqrt
          (e.get i * ofR (RealOps.npow (N i) 2) - ofR (RealOps.npow (Q i) 2)))) := by
    funext i
    rw [hzipB, hnuzB]
  rw [hfun]
  unfold Stack.farTransFactor
  by_cases hp : pol = "p"
  · simp only [hp, if_true, PyM.ok_bind, zipWith_eq_map_zip, dropLast_zip_tail_map, List.map_map]
    rw [← hshape]
    refine S.farMatrix_den hle snu snuS _ _ hF
      (fun p => (.ok p.1 : CArr) * CplxOps.sqrt
          ((.ok p.2 : CArr) * ofR (RealOps.npow nu 2) - ofR (RealOps.npow q 2)) /
        ((.ok p.2 : CArr) * CplxOps.sqrt
          ((.ok p.1 : CArr) * ofR (RealOps.npow nu 2) - ofR (RealOps.npow q 2))))
      (fun p i => p.1.get i * CplxOps.sqrt
          (p.2.get i * ofR (RealOps.npow (N i) 2) - ofR (RealOps.npow (Q i) 2)) /
        (p.2.get i * CplxOps.sqrt
          (p.1.get i * ofR (RealOps.npow (N i) 2) - ofR (RealOps.npow (Q i) 2)))) ?_
    intro p hp
    obtain ⟨h1, h2⟩ := hmem p hp
    refine (((S.eps_den h1).cmul (hF _ h2)).cdiv ((S.eps_den h2).cmul (hF _ h1))).congr ?_
      fun i => rfl
    shape_ac
  · by_cases hs : pol = "s"
    · subst hs
      simp only [hp, if_false, if_true, PyM.ok_bind, zipWith_eq_map_zip, dropLast_zip_tail_map,
        List.map_map]
      rw [← hshape]
      refine S.farMatrix_den hle snu snuS _ _ hF
        (fun p => CplxOps.sqrt
            ((.ok p.2 : CArr) * ofR (RealOps.npow nu 2) - ofR (RealOps.npow q 2)) /
          CplxOps.sqrt
            ((.ok p.1 : CArr) * ofR (RealOps.npow nu 2) - ofR (RealOps.npow q 2)))
        (fun p i => CplxOps.sqrt
            (p.2.get i * ofR (RealOps.npow (N i) 2) - ofR (RealOps.npow (Q i) 2)) /
          CplxOps.sqrt
            (p.1.get i * ofR (RealOps.npow (N i) 2) - ofR (RealOps.npow (Q i) 2))) ?_
      intro p hp
      obtain ⟨h1, h2⟩ := hmem p hp
      exact ((hF _ h2).cdiv (hF _ h1)).congr (Shape.join_self _) fun i => rfl
    · simp only [hp, hs, if_false]
      exact Or.inl ⟨_, rfl, fun i => rfl⟩

end ArrSample

namespace ArrSample
variable (S : ArrSample)

/-- `transfer_matrix`, elementwise. -/
theorem transferMatrix_den (snu : Option (NDArray (FP ℝ))) (q th nu : Option (NDArray (FP ℝ)))
    (pol : String) :
    MatDenM ((S.stack (snu.map .ok)).transferMatrix
        ⟨q.map .ok, th.map .ok, nu.map .ok, pol⟩)
      ((match nu with | some n => some n.rshape | none => optShape snu) ⊔ᵇ
        (optShape q ⊔ᵇ optShape th) ⊔ᵇ S.shape)
      (fun i => (S.at_ i (snu.map (·.get i))).transferMatrix
        ⟨q.map (·.get i), th.map (·.get i), nu.map (·.get i), pol⟩) := by
  -- the wavenumber
  have hnu : (∃ e, (S.stack (snu.map .ok)).resolveNu (nu.map .ok) = .error e ∧
        ∀ i, (S.at_ i (snu.map (·.get i))).resolveNu (nu.map (·.get i)) = .error e) ∨
      ∃ n N, (S.stack (snu.map .ok)).resolveNu (nu.map .ok) = .ok n ∧
        (∀ i, (S.at_ i (snu.map (·.get i))).resolveNu (nu.map (·.get i)) = .ok (N i)) ∧
        Den n (match nu with | some n => some n.rshape | none => optShape snu) N := by
    cases nu with
    | some n => exact Or.inr ⟨_, _, rfl, fun i => rfl, Den.leaf n⟩
    | none =>
      cases snu with
      | some n => exact Or.inr ⟨_, _, rfl, fun i => rfl, Den.leaf n⟩
      | none =>
        simp only [Stack.resolveNu, Option.map_none, at_multilayer_eq, multilayer_eq]
        by_cases ht : S.t = []
        · right
          refine ⟨lit 1, fun _ => lit 1, ?_, ?_, Den.lit 1⟩
          · simp [ht, stack]
          · intro i; simp [ht, at_]
        · left
          exact ⟨.valueError "`nu_vac` must not be None for multilayer samples.",
            by simp [ht, stack], fun i => by simp [ht, at_]⟩
  unfold Stack.transferMatrix
  rcases hnu with ⟨e, h1, h2⟩ | ⟨n, N, h1, h2, h3⟩
  · exact Or.inl ⟨e, by simp only [h1, PyM.error_bind], fun i => by simp only [h2, PyM.error_bind]⟩
  · simp only [h1, h2, PyM.ok_bind]
    cases th with
    | none =>
      cases q with
      | none =>
        simp only [Stack.resolveQ, Option.map_none, PyM.ok_bind]
        have := S.farCore_den pol (Den.lit 0) h3 (snu.map .ok) fun i => snu.map (·.get i)
        simpa [optShape] using this
      | some q =>
        simp only [Stack.resolveQ, Option.map_none, Option.map_some, PyM.ok_bind]
        have := S.farCore_den pol (Den.leaf q) h3 (snu.map .ok) fun i => snu.map (·.get i)
        simpa [optShape] using this
    | some th =>
      cases q with
      | none =>
        simp only [Stack.resolveQ, Option.map_none, Option.map_some, PyM.ok_bind]
        have := S.farCore_den pol (h3.rmul (Den.leaf th).abs.sin) h3 (snu.map .ok)
          fun i => snu.map (·.get i)
        simp only [optShape, Option.elim_none, Option.elim_some, Shape.unit_join]
        rw [← Shape.join_assoc, Shape.join_self] at this
        exact this
      | some q => exact Or.inl ⟨_, rfl, fun i => rfl⟩

end ArrSample

end Snompy
