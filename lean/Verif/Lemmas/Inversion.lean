import Verif.Lemmas.DenModels
import Verif.Lemmas.MaskRoots
import Verif.Lemmas.PolyRoots

/-!
# The inversion, column by column
-/

namespace Snompy

open Polynomial

/-- The inversion from the offset coefficients on. -/
noncomputable def solveOffset (sv : Solver) (thr : ℝ) (rejectIm rejectAbs : Bool)
    (epsEnv : NDArray (FP ℂ)) (offset : NDArray (FP ℂ)) : PyM Masked := do
  let roots ← offset.applyAlong0 (polyRoots sv) FP.nan
  let valid ← validRoots roots thr rejectIm rejectAbs epsEnv
  pure (maskRoots sv roots valid)

theorem solveColumns_eq (sv : Solver) (j : JArr) (coefs alpha : CArr) (thr : ℝ)
    (rejectIm rejectAbs : Bool) (epsEnv : NDArray (FP ℂ)) :
    solveColumns sv j coefs alpha thr rejectIm rejectAbs epsEnv =
      (CplxOps.whereJ j (coefs - alpha) coefs >>= solveOffset sv thr rejectIm rejectAbs epsEnv) := rfl

theorem offset_spec {likes : List (RArr ⊕ CArr)} {shapes : List Shape} (hl : LikesDen likes shapes)
    {u sc sα : Shape} (hu : joinAll shapes = u) (hsc : sc ⊔ᵇ sα = u) (tc : JArr → PyM CArr)
    (coefS : (ℕ → ℕ) → ℤ → PyM (FP ℂ))
    (htc : ∀ j sj Jx, Den j sj Jx → DenM (tc j) (sj ⊔ᵇ sc) (fun i => coefS i (Jx i)))
    (hdep : Dep u coefS) (hok : ∀ i j, ∃ v, coefS i j = .ok v) {α : CArr} {αf : (ℕ → ℕ) → FP ℂ}
    (hα : Den α sα αf) (J : ℕ) (rest : NDArray (FP ℂ) → PyM Masked) :
    (u = none → ∃ e, (do
      let pad ← Arr.maxNdim likes
      let coefs ← tc (jTaylor J pad)
      (CplxOps.whereJ (jTaylor J pad) (coefs - α) coefs : CArr) >>= rest) = .error e) ∧
    ∀ s0, u = some s0 → ∃ (offset : NDArray (FP ℂ)) (c : (ℕ → ℕ) → ℕ → FP ℂ),
      offset.rshape = s0 ++ [J] ∧
      (∀ i k, k < J → coefS i (k : ℤ) = .ok (c i k) ∧ offset.get (Function.update i s0.length k) =
        if k = 0 then c i k - αf i else c i k) ∧
      (do
        let pad ← Arr.maxNdim likes
        let coefs ← tc (jTaylor J pad)
        (CplxOps.whereJ (jTaylor J pad) (coefs - α) coefs : CArr) >>= rest) = rest offset := by
  have key : ∀ p, DenM (tc (jTaylor J p) >>= fun coefs =>
      .ok (CplxOps.whereJ (jTaylor J p) (coefs - α) coefs))
      (some (List.replicate p 1 ++ [J]) ⊔ᵇ u)
      (fun i => coefS i ((NDArray.padFront ((List.range J).map fun k : ℕ => (k : ℤ)) p 0).get i) >>=
        fun c => .ok (CplxOps.whereJ ((NDArray.padFront ((List.range J).map fun k : ℕ => (k : ℤ)) p 0).get i)
          (c - αf i) c)) := by
    intro p
    have hj : Den (jTaylor J p) (some (List.replicate p 1 ++ [J]))
        (NDArray.padFront ((List.range J).map fun k : ℕ => (k : ℤ)) p 0).get := by
      have := Den.padFront ((List.range J).map fun k : ℕ => (k : ℤ)) p 0
      rw [List.length_map, List.length_range] at this
      exact this
    refine DenM.seq (htc _ _ _ hj) ?_ fun y g hy => ?_
    · rw [← hsc]; unfold Shape.le; shape_ac
    · refine DenM.ok ((Den.whereJ hj (hy.csub hα) hy).congr ?_ fun i => rfl)
      rw [← hsc]; shape_ac
  constructor
  · rintro rfl
    cases hp : Arr.maxNdim likes with
    | error e => exact ⟨e, rfl⟩
    | ok p =>
      rw [PyM.ok_bind]
      obtain ⟨e, he⟩ := (by simpa using key p : DenM _ none _)
      cases ht : tc (jTaylor J p) with
      | error e' => exact ⟨e', rfl⟩
      | ok coefs =>
        rw [ht] at he
        simp only [PyM.ok_bind] at he
        exact ⟨e, by simp only [PyM.ok_bind, he]; rfl⟩
  · rintro s0 rfl
    have hp := maxNdim_of_likes hl hu
    have hk := key s0.length
    rw [Shape.some_join_some, bshape_pad] at hk
    choose c hc using hok
    rcases hk with ⟨e, _, hf⟩ | ⟨A, g, hA, hsh, hg⟩
    · exfalso
      have := hf fun _ => 0
      beta_reduce at this
      rw [hc, PyM.ok_bind] at this
      cases this
    · refine ⟨A, fun i k => c i k, hsh, fun i k hk => ⟨hc i k, ?_⟩, ?_⟩
      · have h1 := (hg (Function.update i s0.length k)).1
        beta_reduce at h1
        have hpad : (NDArray.padFront ((List.range J).map fun k : ℕ => (k : ℤ)) s0.length 0).get
            (Function.update i s0.length k) = (k : ℤ) := by
          rw [padFront_get _ _ _ _ _ (by simpa using hk)]
          simp [List.getD_eq_getElem?_getD, hk]
        have hi : coefS (Function.update i s0.length k) = coefS i :=
          hdep s0 rfl _ _ (canon_update (le_refl _) i k)
        have hαi : αf (Function.update i s0.length k) = αf i :=
          Dep.of_den hα (sb := some s0) (by rw [← hsc]; exact Shape.le_join_right _ _) s0 rfl _ _
            (canon_update (le_refl _) i k)
        rw [hpad, hi, hc, PyM.ok_bind, hαi, Except.ok.injEq] at h1
        rw [(hg _).2, ← h1]
        show (if (k : ℤ) = 0 then _ else _) = _
        by_cases h0 : k = 0
        · simp [h0]
        · simp [h0]
      · rw [hp, PyM.ok_bind]
        cases ht : tc (jTaylor J s0.length) with
        | error e => rw [ht] at hA; cases hA
        | ok coefs =>
          rw [ht, PyM.ok_bind, Except.ok.injEq] at hA
          rw [PyM.ok_bind, hA]
          rfl

theorem validRoots_ok {roots : NDArray (FP ℂ)} {thr : ℝ} {rejectIm rejectAbs : Bool}
    {epsEnv : NDArray (FP ℂ)} {valid : NDArray Bool}
    (h : validRoots roots thr rejectIm rejectAbs epsEnv = .ok valid) :
    valid.rshape = roots.rshape ∧ ∀ i, valid.get i = true ↔
      ∃ β, roots.get i = FP.num β ∧ Accepted thr rejectIm rejectAbs (epsEnv.get i) β := by
  unfold validRoots at h
  cases he : NDArray.zipWith permQuot epsEnv roots with
  | error e => rw [he] at h; cases h
  | ok eps =>
    rw [he, PyM.ok_bind] at h
    -- entries of the permittivity array
    have hden : Den (Arr.map2 permQuot (.ok epsEnv) (.ok roots)) _ _ :=
      Den.map2 permQuot (Den.leaf epsEnv) (Den.leaf roots)
    have hmap : Arr.map2 permQuot (.ok epsEnv) (.ok roots) = .ok eps := he
    rw [hmap] at hden
    have heps : ∀ i, eps.get i = permQuot (epsEnv.get i) (roots.get i) := by
      cases hs : (some epsEnv.rshape ⊔ᵇ some roots.rshape : Shape) with
      | none => rw [hs] at hden; obtain ⟨e, h'⟩ := hden; cases h'
      | some u =>
        rw [hs] at hden
        obtain ⟨A, h1, _, h3⟩ := hden
        cases h1
        exact h3
    have iand_ok : ∀ {A B C : NDArray Bool}, A.iand B = .ok C →
        C.rshape = A.rshape ∧ ∀ i, C.get i = (A.get i && B.get i) := by
      intro A B C hC
      unfold NDArray.iand at hC
      cases hb : bshape A.rshape B.rshape with
      | none => rw [hb] at hC; cases hC
      | some s =>
        rw [hb] at hC
        simp only at hC
        split_ifs at hC with hs
        cases hC
        refine ⟨hs, fun i => ?_⟩
        have hBs : some B.rshape ≤ᵇ some s := by
          have := Shape.le_join_right (some A.rshape) (some B.rshape)
          rwa [Shape.some_join_some, hb] at this
        have hAs : some A.rshape ≤ᵇ some s := by
          have := Shape.le_join_left (some A.rshape) (some B.rshape)
          rwa [Shape.some_join_some, hb] at this
        show (A.get (canon s i) && B.get (canon s i)) = _
        rw [NDArray.get_congr (canon_canon_of_le hAs i), NDArray.get_congr (canon_canon_of_le hBs i)]
    have step : ∃ v1 : NDArray Bool, v1.rshape = roots.rshape ∧
        (∀ i, v1.get i = (withinThreshold thr (roots.get i) &&
          (!rejectIm || imagNonneg (eps.get i)))) ∧
        (if rejectAbs then v1.iand (eps.map absGeOne) else pure v1) = .ok valid := by
      cases rejectIm with
      | false =>
        exact ⟨_, rfl, fun i => by rw [NDArray.map_get]; simp, h⟩
      | true =>
        simp only [if_true] at h
        cases hi : (roots.map (withinThreshold thr)).iand (eps.map imagNonneg) with
        | error e => rw [hi] at h; cases h
        | ok v1 =>
          rw [hi, PyM.ok_bind] at h
          obtain ⟨a, b⟩ := iand_ok hi
          refine ⟨v1, a, fun i => ?_, h⟩
          rw [b, NDArray.map_get, NDArray.map_get]
          simp
    obtain ⟨v1, hs1, hv1, h1⟩ := step
    have fin : valid.rshape = roots.rshape ∧ ∀ i, valid.get i = (withinThreshold thr (roots.get i) &&
        (!rejectIm || imagNonneg (eps.get i)) && (!rejectAbs || absGeOne (eps.get i))) := by
      cases rejectAbs with
      | false =>
        simp only [Bool.false_eq_true, if_false, PyM.pure_eq_ok, Except.ok.injEq] at h1
        subst h1
        exact ⟨hs1, fun i => by rw [hv1]; simp⟩
      | true =>
        simp only [if_true] at h1
        obtain ⟨a, b⟩ := iand_ok h1
        refine ⟨a.trans hs1, fun i => ?_⟩
        rw [b, hv1, NDArray.map_get]
        simp
    refine ⟨fin.1, fun i => ?_⟩
    rw [fin.2, heps]
    cases roots.get i with
    | nan => simp [withinThreshold]
    | num β =>
      simp only [FP.num_inj, exists_eq_left', Accepted]
      have hIm : imagNonneg (permQuot (epsEnv.get i) (FP.num β)) = true ↔
          ∃ e', epsEnv.get i = FP.num e' ∧ ImagOk e' β := by
        cases epsEnv.get i with
        | nan => simp [permQuot, imagNonneg]
        | num e =>
          simp only [FP.num_inj, exists_eq_left', ImagOk, permQuot, epsOf]
          by_cases hb : β = 1
          · subst hb
            simp [imagNonneg]
          · have : 1 - β ≠ 0 := sub_ne_zero.2 (Ne.symm hb)
            simp [this, hb, imagNonneg]
      have hAbs : absGeOne (permQuot (epsEnv.get i) (FP.num β)) = true ↔
          ∃ e', epsEnv.get i = FP.num e' ∧ AbsOk e' β := by
        cases epsEnv.get i with
        | nan => simp [permQuot, absGeOne]
        | num e =>
          simp only [FP.num_inj, exists_eq_left', AbsOk, permQuot, epsOf]
          by_cases hb : β = 1
          · subst hb
            simp [absGeOne]
          · have : 1 - β ≠ 0 := sub_ne_zero.2 (Ne.symm hb)
            simp [this, hb, absGeOne]
      rw [Bool.and_eq_true, Bool.and_eq_true]
      simp only [Bool.or_eq_true, Bool.not_eq_true', hIm, hAbs, withinThreshold, decide_eq_true_eq,
        and_assoc]
      cases rejectIm <;> cases rejectAbs <;> simp

/-- With an environment that does not vary along the first axis of the result the validity of the roots
can always be computed. -/
theorem validRoots_total {roots : NDArray (FP ℂ)} {s : List ℕ} {m : ℕ} (hr : roots.rshape = s ++ [m])
    (thr : ℝ) (rejectIm rejectAbs : Bool) {epsEnv : NDArray (FP ℂ)} (he : some epsEnv.rshape ≤ᵇ some s) :
    ∃ valid, validRoots roots thr rejectIm rejectAbs epsEnv = .ok valid := by
  have hsm : some s ≤ᵇ some (s ++ [m]) := by
    have := Shape.le_join_right (some (List.replicate s.length 1 ++ [m])) (some s)
    rwa [Shape.some_join_some, bshape_pad] at this
  have hle : bshape epsEnv.rshape roots.rshape = some roots.rshape := by
    rw [hr]; exact Shape.le_trans he hsm
  have iand_ok : ∀ A B : NDArray Bool, A.rshape = roots.rshape → B.rshape = roots.rshape →
      ∃ C, A.iand B = .ok C ∧ C.rshape = roots.rshape := by
    intro A B hA hB
    unfold NDArray.iand
    rw [hA, hB, bshape_self]
    simp
  unfold validRoots NDArray.zipWith
  rw [hle]
  simp only [PyM.ok_bind]
  cases rejectIm <;> cases rejectAbs <;> simp only [if_true, Bool.false_eq_true, if_false, PyM.pure_eq_ok,
    PyM.ok_bind]
  · exact ⟨_, rfl⟩
  · obtain ⟨C, h, _⟩ := iand_ok (roots.map (withinThreshold thr))
      (NDArray.map absGeOne ⟨roots.rshape, fun i => permQuot (epsEnv.get i) (roots.get i)⟩) rfl rfl
    exact ⟨C, h⟩
  · obtain ⟨C, h, _⟩ := iand_ok (roots.map (withinThreshold thr))
      (NDArray.map imagNonneg ⟨roots.rshape, fun i => permQuot (epsEnv.get i) (roots.get i)⟩) rfl rfl
    exact ⟨C, by rw [h]; rfl⟩
  · obtain ⟨C, h, hC⟩ := iand_ok (roots.map (withinThreshold thr))
      (NDArray.map imagNonneg ⟨roots.rshape, fun i => permQuot (epsEnv.get i) (roots.get i)⟩) rfl rfl
    obtain ⟨D, hD, _⟩ := iand_ok C
      (NDArray.map absGeOne ⟨roots.rshape, fun i => permQuot (epsEnv.get i) (roots.get i)⟩) hC rfl
    exact ⟨D, by rw [h, PyM.ok_bind, hD]⟩

theorem NDArray.get_update_of_dimAt {α : Type} {A : NDArray α} {p : ℕ} (h : dimAt A.rshape p = 1)
    (i : ℕ → ℕ) (k : ℕ) : A.get (Function.update i p k) = A.get i := by
  refine NDArray.get_congr ?_
  funext a
  by_cases ha : a = p
  · subst ha; simp [canon, h]
  · simp [canon, Function.update_of_ne ha]

/-- What is known of a call that inverts the truncated series with coefficients `coef`. -/
def Inverts (call : PyM Masked) (sv : Solver) (thr : ℝ) (rejectIm rejectAbs : Bool)
    (epsEnv : NDArray (FP ℂ)) (shape : Shape) (coef : (ℕ → ℕ) → ℕ → PyM (FP ℂ)) (α : NDArray (FP ℂ))
    (J : ℕ) : Prop :=
  (shape = none → ∃ e, call = .error e) ∧ ∀ s0, shape = some s0 →
    ∃ (offset : NDArray (FP ℂ)) (c : (ℕ → ℕ) → ℕ → FP ℂ), offset.rshape = s0 ++ [J] ∧
      (∀ i k, k < J → coef i k = .ok (c i k) ∧ offset.get (Function.update i s0.length k) =
        if k = 0 then c i k - α.get i else c i k) ∧
      call = solveOffset sv thr rejectIm rejectAbs epsEnv offset

section

variable {sv : Solver} {thr : ℝ} {rejectIm rejectAbs : Bool} {epsEnv offset : NDArray (FP ℂ)}
  {s0 : List ℕ} {J : ℕ} {M : Masked}

/-- Everything an `ok` result consists of. -/
theorem solveOffset_ok (hoff : offset.rshape = s0 ++ [J])
    (h : solveOffset sv thr rejectIm rejectAbs epsEnv offset = .ok M) :
    InBounds s0 (fun _ => 0) ∧ ∃ (roots : NDArray (FP ℂ)) (valid : NDArray Bool) (r₀ : List (FP ℂ)),
      M = maskRoots sv roots valid ∧ polyRoots sv (offset.column fun _ => 0) = .ok r₀ ∧
      roots.rshape = s0 ++ [r₀.length] ∧ valid.rshape = s0 ++ [r₀.length] ∧
      (∀ i, InBounds s0 i → ∃ r, polyRoots sv (offset.column i) = .ok r ∧
        (r.length = r₀.length ∨ r.length = 1) ∧ roots.column i =
          if r.length = r₀.length then r else List.replicate r₀.length (r.getD 0 FP.nan)) ∧
      ∀ i, valid.get i = true ↔
        ∃ β, roots.get i = FP.num β ∧ Accepted thr rejectIm rejectAbs (epsEnv.get i) β := by
  unfold solveOffset at h
  cases hr : offset.applyAlong0 (polyRoots sv) FP.nan with
  | error e => rw [hr] at h; cases h
  | ok roots =>
    rw [hr, PyM.ok_bind] at h
    cases hv : validRoots roots thr rejectIm rejectAbs epsEnv with
    | error e => rw [hv] at h; cases h
    | ok valid =>
      rw [hv, PyM.ok_bind] at h
      cases h
      obtain ⟨h0, r₀, h1, h2, h3⟩ := NDArray.applyAlong0_ok hoff hr
      obtain ⟨v1, v2⟩ := validRoots_ok hv
      exact ⟨h0, roots, valid, r₀, rfl, h1, h2, v1.trans h2, h3, v2⟩

/-- The unmasked entries of a column are the accepted entries of the column of roots. -/
theorem unmasked_mem {roots : NDArray (FP ℂ)} {valid : NDArray Bool} {m : ℕ} (hs : sv.Correct)
    (hr : roots.rshape = s0 ++ [m]) (hv : valid.rshape = s0 ++ [m]) {i : ℕ → ℕ} (hi : InBounds s0 i)
    {x : FP ℂ} : x ∈ (maskRoots sv roots valid).unmasked i ↔
      ∃ k < m, x = roots.get (Function.update i s0.length k) ∧
        valid.get (Function.update i s0.length k) = true := by
  rw [(unmasked_perm hs hr hv hi).mem_iff, NDArray.column_eq hr, NDArray.column_eq hv, zip_map_same]
  simp only [List.filterMap_map, List.mem_filterMap, List.mem_range, Function.comp]
  constructor
  · rintro ⟨k, hk, h⟩
    split_ifs at h with h1
    exact ⟨k, hk, (Option.some.inj h).symm, h1⟩
  · rintro ⟨k, hk, rfl, h1⟩
    exact ⟨k, hk, by simp [h1]⟩

open Classical in
theorem unmasked_filter {roots : NDArray (FP ℂ)} {valid : NDArray Bool} {m : ℕ} (hs : sv.Correct)
    (hr : roots.rshape = s0 ++ [m]) (hv : valid.rshape = s0 ++ [m])
    (hval : ∀ i, valid.get i = true ↔
      ∃ β, roots.get i = FP.num β ∧ Accepted thr rejectIm rejectAbs (epsEnv.get i) β)
    (henv : dimAt epsEnv.rshape s0.length = 1) {i : ℕ → ℕ} (hi : InBounds s0 i) :
    ((maskRoots sv roots valid).unmasked i).Perm ((roots.column i).filter fun x =>
      decide (∃ β, x = FP.num β ∧ Accepted thr rejectIm rejectAbs (epsEnv.get i) β)) := by
  refine (unmasked_perm hs hr hv hi).trans (List.Perm.of_eq ?_)
  rw [NDArray.column_eq hr, NDArray.column_eq hv, zip_map_same, List.filter_map, List.filterMap_map]
  have : ∀ k, valid.get (Function.update i s0.length k) = decide (∃ β,
      roots.get (Function.update i s0.length k) = FP.num β ∧
        Accepted thr rejectIm rejectAbs (epsEnv.get i) β) := by
    intro k
    rw [Bool.eq_iff_iff, hval, NDArray.get_update_of_dimAt henv, decide_eq_true_iff]
  rw [← List.filterMap_eq_map, ← List.filterMap_eq_filter, List.filterMap_filterMap]
  refine List.filterMap_congr fun k _ => ?_
  simp only [Function.comp, this]
  by_cases hp : ∃ β, roots.get (Function.update i s0.length k) = FP.num β ∧
        Accepted thr rejectIm rejectAbs (epsEnv.get i) β
  · simp [hp, Option.guard]
  · simp [hp, Option.guard]

end

theorem fp_sub_eq_num {x y : FP ℂ} {z : ℂ} (h : x - y = FP.num z) :
    ∃ a b, x = FP.num a ∧ y = FP.num b ∧ z = a - b := by
  cases x with
  | nan => cases h
  | num a =>
    cases y with
    | nan => cases h
    | num b => exact ⟨a, b, rfl, rfl, (FP.num_inj.1 h).symm⟩

section

variable {call : PyM Masked} {sv : Solver} {thr : ℝ} {rejectIm rejectAbs : Bool}
  {epsEnv α : NDArray (FP ℂ)} {shape : Shape} {coef : (ℕ → ℕ) → ℕ → PyM (FP ℂ)} {J : ℕ} {M : Masked}

/-- A finite column of offset coefficients comes from a finite series. -/
theorem series_of_column {offset : NDArray (FP ℂ)} {s0 : List ℕ} {c : (ℕ → ℕ) → ℕ → FP ℂ}
    (hoff : offset.rshape = s0 ++ [J])
    (hc : ∀ i k, k < J → coef i k = .ok (c i k) ∧ offset.get (Function.update i s0.length k) =
        if k = 0 then c i k - α.get i else c i k) {i : ℕ → ℕ} {c' : List ℂ}
    (hcol : offset.column i = c'.map FP.num) (hne : c' ≠ []) :
    ∃ (a : ℂ) (p : ℂ[X]), α.get i = FP.num a ∧ IsSeries (coef i) J p ∧ polyOf c' = p - C a := by
  rw [NDArray.column_eq hoff] at hcol
  have hlen : c'.length = J := by
    have := congrArg List.length hcol
    simpa using this.symm
  have hJ : 0 < J := hlen ▸ List.length_pos_iff.2 hne
  have hk : ∀ k < J, offset.get (Function.update i s0.length k) = FP.num (c'.getD k 0) := by
    intro k hk
    have h1 := congrArg (fun l => l[k]?) hcol
    simp only [List.getElem?_map, List.getElem?_range hk, Option.map_some] at h1
    have h2 : c'[k]? = some c'[k] := List.getElem?_eq_getElem (hlen ▸ hk)
    rw [h2, Option.map_some, Option.some.injEq] at h1
    rw [h1, List.getD_eq_getElem?_getD, h2]
    rfl
  have h0 := (hc i 0 hJ).2
  rw [hk 0 hJ, if_pos rfl] at h0
  obtain ⟨b, a, hb, ha, hba⟩ := fp_sub_eq_num h0.symm
  refine ⟨a, polyOf c' + C a, ha, ⟨?_, fun j hj => ?_⟩, by ring⟩
  · refine lt_of_le_of_lt (degree_add_le _ _) (max_lt ?_ ?_)
    · rw [degree_lt_iff_coeff_zero]
      intro m hm
      rw [polyOf_coeff, List.getD_eq_getElem?_getD, List.getElem?_eq_none (by omega)]
      rfl
    · exact lt_of_le_of_lt degree_C_le (by exact_mod_cast hJ)
  · rw [(hc i j hj).1, coeff_add, polyOf_coeff]
    by_cases hj0 : j = 0
    · subst hj0
      rw [hb, hba, coeff_C_zero]; congr 2; ring
    · have := (hc i j hj).2
      rw [hk j hj, if_neg hj0] at this
      rw [← this, coeff_C_of_ne_zero hj0, add_zero]

/-- A finite series makes a finite column. -/
theorem column_of_series {offset : NDArray (FP ℂ)} {s0 : List ℕ} {c : (ℕ → ℕ) → ℕ → FP ℂ}
    (hoff : offset.rshape = s0 ++ [J])
    (hc : ∀ i k, k < J → coef i k = .ok (c i k) ∧ offset.get (Function.update i s0.length k) =
        if k = 0 then c i k - α.get i else c i k) {i : ℕ → ℕ} {a : ℂ} {p : ℂ[X]}
    (hJ : 0 < J) (ha : α.get i = FP.num a) (hp : IsSeries (coef i) J p) :
    ∃ c' : List ℂ, c' ≠ [] ∧ offset.column i = c'.map FP.num ∧ polyOf c' = p - C a := by
  refine ⟨(List.range J).map fun k => (p - C a).coeff k, by simp; omega, ?_, ?_⟩
  · rw [NDArray.column_eq hoff, List.map_map]
    refine List.map_congr_left fun k hk => ?_
    have hk : k < J := by simpa using hk
    obtain ⟨h1, h2⟩ := hc i k hk
    rw [hp.2 k hk, Except.ok.injEq] at h1
    rw [h2, ← h1, ha]
    by_cases h0 : k = 0
    · subst h0; simp
    · simp [h0, coeff_C_of_ne_zero]
  · ext j
    rw [polyOf_coeff]
    by_cases hj : j < J
    · simp [List.getD_eq_getElem?_getD, hj]
    · have : (p - C a).coeff j = 0 := by
        have h1 : p.coeff j = 0 := coeff_eq_zero_of_degree_lt (lt_of_lt_of_le hp.1 (by
          exact_mod_cast (not_lt.1 hj)))
        rw [coeff_sub, h1, coeff_C_of_ne_zero (by omega), sub_zero]
      rw [this, List.getD_eq_getElem?_getD, List.getElem?_eq_none (by simpa using hj)]
      rfl

theorem inverts_shape (h : Inverts call sv thr rejectIm rejectAbs epsEnv shape coef α J)
    (hM : call = .ok M) : ∃ s0, shape = some s0 := by
  cases hsh : shape with
  | none => obtain ⟨e, he⟩ := h.1 hsh; rw [hM] at he; cases he
  | some s0 => exact ⟨s0, rfl⟩

theorem inverts_sound (hs : sv.Correct)
    (h : Inverts call sv thr rejectIm rejectAbs epsEnv shape coef α J) (hM : call = .ok M)
    {s0 : List ℕ} (hsh : shape = some s0) {i : ℕ → ℕ} (hi : InBounds s0 i) {x : FP ℂ}
    (hx : x ∈ M.unmasked i) :
    ∃ (β a : ℂ) (p : ℂ[X]), x = FP.num β ∧ α.get i = FP.num a ∧ IsSeries (coef i) J p ∧
      p.eval β = a ∧ ∃ k, Accepted thr rejectIm rejectAbs
        (epsEnv.get (Function.update i s0.length k)) β := by
  obtain ⟨offset, c, hoff, hc, hcall⟩ := h.2 s0 hsh
  rw [hcall] at hM
  obtain ⟨h0, roots, valid, r₀, rfl, hr0, hr, hv, hcol, hval⟩ := solveOffset_ok hoff hM
  obtain ⟨k, hk, hxk, hvk⟩ := (unmasked_mem hs hr hv hi).1 hx
  obtain ⟨β, hβ, hacc⟩ := (hval _).1 hvk
  obtain ⟨r, hr1, hlen, hrc⟩ := hcol i hi
  have hmem : x ∈ roots.column i := by
    rw [NDArray.column_eq hr, hxk]
    exact List.mem_map.2 ⟨k, by simpa using hk, rfl⟩
  have hxr : x ∈ r := by
    rw [hrc] at hmem
    split_ifs at hmem with hl
    · exact hmem
    · have h1 : r.length = 1 := hlen.resolve_left hl
      rw [(List.mem_replicate.1 hmem).2]
      exact getD_mem (by omega) _
  rw [hxk, hβ] at hxr
  obtain ⟨c', h1, h2, h3⟩ := polyRoots_sound hs hr1 hxr
  have hne : c' ≠ [] := by rintro rfl; exact h2 polyOf_nil
  obtain ⟨a, p, ha, hp, hpc⟩ := series_of_column hoff hc h1 hne
  refine ⟨β, a, p, hxk.trans hβ, ha, hp, ?_, k, hacc⟩
  rw [hpc, eval_sub, eval_C, sub_eq_zero] at h3
  exact h3

open Classical in
theorem inverts_complete (hs : sv.Correct)
    (h : Inverts call sv thr rejectIm rejectAbs epsEnv shape coef α J) (hM : call = .ok M)
    {s0 : List ℕ} (hsh : shape = some s0) {i : ℕ → ℕ} (hi : InBounds s0 i)
    (henv : dimAt epsEnv.rshape s0.length = 1) {a : ℂ} {p : ℂ[X]} (ha : α.get i = FP.num a)
    (hp : IsSeries (coef i) J p)
    (hdeg : p.natDegree = 1 → ∃ a₀ p₀, α.get (fun _ => 0) = FP.num a₀ ∧
      IsSeries (coef fun _ => 0) J p₀ ∧ p₀.natDegree = 1) :
    ((M.unmasked i : List (FP ℂ)) : Multiset (FP ℂ)) =
      ((p - C a).roots.filter (Accepted thr rejectIm rejectAbs (epsEnv.get i))).map FP.num := by
  obtain ⟨offset, c, hoff, hc, hcall⟩ := h.2 s0 hsh
  rw [hcall] at hM
  obtain ⟨h0, roots, valid, r₀, rfl, hr0, hr, hv, hcol, hval⟩ := solveOffset_ok hoff hM
  obtain ⟨r, hr1, hlen, hrc⟩ := hcol i hi
  have hJ : 0 < J := by
    rcases Nat.eq_zero_or_pos J with rfl | hJ
    · rw [NDArray.column_eq hoff] at hr1
      simp [polyRoots] at hr1
    · exact hJ
  -- number of roots of a finite column
  have hfin : ∀ i (a : ℂ) (p : ℂ[X]), α.get i = FP.num a → IsSeries (coef i) J p →
      ∃ r : List ℂ, polyRoots sv (offset.column i) = .ok (r.map FP.num) ∧
        (r : Multiset ℂ) = (p - C a).roots ∧ r.length = p.natDegree := by
    intro i a p ha hp
    obtain ⟨c', hne, hcc, hpc⟩ := column_of_series hoff hc hJ ha hp
    obtain ⟨r, h1, h2⟩ := polyRoots_finite hs c' hne
    refine ⟨r, by rw [hcc]; exact h1, by rw [h2, hpc], ?_⟩
    have := congrArg Multiset.card h2
    rw [Multiset.coe_card, card_roots_complex, hpc, natDegree_sub_C] at this
    exact this
  obtain ⟨r', h1, h2, h3⟩ := hfin i a p ha hp
  rw [h1] at hr1
  cases hr1
  have hlen' : (r'.map (FP.num (α := ℂ))).length = r₀.length := by
    rcases hlen with hl | hl
    · exact hl
    · rw [List.length_map, h3] at hl
      obtain ⟨a₀, p₀, ha₀, hp₀, hd₀⟩ := hdeg hl
      obtain ⟨r0', k1, k2, k3⟩ := hfin _ a₀ p₀ ha₀ hp₀
      rw [k1] at hr0
      cases hr0
      rw [List.length_map, List.length_map, k3, h3, hl, hd₀]
  rw [if_pos hlen'] at hrc
  have hperm := unmasked_filter hs hr hv hval henv hi
  rw [hrc] at hperm
  rw [Multiset.coe_eq_coe.2 hperm, ← h2, Multiset.filter_coe, Multiset.map_coe, List.filter_map]
  congr 2
  refine List.filter_congr fun x _ => ?_
  simp

/-- The first axis is as long as the fullest column, and columns are sorted. -/
theorem inverts_shape_order (hs : sv.Correct)
    (h : Inverts call sv thr rejectIm rejectAbs epsEnv shape coef α J) (hM : call = .ok M)
    {s0 : List ℕ} (hsh : shape = some s0) :
    ∃ K, M.data.rshape = s0 ++ [K] ∧ M.mask.rshape = s0 ++ [K] ∧
      (∀ i, InBounds s0 i → (M.unmasked i).length ≤ K) ∧
      (∃ i, InBounds s0 i ∧ (M.unmasked i).length = K) ∧
      ∀ i, (M.data.column i).Pairwise fun x y => fpLe (CplxOps.cabs x) (CplxOps.cabs y) := by
  obtain ⟨offset, c, hoff, hc, hcall⟩ := h.2 s0 hsh
  rw [hcall] at hM
  obtain ⟨h0, roots, valid, r₀, rfl, hr0, hr, hv, hcol, hval⟩ := solveOffset_ok hoff hM
  obtain ⟨τ, hτ, hd, hm, _⟩ := maskRoots_get hs hr hv (fun _ => 0)
  refine ⟨(keptRows sv valid).length, hd, hm, fun i hi => ?_, exists_full_column hs hr hv h0,
    fun i => ?_⟩
  · refine (List.length_filterMap_le _ _).trans ?_
    rw [List.length_zip, NDArray.column_length hd, NDArray.column_length hm]
    simp
  · obtain ⟨_, _, _, _, _, _, hp⟩ := maskRoots_get hs hr hv i
    exact hp

/-- When all columns have finite coefficients and equations of the degree of the first or of degree one,
the call succeeds. -/
theorem inverts_total (hs : sv.Correct)
    (h : Inverts call sv thr rejectIm rejectAbs epsEnv shape coef α J) {s0 : List ℕ}
    (hsh : shape = some s0) (h0 : InBounds s0 fun _ => 0) (henv : some epsEnv.rshape ≤ᵇ some s0)
    (hJ : 0 < J) (d : ℕ) (hfirst : ∃ a p, α.get (fun _ => 0) = FP.num a ∧
      IsSeries (coef fun _ => 0) J p ∧ p.natDegree = d)
    (hcol : ∀ i, InBounds s0 i → ∃ a p, α.get i = FP.num a ∧
      IsSeries (coef i) J p ∧ (p.natDegree = d ∨ p.natDegree = 1)) : ∃ M, call = .ok M := by
  obtain ⟨offset, c, hoff, hc, hcall⟩ := h.2 s0 hsh
  rw [hcall]
  unfold solveOffset
  have key : ∀ i (a : ℂ) (p : ℂ[X]), α.get i = FP.num a → IsSeries (coef i) J p →
      ∃ r, polyRoots sv (offset.column i) = .ok r ∧ r.length = p.natDegree := by
    intro i a p ha hp
    obtain ⟨c', hne, hcc, hpc⟩ := column_of_series hoff hc hJ ha hp
    obtain ⟨r, h1, h2⟩ := polyRoots_finite hs c' hne
    refine ⟨_, by rw [hcc]; exact h1, ?_⟩
    have := congrArg Multiset.card h2
    rw [Multiset.coe_card, card_roots_complex, hpc, natDegree_sub_C] at this
    rw [List.length_map, this]
  obtain ⟨R, hR⟩ := NDArray.applyAlong0_total (f := polyRoots sv) (d := FP.nan) hoff h0 d (by
    obtain ⟨a, p, ha, hp, hd⟩ := hfirst
    obtain ⟨r, h1, h2⟩ := key _ a p ha hp
    exact ⟨r, h1, h2.trans hd⟩) (by
    intro i hi
    obtain ⟨a, p, ha, hp, hd⟩ := hcol i hi
    obtain ⟨r, h1, h2⟩ := key _ a p ha hp
    exact ⟨r, h1, by rwa [h2]⟩)
  rw [hR, PyM.ok_bind]
  obtain ⟨_, r₀, _, hRs, _⟩ := NDArray.applyAlong0_ok hoff hR
  obtain ⟨v, hv⟩ := validRoots_total hRs thr rejectIm rejectAbs henv
  rw [hv, PyM.ok_bind]
  exact ⟨_, rfl⟩

/-- If the equation of the first column does not depend on the unknown, every column is empty. -/
theorem inverts_dropped (hs : sv.Correct)
    (h : Inverts call sv thr rejectIm rejectAbs epsEnv shape coef α J) (hM : call = .ok M)
    {s0 : List ℕ} (hsh : shape = some s0) {a : ℂ} {p : ℂ[X]} (ha : α.get (fun _ => 0) = FP.num a)
    (hp : IsSeries (coef fun _ => 0) J p) (hd : p.natDegree = 0) :
    M.data.rshape = s0 ++ [0] ∧ ∀ i, M.unmasked i = [] := by
  have hM' := hM
  obtain ⟨offset, c, hoff, hc, hcall⟩ := h.2 s0 hsh
  rw [hcall] at hM
  obtain ⟨h0, roots, valid, r₀, rfl, hr0, hr, hv, hcol, hval⟩ := solveOffset_ok hoff hM
  have hJ : 0 < J := by
    rcases Nat.eq_zero_or_pos J with rfl | hJ
    · rw [NDArray.column_eq hoff] at hr0
      simp [polyRoots] at hr0
    · exact hJ
  obtain ⟨c', hne, hcc, hpc⟩ := column_of_series hoff hc hJ ha hp
  obtain ⟨r, h1, h2⟩ := polyRoots_finite hs c' hne
  rw [← hcc, hr0] at h1
  have hl : r₀.length = 0 := by
    have := congrArg Multiset.card h2
    rw [Multiset.coe_card, card_roots_complex, hpc, natDegree_sub_C, hd] at this
    cases h1
    simpa using this
  obtain ⟨K, hK, hK', h3, ⟨i, hi, h4⟩, _⟩ := inverts_shape_order hs h hM' hsh
  have hK0 : K = 0 := by
    rw [← h4, List.length_eq_zero_iff, List.eq_nil_iff_forall_not_mem]
    intro x hx
    obtain ⟨k, hk, _⟩ := (unmasked_mem hs hr hv hi).1 hx
    omega
  subst hK0
  refine ⟨hK, fun i => ?_⟩
  unfold Masked.unmasked
  rw [NDArray.column_eq hK]
  rfl

end

theorem Dep.mono {α : Type} {s t : Shape} {f : (ℕ → ℕ) → α} (h : Dep s f) (hle : s ≤ᵇ t) : Dep t f := by
  rintro w rfl i j hij
  cases s with
  | none => exact absurd (Shape.le_none hle) (by simp)
  | some v => exact h v rfl i j (canon_congr_of_le hle hij)

namespace Fdm

theorem inverts (env : Env) (sv : Solver) (α : NDArray (FP ℂ)) (aTip n : NDArray (FP ℝ))
    (z : Option (NDArray (FP ℝ))) (a : Args) (nTrapz nTayl : Option ℕ) (v : InvArgs) :
    Inverts (reflCoefQsFromEffPolN env sv (.ok α) (.ok aTip) (.ok n) (z.map .ok) (argsArr a) nTrapz nTayl v)
      sv (v.betaThreshold.getD env.defaults.betaThreshold) v.rejectNegativeEpsImag
      v.rejectSubvacuumEpsAbs (v.epsEnv.getD (NDArray.scalar (FP.num env.defaults.epsEnv)))
      (invShape α aTip n z a) (coefAt env aTip n z a nTrapz) α (nTayl.getD env.defaults.nTayl) := by
  obtain ⟨hr, hl, hg, h0, h1, -⟩ := tip_den env a
  have hz := getD_lit_den z env.defaults.zTip
  have hA := Den.leaf aTip
  have hn := Den.leaf n
  have hα := Den.leaf α
  have hQ0 := shapeQ0_join a
  have hsh : invShape α aTip n z a = joinAll [optShape z, some aTip.rshape, some n.rshape,
      some α.rshape, optShape a.rTip, optShape a.lTip, optShape a.gFactor, shapeQ0 a,
      optShape a.dQ1] := by
    unfold invShape
    simp only [joinAll, Shape.join_unit]
    calc _ = (optShape a.rTip ⊔ᵇ optShape a.lTip ⊔ᵇ optShape a.dQ0) ⊔ᵇ (optShape z ⊔ᵇ
          some aTip.rshape ⊔ᵇ some n.rshape ⊔ᵇ some α.rshape ⊔ᵇ optShape a.gFactor ⊔ᵇ
          optShape a.dQ1) := by shape_ac
      _ = _ := by rw [← hQ0]; shape_ac
  set u := invShape α aTip n z a with hu
  have key := offset_spec (likes := [.inl ((z.map .ok).getD (lit env.defaults.zTip)), .inl (.ok aTip),
      .inl (.ok n), .inr (.ok α), .inl (env.defaults.fdm (argsArr a)).rTip,
      .inl (env.defaults.fdm (argsArr a)).lTip,
      .inr (env.defaults.fdm (argsArr a)).gFactor,
      .inl (env.defaults.fdm (argsArr a)).dQ0,
      .inl (env.defaults.fdm (argsArr a)).dQ1])
    (.cons ⟨_, hz⟩ <| .cons ⟨_, hA⟩ <| .cons ⟨_, hn⟩ <| .cons ⟨_, hα⟩ <| .cons ⟨_, hr⟩ <|
        .cons ⟨_, hl⟩ <| .cons ⟨_, hg⟩ <| .cons ⟨_, h0⟩ <| .cons ⟨_, h1⟩ .nil)
    hsh.symm (sc := optShape z ⊔ᵇ some aTip.rshape ⊔ᵇ some n.rshape ⊔ᵇ optShape a.rTip ⊔ᵇ
      optShape a.lTip ⊔ᵇ optShape a.gFactor ⊔ᵇ shapeQ0 a ⊔ᵇ optShape a.dQ1) (sα := some α.rshape)
    (by rw [hsh]; simp only [joinAll, Shape.join_unit]; shape_ac)
    (fun j => taylorCoef env ((z.map .ok).getD (lit env.defaults.zTip)) j (.ok aTip) (.ok n)
      (env.defaults.fdm (argsArr a)).rTip
      (env.defaults.fdm (argsArr a)).lTip
      (env.defaults.fdm (argsArr a)).gFactor
      (env.defaults.fdm (argsArr a)).dQ0
      (env.defaults.fdm (argsArr a)).dQ1 nTrapz)
    (fun i j => taylorCoef env ((z.map (·.get i)).getD (lit env.defaults.zTip)) j (aTip.get i) (n.get i)
      (env.defaults.fdm (argsAt a i)).rTip (env.defaults.fdm (argsAt a i)).lTip
      (env.defaults.fdm (argsAt a i)).gFactor (env.defaults.fdm (argsAt a i)).dQ0
      (env.defaults.fdm (argsAt a i)).dQ1 nTrapz)
    (fun j sj Jx hj => taylorCoef_den env nTrapz hz hj hA hn hr hl hg h0 h1)
    (by
      have le : ∀ {t : Shape}, t ⊔ᵇ joinAll [optShape z, some aTip.rshape, some n.rshape,
          some α.rshape, optShape a.rTip, optShape a.lTip, optShape a.gFactor, shapeQ0 a,
          optShape a.dQ1] = joinAll [optShape z, some aTip.rshape, some n.rshape,
          some α.rshape, optShape a.rTip, optShape a.lTip, optShape a.gFactor, shapeQ0 a,
          optShape a.dQ1] → t ≤ᵇ u := fun h => by rw [hsh]; exact h
      intro w hw i j hij
      have e1 := Dep.of_den hz (le (by simp only [joinAll, Shape.join_unit]; shape_ac)) w hw i j hij
      have e2 := Dep.of_den hA (le (by simp only [joinAll, Shape.join_unit]; shape_ac)) w hw i j hij
      have e3 := Dep.of_den hn (le (by simp only [joinAll, Shape.join_unit]; shape_ac)) w hw i j hij
      have e5 := Dep.of_den hr (le (by simp only [joinAll, Shape.join_unit]; shape_ac)) w hw i j hij
      have e6 := Dep.of_den hl (le (by simp only [joinAll, Shape.join_unit]; shape_ac)) w hw i j hij
      have e7 := Dep.of_den hg (le (by simp only [joinAll, Shape.join_unit]; shape_ac)) w hw i j hij
      have e8 := Dep.of_den h0 (le (by simp only [joinAll, Shape.join_unit]; shape_ac)) w hw i j hij
      have e9 := Dep.of_den h1 (le (by simp only [joinAll, Shape.join_unit]; shape_ac)) w hw i j hij
      simp only at e1 e5 e6 e7 e8 e9
      simp only [e1, e2, e3, e5, e6, e7, e8, e9])
    (fun i j => taylorCoef_ok env nTrapz _ _ _ _ _ _ _ _ j) hα (nTayl.getD env.defaults.nTayl)
    (solveOffset sv (v.betaThreshold.getD env.defaults.betaThreshold) v.rejectNegativeEpsImag
      v.rejectSubvacuumEpsAbs (v.epsEnv.getD (NDArray.scalar (FP.num env.defaults.epsEnv))))
  exact key

end Fdm

namespace Pdm

theorem inverts (env : Env) (sv : Solver) (α : NDArray (FP ℂ)) (aTip n : NDArray (FP ℝ))
    (z : Option (NDArray (FP ℝ))) (a : Args) (nTrapz nTayl : Option ℕ) (v : InvArgs) :
    (∃ e, reflCoefQsFromEffPolN env sv (.ok α) (.ok aTip) (.ok n) (z.map .ok) (argsArr a) nTrapz nTayl v =
      .error e ∧ ∀ i, env.defaults.pdm (argsAt a i) = .error e) ∨
    Inverts (reflCoefQsFromEffPolN env sv (.ok α) (.ok aTip) (.ok n) (z.map .ok) (argsArr a) nTrapz nTayl v)
      sv (v.betaThreshold.getD env.defaults.betaThreshold) v.rejectNegativeEpsImag
      v.rejectSubvacuumEpsAbs (v.epsEnv.getD (NDArray.scalar (FP.num env.defaults.epsEnv)))
      (invShape α aTip n z a) (coefAt env aTip n z a nTrapz) α (nTayl.getD env.defaults.nTayl) := by
  rcases tip_den env a with ⟨e, h1, h2⟩ | ⟨r, al, R, AL, sal, h1, h2, hr, ha, hs⟩
  · left
    refine ⟨e, ?_, h2⟩
    unfold reflCoefQsFromEffPolN
    rw [h1]
    rfl
  · right
    have hz := Fdm.getD_lit_den z env.defaults.zTip
    have hA := Den.leaf aTip
    have hn := Den.leaf n
    have hα := Den.leaf α
    have hsh : invShape α aTip n z a = joinAll [optShape z, some aTip.rshape, some n.rshape,
        some α.rshape, optShape a.rTip, sal] := by
      unfold invShape
      simp only [joinAll, Shape.join_unit]
      rw [hs, argsShape]
      shape_ac
    set u := invShape α aTip n z a with hu
    have key := offset_spec (likes := [.inl ((z.map .ok).getD (lit env.defaults.zTip)), .inl (.ok aTip),
        .inl (.ok n), .inr (.ok α), .inl r, .inr al])
      (.cons ⟨_, hz⟩ <| .cons ⟨_, hA⟩ <| .cons ⟨_, hn⟩ <| .cons ⟨_, hα⟩ <| .cons ⟨_, hr⟩ <|
          .cons ⟨_, ha⟩ .nil)
      hsh.symm (sc := optShape z ⊔ᵇ some aTip.rshape ⊔ᵇ some n.rshape ⊔ᵇ optShape a.rTip ⊔ᵇ sal)
      (sα := some α.rshape)
      (by rw [hsh]; simp only [joinAll, Shape.join_unit]; shape_ac)
      (fun j => taylorCoef env ((z.map .ok).getD (lit env.defaults.zTip)) j (.ok aTip) (.ok n)
        r al nTrapz)
      (fun i j => taylorCoef env ((z.map (·.get i)).getD (lit env.defaults.zTip)) j (aTip.get i)
        (n.get i) (R i) (AL i) nTrapz)
      (fun j sj Jx hj => taylorCoef_den env nTrapz hz hj hA hn hr ha)
      (by
        have le : ∀ {t : Shape}, t ⊔ᵇ joinAll [optShape z, some aTip.rshape, some n.rshape,
            some α.rshape, optShape a.rTip, sal] = joinAll [optShape z, some aTip.rshape,
            some n.rshape, some α.rshape, optShape a.rTip, sal] → t ≤ᵇ u :=
          fun h => by rw [hsh]; exact h
        intro w hw i j hij
        have e1 := Dep.of_den hz (le (by simp only [joinAll, Shape.join_unit]; shape_ac)) w hw i j hij
        have e2 := Dep.of_den hA (le (by simp only [joinAll, Shape.join_unit]; shape_ac)) w hw i j hij
        have e3 := Dep.of_den hn (le (by simp only [joinAll, Shape.join_unit]; shape_ac)) w hw i j hij
        have e5 := Dep.of_den hr (le (by simp only [joinAll, Shape.join_unit]; shape_ac)) w hw i j hij
        have e6 := Dep.of_den ha (le (by simp only [joinAll, Shape.join_unit]; shape_ac)) w hw i j hij
        simp only at e1
        simp only [e1, e2, e3, e5, e6])
      (fun i j => taylorCoef_ok env nTrapz _ _ _ _ _ j) hα (nTayl.getD env.defaults.nTayl)
      (solveOffset sv (v.betaThreshold.getD env.defaults.betaThreshold) v.rejectNegativeEpsImag
        v.rejectSubvacuumEpsAbs (v.epsEnv.getD (NDArray.scalar (FP.num env.defaults.epsEnv))))
    have hcall : reflCoefQsFromEffPolN env sv (.ok α) (.ok aTip) (.ok n) (z.map .ok) (argsArr a) nTrapz
        nTayl v = (do
          let pad ← Arr.maxNdim [.inl ((z.map .ok).getD (lit env.defaults.zTip)), .inl (.ok aTip),
            .inl (.ok n), .inr (.ok α), .inl r, .inr al]
          let coefs ← taylorCoef env ((z.map .ok).getD (lit env.defaults.zTip))
            (jTaylor (nTayl.getD env.defaults.nTayl) pad) (.ok aTip) (.ok n) r al nTrapz
          (CplxOps.whereJ (jTaylor (nTayl.getD env.defaults.nTayl) pad) (coefs - (.ok α)) coefs : CArr)
            >>= solveOffset sv (v.betaThreshold.getD env.defaults.betaThreshold)
              v.rejectNegativeEpsImag v.rejectSubvacuumEpsAbs
              (v.epsEnv.getD (NDArray.scalar (FP.num env.defaults.epsEnv)))) := by
      unfold reflCoefQsFromEffPolN
      rw [h1]
      rfl
    rw [hcall]
    have hco : ∀ i (k : ℕ), coefAt env aTip n z a nTrapz i k =
        taylorCoef env ((z.map (·.get i)).getD (lit env.defaults.zTip)) (k : ℤ) (aTip.get i)
        (n.get i) (R i) (AL i) nTrapz := by
      intro i k
      unfold coefAt
      rw [h2]
      rfl
    refine ⟨key.1, fun s0 h => ?_⟩
    obtain ⟨offset, c, k1, k2, k3⟩ := key.2 s0 h
    exact ⟨offset, c, k1, fun i k hk => ⟨by rw [hco]; exact (k2 i k hk).1, (k2 i k hk).2⟩, k3⟩

end Pdm

end Snompy
