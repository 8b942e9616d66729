import Verif.Lemmas.Column

/-!
# Sorting and masking keeps exactly the valid roots
-/

namespace Snompy

theorem map_range_getD {α β : Type} (l : List α) (d : α) (f : α → β) :
    (List.range l.length).map (fun k => f (l.getD k d)) = l.map f := by
  conv_rhs => rw [eq_map_range l d, List.map_map]
  rfl

theorem forM_ok {α : Type} {l : List α} {f : α → PyM Unit} (h : l.forM f = .ok ()) :
    ∀ a ∈ l, f a = .ok () := by
  induction l with
  | nil => simp
  | cons a l ih =>
    have h : (f a >>= fun _ => l.forM f) = .ok () := h
    cases hf : f a with
    | error e => rw [hf] at h; cases h
    | ok u =>
      rw [hf, PyM.ok_bind] at h
      intro b hb
      rcases List.mem_cons.1 hb with rfl | hb
      · exact hf
      · exact ih h b hb

theorem forM_of_ok {α : Type} {l : List α} {f : α → PyM Unit} (h : ∀ a ∈ l, f a = .ok ()) :
    l.forM f = .ok () := by
  induction l with
  | nil => rfl
  | cons a l ih =>
    show (f a >>= fun _ => l.forM f) = .ok ()
    rw [h a (by simp), PyM.ok_bind]
    exact ih fun b hb => h b (by simp [hb])

theorem zip_map_same {α β γ : Type} (l : List α) (f : α → β) (g : α → γ) :
    (l.map f).zip (l.map g) = l.map fun a => (f a, g a) := by
  induction l with
  | nil => rfl
  | cons a l ih => simp [ih]

theorem canon_zero (s : List ℕ) : canon s (fun _ => 0) = fun _ => 0 := by
  funext k; simp [canon]

namespace NDArray

variable {α β : Type}

theorem applyAlong0_ok {f : List α → PyM (List β)} {d : β} {A : NDArray α} {s : List ℕ} {J : ℕ}
    (hA : A.rshape = s ++ [J]) {R : NDArray β} (h : A.applyAlong0 f d = .ok R) :
    InBounds s (fun _ => 0) ∧ ∃ r₀, f (A.column fun _ => 0) = .ok r₀ ∧ R.rshape = s ++ [r₀.length] ∧
      ∀ i, InBounds s i → ∃ r, f (A.column i) = .ok r ∧ (r.length = r₀.length ∨ r.length = 1) ∧
        R.column i = if r.length = r₀.length then r else List.replicate r₀.length (r.getD 0 d) := by
  have hd : A.rshape.dropLast = s := by simp [hA]
  unfold applyAlong0 at h
  simp only [hd] at h
  cases hp : positions s with
  | nil => rw [hp] at h; cases h
  | cons i₀ rest =>
    have h0 : i₀ = fun _ => 0 := positions_head hp
    subst h0
    rw [hp] at h
    simp only at h
    have hmem : (fun _ => 0) ∈ positions s := by rw [hp]; simp
    refine ⟨(dimAt_positions hmem).1, ?_⟩
    cases hf : f (A.column fun _ => 0) with
    | error e => rw [hf] at h; cases h
    | ok r₀ =>
      rw [hf, PyM.ok_bind] at h
      cases hfor : (rest.forM fun i => do
          let r ← f (A.column i)
          if r.length = r₀.length ∨ r.length = 1 then pure () else throw PyErr.broadcast :
            PyM Unit) with
      | error e => rw [hfor] at h; cases h
      | ok u =>
        rw [hfor, PyM.ok_bind] at h
        cases h
        refine ⟨r₀, rfl, rfl, fun i hi => ?_⟩
        have hc : ∃ r, f (A.column i) = .ok r ∧ (r.length = r₀.length ∨ r.length = 1) := by
          have hm := canon_mem_positions hi
          rw [hp] at hm
          have hcol : A.column (canon s i) = A.column i := column_congr hA (canon_canon s i)
          rcases List.mem_cons.1 hm with he | he
          · rw [← hcol, he]; exact ⟨r₀, hf, Or.inl rfl⟩
          · have hb := forM_ok hfor _ he
            rw [hcol] at hb
            cases hfi : f (A.column i) with
            | error e => rw [hfi] at hb; cases hb
            | ok r =>
              rw [hfi, PyM.ok_bind] at hb
              refine ⟨r, rfl, ?_⟩
              by_contra hno
              rw [if_neg hno] at hb
              cases hb
        obtain ⟨r, hr, hlen⟩ := hc
        refine ⟨r, hr, hlen, ?_⟩
        rw [column_eq (s := s) (m := r₀.length) rfl]
        have hget : ∀ k < r₀.length, (NDArray.mk (s ++ [r₀.length]) fun i =>
            match f (A.column i) with
            | .ok r => if r.length = r₀.length then r.getD (i s.length) d else r.getD 0 d
            | .error _ => d).get (Function.update i s.length k) =
            if r.length = r₀.length then r.getD k d else r.getD 0 d := by
          intro k hk
          rw [get_mk s _ _ i hk, column_update hA, hr, Function.update_self]
        split_ifs with hl
        · conv_rhs => rw [eq_map_range r d, hl]
          refine List.map_congr_left fun k hk => ?_
          exact (hget k (by simpa using hk)).trans (if_pos hl)
        · rw [List.eq_replicate_iff]
          refine ⟨by simp, fun b hb => ?_⟩
          obtain ⟨k, hk, rfl⟩ := List.mem_map.1 hb
          exact (hget k (by simpa using hk)).trans (if_neg hl)

/-- Conversely: the call succeeds when every column gives a list of the length of the first or of length
one. -/
theorem applyAlong0_total {f : List α → PyM (List β)} {d : β} {A : NDArray α} {s : List ℕ} {J : ℕ}
    (hA : A.rshape = s ++ [J]) (h0 : InBounds s fun _ => 0) (m : ℕ)
    (hf : ∃ r, f (A.column fun _ => 0) = .ok r ∧ r.length = m)
    (h : ∀ i, InBounds s i → ∃ r, f (A.column i) = .ok r ∧ (r.length = m ∨ r.length = 1)) :
    ∃ R, A.applyAlong0 f d = .ok R := by
  have hd : A.rshape.dropLast = s := by simp [hA]
  unfold applyAlong0
  simp only [hd]
  have hm := canon_mem_positions h0
  rw [canon_zero] at hm
  cases hp : positions s with
  | nil => rw [hp] at hm; simp at hm
  | cons i₀ rest =>
    have h0' : i₀ = fun _ => 0 := positions_head hp
    subst h0'
    simp only
    obtain ⟨r₀, hr₀, hl₀⟩ := hf
    rw [hr₀, PyM.ok_bind, forM_of_ok]
    · exact ⟨_, rfl⟩
    · intro i hi
      obtain ⟨r, hr, hl⟩ := h i (dimAt_positions (by rw [hp]; simp [hi])).1
      rw [hr, PyM.ok_bind, if_pos (by rwa [hl₀])]
      rfl

end NDArray

section
variable {sv : Solver} {roots : NDArray (FP ℂ)} {valid : NDArray Bool} {s : List ℕ} {m : ℕ}

/-- Rows kept. -/
noncomputable def keptRows (sv : Solver) (valid : NDArray Bool) : List ℕ :=
  (valid.takeAlong0 (valid.argsort0 sv.argsortBool)).rowsAny

theorem IsArgsort.lt {α : Type} {le : α → α → Prop} {f : List α → List ℕ} (h : IsArgsort le f)
    (l : List α) {k : ℕ} (hk : k ∈ f l) : k < l.length := by
  simpa using (h l).1.mem_iff.1 hk

theorem IsArgsort.length {α : Type} {le : α → α → Prop} {f : List α → List ℕ} (h : IsArgsort le f)
    (l : List α) : (f l).length = l.length := by
  simpa using (h l).1.length_eq

theorem getD_mem {α : Type} {l : List α} {k : ℕ} (hk : k < l.length) (d : α) : l.getD k d ∈ l := by
  rw [List.getD_eq_getElem?_getD, List.getElem?_eq_getElem hk]
  exact List.getElem_mem hk

theorem keptRows_lt (hv : valid.rshape = s ++ [m]) {k : ℕ} (hk : k ∈ keptRows sv valid) : k < m := by
  unfold keptRows NDArray.rowsAny at hk
  have h1 : (valid.takeAlong0 (valid.argsort0 sv.argsortBool)).rshape = s ++ [m] := hv
  have hn : (valid.takeAlong0 (valid.argsort0 sv.argsortBool)).ndim - 1 = s.length := by
    simp [NDArray.ndim, h1]
  rw [hn, h1, dimAt_append_length] at hk
  simpa using (List.mem_filter.1 hk).1

open Classical in
theorem keptRows_eq (hv : valid.rshape = s ++ [m]) : keptRows sv valid =
    (List.range m).filter fun k => decide (∃ i ∈ positions s,
      valid.get (Function.update i s.length ((sv.argsortBool (valid.column i)).getD k 0)) = true) := by
  unfold keptRows NDArray.rowsAny
  have h1 : (valid.takeAlong0 (valid.argsort0 sv.argsortBool)).rshape = s ++ [m] := hv
  have hn : (valid.takeAlong0 (valid.argsort0 sv.argsortBool)).ndim - 1 = s.length := by
    simp [NDArray.ndim, h1]
  rw [hn, h1, dimAt_append_length]
  refine List.filter_congr fun k hk => ?_
  rw [decide_eq_decide]
  simp only [List.dropLast_concat]
  refine exists_congr fun i => and_congr_right fun _ => ?_
  rw [NDArray.sorted_get hv hv _ i (by simpa using hk)]

variable (hs : sv.Correct) (hr : roots.rshape = s ++ [m]) (hv : valid.rshape = s ++ [m])
include hs hr hv

/-- The entry of the result in row `k` of column `i`. -/
theorem maskRoots_get (i : ℕ → ℕ) :
    ∃ τ : List ℕ, τ.Perm (List.range (keptRows sv valid).length) ∧
      (maskRoots sv roots valid).data.rshape = s ++ [(keptRows sv valid).length] ∧
      (maskRoots sv roots valid).mask.rshape = s ++ [(keptRows sv valid).length] ∧
      (maskRoots sv roots valid).data.column i = τ.map (fun t => roots.get (Function.update i s.length
        ((sv.argsortBool (valid.column i)).getD ((keptRows sv valid).getD t 0) 0))) ∧
      (maskRoots sv roots valid).mask.column i = τ.map (fun t => !valid.get (Function.update i s.length
        ((sv.argsortBool (valid.column i)).getD ((keptRows sv valid).getD t 0) 0))) ∧
      ((maskRoots sv roots valid).data.column i).Pairwise
        (fun x y => fpLe (CplxOps.cabs x) (CplxOps.cabs y)) := by
  set rows := keptRows sv valid with hrows
  set r1 := roots.takeAlong0 (valid.argsort0 sv.argsortBool) with hr1
  set v1 := valid.takeAlong0 (valid.argsort0 sv.argsortBool) with hv1
  have sr1 : r1.rshape = s ++ [m] := hr
  have sv1 : v1.rshape = s ++ [m] := hv
  set r2 := r1.selectRows rows with hr2
  set v2 := v1.selectRows rows with hv2
  have sr2 : r2.rshape = s ++ [rows.length] := NDArray.selectRows_shape sr1 rows
  have sv2 : v2.rshape = s ++ [rows.length] := NDArray.selectRows_shape sv1 rows
  set ab : NDArray (FP ℝ) := r2.map (CplxOps.cabs : FP ℂ → FP ℝ) with hab
  have sab : ab.rshape = s ++ [rows.length] := sr2
  have hM : maskRoots sv roots valid = ⟨r2.takeAlong0 (ab.argsort0 sv.argsortReal),
    (v2.takeAlong0 (ab.argsort0 sv.argsortReal)).map (!·)⟩ := rfl
  have sr3 : (r2.takeAlong0 (ab.argsort0 sv.argsortReal)).rshape = s ++ [rows.length] := sr2
  have sv3 : (v2.takeAlong0 (ab.argsort0 sv.argsortReal)).rshape = s ++ [rows.length] := sv2
  set τ := sv.argsortReal (ab.column i) with hτ
  have hlen : (ab.column i).length = rows.length := NDArray.column_length sab i
  have hτl : τ.length = rows.length := by rw [hτ, hs.real.length, hlen]
  have hτlt : ∀ t ∈ τ, t < rows.length := fun t ht => by
    rw [← hlen]; exact hs.real.lt _ ht
  have g2 : ∀ {α : Type} (A : NDArray α) (hA : A.rshape = s ++ [m]), ∀ t < rows.length,
      ((A.takeAlong0 (valid.argsort0 sv.argsortBool)).selectRows rows).get
        (Function.update i s.length t) = A.get (Function.update i s.length
          ((sv.argsortBool (valid.column i)).getD (rows.getD t 0) 0)) := by
    intro α A hA t ht
    rw [NDArray.selectRows_get (A := A.takeAlong0 (valid.argsort0 sv.argsortBool)) (s := s) (m := m) hA rows i ht,
      NDArray.sorted_get hA hv _ i (keptRows_lt hv (getD_mem ht 0))]
  have hdata : (r2.takeAlong0 (ab.argsort0 sv.argsortReal)).column i = τ.map (fun t =>
      roots.get (Function.update i s.length
        ((sv.argsortBool (valid.column i)).getD (rows.getD t 0) 0))) := by
    rw [NDArray.column_eq sr3, ← hτl, ← map_range_getD τ 0]
    refine List.map_congr_left fun k hk => ?_
    have hk' : k < τ.length := by simpa using hk
    rw [NDArray.sorted_get sr2 sab _ i (by rw [← hτl]; exact hk')]
    exact g2 roots hr _ (hτlt _ (getD_mem hk' 0))
  refine ⟨τ, ?_, sr2, ?_, ?_, ?_, ?_⟩
  · rw [← hlen]; exact (hs.real _).1
  · rw [hM]; exact sv2
  · rw [hM]; exact hdata
  · rw [hM]
    simp only
    rw [NDArray.map_column, NDArray.column_eq sv3, ← hτl, List.map_map, ← map_range_getD τ 0]
    refine List.map_congr_left fun k hk => ?_
    have hk' : k < τ.length := by simpa using hk
    simp only [Function.comp]
    rw [NDArray.sorted_get sv2 sab _ i (by rw [← hτl]; exact hk')]
    rw [g2 valid hv _ (hτlt _ (getD_mem hk' 0))]
  · rw [hM]
    simp only
    rw [hdata]
    have := (hs.real (ab.column i)).2
    rw [← hτ] at this
    have e : (τ.filterMap fun k => (ab.column i)[k]?) = τ.map (fun t => CplxOps.cabs (roots.get
        (Function.update i s.length ((sv.argsortBool (valid.column i)).getD (rows.getD t 0) 0)))) := by
      rw [← List.filterMap_eq_map]
      refine List.filterMap_congr fun t ht => ?_
      rw [NDArray.column_getElem? sab i (hτlt t ht), hab, NDArray.map_get]
      simp only [Function.comp]
      rw [g2 roots hr t (hτlt t ht)]
    rw [e, List.pairwise_map] at this
    rw [List.pairwise_map]
    exact this

end

theorem filterMap_map_filter {α β γ : Type} (l : List α) (q : α → Bool) (W : α → β)
    (g : β → Option γ) (h : ∀ a ∈ l, q a = false → g (W a) = none) :
    ((l.filter q).map W).filterMap g = (l.map W).filterMap g := by
  induction l with
  | nil => rfl
  | cons a l ih =>
    have ih' := ih fun b hb => h b (by simp [hb])
    cases hq : q a with
    | true =>
      rw [List.filter_cons_of_pos (by simpa using hq)]
      simp only [List.map_cons, List.filterMap_cons, ih']
    | false =>
      rw [List.filter_cons_of_neg (by simp [hq]), List.map_cons, List.filterMap_cons,
        h a (by simp) hq]
      exact ih'

section
variable {sv : Solver} {roots : NDArray (FP ℂ)} {valid : NDArray Bool} {s : List ℕ} {m : ℕ}
variable (hs : sv.Correct) (hr : roots.rshape = s ++ [m]) (hv : valid.rshape = s ++ [m])
include hs hr hv

/-- The unmasked entries of a column are its valid roots. -/
theorem unmasked_perm {i : ℕ → ℕ} (hi : InBounds s i) :
    ((maskRoots sv roots valid).unmasked i).Perm
      (((roots.column i).zip (valid.column i)).filterMap fun e => if e.2 then some e.1 else none) := by
  obtain ⟨τ, hτ, _, _, hd, hm, _⟩ := maskRoots_get hs hr hv i
  set rows := keptRows sv valid with hrows
  set σ := sv.argsortBool (valid.column i) with hσ
  have hσp : σ.Perm (List.range m) := by
    have := (hs.bool (valid.column i)).1
    rwa [NDArray.column_length hv] at this
  have hσl : σ.length = m := by simpa using hσp.length_eq
  let RV : ℕ → FP ℂ × Bool := fun t =>
    (roots.get (Function.update i s.length t), valid.get (Function.update i s.length t))
  let g : FP ℂ × Bool → Option (FP ℂ) := fun e => if e.2 then some e.1 else none
  have e1 : (maskRoots sv roots valid).unmasked i =
      ((τ.map fun t => RV (σ.getD (rows.getD t 0) 0)).filterMap g) := by
    unfold Masked.unmasked
    rw [hd, hm, zip_map_same]
    rw [List.filterMap_map, List.filterMap_map]
    refine List.filterMap_congr fun t _ => ?_
    simp only [Function.comp, g, RV]
    cases valid.get (Function.update i s.length (σ.getD (rows.getD t 0) 0)) <;> rfl
  have e2 : ((roots.column i).zip (valid.column i)) = (List.range m).map RV := by
    rw [NDArray.column_eq hr, NDArray.column_eq hv, zip_map_same]
  rw [e1, e2]
  have p1 : (τ.map fun t => RV (σ.getD (rows.getD t 0) 0)).Perm (rows.map fun t => RV (σ.getD t 0)) := by
    have := hτ.map fun t => RV (σ.getD (rows.getD t 0) 0)
    rwa [map_range_getD rows 0 fun t => RV (σ.getD t 0)] at this
  have e3 : (rows.map fun t => RV (σ.getD t 0)).filterMap g =
      ((List.range m).map fun t => RV (σ.getD t 0)).filterMap g := by
    rw [hrows, keptRows_eq hv]
    refine filterMap_map_filter _ _ _ _ fun t _ hq => ?_
    simp only [decide_eq_false_iff_not, not_exists, not_and] at hq
    have hcol : valid.column (canon s i) = valid.column i :=
      NDArray.column_congr hv (canon_canon s i)
    have := hq _ (canon_mem_positions hi)
    rw [hcol, NDArray.get_congr (j := Function.update i s.length (σ.getD t 0))
      (by rw [hv]; exact NDArray.canon_snoc_congr (canon_canon s i) _)] at this
    simp only [g, RV]
    rw [if_neg this]
  have e4 : ((List.range m).map fun t => RV (σ.getD t 0)) = σ.map RV := by
    rw [← hσl]; exact map_range_getD σ 0 RV
  refine (p1.filterMap g).trans ?_
  rw [e3, e4]
  exact (hσp.map RV).filterMap g

/-- Some column has no masked entry. -/
theorem exists_full_column (h0 : InBounds s fun _ => 0) :
    ∃ i, InBounds s i ∧ ((maskRoots sv roots valid).unmasked i).length = (keptRows sv valid).length := by
  classical
  have full : ∀ i, (∀ t ∈ keptRows sv valid, valid.get (Function.update i s.length
      ((sv.argsortBool (valid.column i)).getD t 0)) = true) →
      ((maskRoots sv roots valid).unmasked i).length = (keptRows sv valid).length := by
    intro i hall
    obtain ⟨τ, hτ, _, _, hd, hm, _⟩ := maskRoots_get hs hr hv i
    have hτl : τ.length = (keptRows sv valid).length := by simpa using hτ.length_eq
    unfold Masked.unmasked
    rw [hd, hm, zip_map_same, List.filterMap_map]
    have : (τ.filterMap ((fun e : FP ℂ × Bool => if e.2 then none else some e.1) ∘ fun t =>
        (roots.get (Function.update i s.length ((sv.argsortBool (valid.column i)).getD
          ((keptRows sv valid).getD t 0) 0)), !valid.get (Function.update i s.length
            ((sv.argsortBool (valid.column i)).getD ((keptRows sv valid).getD t 0) 0))))) =
        τ.filterMap (some ∘ fun t => roots.get (Function.update i s.length
          ((sv.argsortBool (valid.column i)).getD ((keptRows sv valid).getD t 0) 0))) := by
      refine List.filterMap_congr fun t ht => ?_
      have hlt : t < (keptRows sv valid).length := by simpa using hτ.mem_iff.1 ht
      have hv' := hall _ (getD_mem hlt 0)
      simp only [Function.comp, hv']
      rfl
    rw [this, List.filterMap_eq_map, List.length_map, hτl]
  cases hk : keptRows sv valid with
  | nil =>
    refine ⟨_, h0, ?_⟩
    have := full (fun _ => 0) (by rw [hk]; simp)
    rwa [hk] at this
  | cons t0 rest =>
    have hmem : t0 ∈ keptRows sv valid := by rw [hk]; simp
    have hsorted : ∀ t ∈ keptRows sv valid, t0 ≤ t := by
      have hp : (keptRows sv valid).Pairwise (· < ·) := by
        rw [keptRows_eq hv]
        exact List.pairwise_lt_range.filter _
      intro t ht
      rw [hk] at ht hp
      rcases List.mem_cons.1 ht with rfl | ht
      · exact le_rfl
      · exact ((List.pairwise_cons.1 hp).1 t ht).le
    have hq := hmem
    rw [keptRows_eq hv, List.mem_filter, decide_eq_true_iff] at hq
    obtain ⟨_, i, hi, hval⟩ := hq
    refine ⟨i, (dimAt_positions hi).1, ?_⟩
    rw [← hk]
    refine full i fun t ht => ?_
    have htm := keptRows_lt hv ht
    have ht0m := keptRows_lt hv hmem
    rcases (hsorted t ht).eq_or_lt with rfl | hlt
    · exact hval
    set σ := sv.argsortBool (valid.column i) with hσ
    have hcl : (valid.column i).length = m := NDArray.column_length hv i
    have hσl : σ.length = m := by rw [hσ, hs.bool.length, hcl]
    have hpw := (hs.bool (valid.column i)).2
    rw [← hσ] at hpw
    have e : (σ.filterMap fun k => (valid.column i)[k]?) =
        σ.map fun k => valid.get (Function.update i s.length k) := by
      rw [← List.filterMap_eq_map]
      refine List.filterMap_congr fun k hk' => ?_
      rw [NDArray.column_getElem? hv i (by rw [← hcl]; exact hs.bool.lt _ hk')]
      rfl
    rw [e, List.pairwise_map, List.pairwise_iff_getElem] at hpw
    have := hpw t0 t (by omega) (by omega) hlt
    have c0 : σ.getD t0 0 = σ[t0]'(by omega) := by
      rw [List.getD_eq_getElem?_getD, List.getElem?_eq_getElem (by omega)]; rfl
    have c1 : σ.getD t 0 = σ[t]'(by omega) := by
      rw [List.getD_eq_getElem?_getD, List.getElem?_eq_getElem (by omega)]; rfl
    rw [c0] at hval
    rw [c1]
    exact this hval

end

end Snompy
