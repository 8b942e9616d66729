import Verif.Spec.SampleObj
import Verif.Spec.ArrSample
import Verif.Lemmas.Broadcast
import Verif.Lemmas.Den
import Verif.Lemmas.Column
import Verif.Lemmas.Inversion

/-!
# Lemmas about `Sample` objects
-/

namespace Snompy

variable {α : Type}

theorem broadcastShapes_eq (ss : List (List ℕ)) : broadcastShapes ss = joinAll (ss.map some) := by
  induction ss with
  | nil => rfl
  | cons s ss ih =>
    simp only [broadcastShapes, ih, List.map_cons, joinAll]
    cases joinAll (ss.map some) <;> rfl

theorem le_of_broadcastShapes {ss : List (List ℕ)} {u : List ℕ} (h : broadcastShapes ss = some u)
    {s : List ℕ} (hs : s ∈ ss) : some s ≤ᵇ some u := by
  rw [broadcastShapes_eq] at h
  rw [← h]
  induction ss generalizing u with
  | nil => simp at hs
  | cons t ss ih =>
    rw [List.map_cons, joinAll]
    rcases List.mem_cons.1 hs with rfl | hs
    · exact Shape.le_join_left _ _
    · cases hj : joinAll (ss.map some) with
      | none => rw [List.map_cons, joinAll, hj] at h; simp [Shape.join] at h
      | some v =>
        rw [← hj]
        exact Shape.le_trans (ih hj hs) (Shape.le_join_right _ _)

theorem broadcastShapes_same {ss : List (List ℕ)} {s : List ℕ} (h : ∀ t ∈ ss, t = s)
    (hne : ss = [] → s = []) : broadcastShapes ss = some s := by
  induction ss with
  | nil => rw [hne rfl]; rfl
  | cons t ss ih =>
    obtain rfl := h t (by simp)
    by_cases hss : ss = []
    · subst hss
      simp [broadcastShapes, bshape_comm t []]
    · have := ih (fun u hu => h u (by simp [hu])) (fun h => absurd h hss)
      simp [broadcastShapes, this, bshape_self]

theorem NDArray.broadcastTo_get {A : NDArray α} {s : List ℕ} (h : some A.rshape ≤ᵇ some s) (i : ℕ → ℕ) :
    (A.broadcastTo s).get i = A.get i := by
  show A.data (canon A.rshape (canon s i)) = _
  rw [canon_canon_of_le h]
  rfl

theorem NDArray.mk_get (s : List ℕ) (f : (ℕ → ℕ) → α) (i : ℕ → ℕ) :
    (⟨s, f⟩ : NDArray α).get i = f (canon s i) := rfl

theorem SameArr.refl (A : NDArray α) : SameArr A A := ⟨rfl, fun _ => rfl⟩

open SampleObj

theorem unpackStack_ok {v : StackVal α} {l : List (NDArray α)} (h : unpackStack v = .ok l) :
    ∃ l₀ s, v = .items l₀ ∧ broadcastShapes (l₀.map (·.rshape)) = some s ∧
      l = l₀.map (NDArray.broadcastTo s) := by
  cases v with
  | notIterable => simp [unpackStack] at h
  | items l₀ =>
    simp only [unpackStack] at h
    cases hb : broadcastShapes (l₀.map (·.rshape)) with
    | none => rw [hb] at h; cases h
    | some s => rw [hb] at h; exact ⟨l₀, s, rfl, hb, (Except.ok.inj h).symm⟩

theorem unpackStack_uniform {v : StackVal α} {l : List (NDArray α)} (h : unpackStack v = .ok l) :
    ∃ s, Uniform l s := by
  obtain ⟨l₀, s, rfl, hs, rfl⟩ := unpackStack_ok h
  refine ⟨s, fun A hA => ?_, fun h => ?_⟩
  · obtain ⟨B, _, rfl⟩ := List.mem_map.1 hA
    rfl
  · rw [List.map_eq_nil_iff] at h
    subst h
    simpa [broadcastShapes] using hs.symm

/-- The values do not change. -/
theorem unpackStack_get {l₀ l : List (NDArray α)} (h : unpackStack (.items l₀) = .ok l) (i : ℕ → ℕ) :
    l.map (·.get i) = l₀.map (·.get i) := by
  obtain ⟨l₁, s, hl, hs, rfl⟩ := unpackStack_ok h
  cases hl
  rw [List.map_map]
  refine List.map_congr_left fun A hA => ?_
  exact NDArray.broadcastTo_get (le_of_broadcastShapes hs (List.mem_map_of_mem hA)) i

/-- Layers that have a common shape are not changed. -/
theorem unpackStack_of_uniform {l : List (NDArray α)} {s : List ℕ} (h : Uniform l s) :
    ∃ l', unpackStack (.items l) = .ok l' ∧ Uniform l' s ∧ l'.length = l.length ∧
      List.Forall₂ SameArr l' l ∧ ∀ i, l'.map (·.get i) = l.map (·.get i) := by
  have hb : broadcastShapes (l.map (·.rshape)) = some s := by
    refine broadcastShapes_same (fun t ht => ?_) fun hn => h.2 (List.map_eq_nil_iff.1 hn)
    obtain ⟨A, hA, rfl⟩ := List.mem_map.1 ht
    exact h.1 A hA
  have hu : unpackStack (.items l) = .ok (l.map (NDArray.broadcastTo s)) := by
    simp only [unpackStack, hb]
  refine ⟨_, hu, ⟨fun A hA => ?_, fun hn => h.2 (List.map_eq_nil_iff.1 hn)⟩, by simp, ?_,
    unpackStack_get hu⟩
  · obtain ⟨B, _, rfl⟩ := List.mem_map.1 hA
    rfl
  · rw [List.forall₂_map_left_iff]
    refine List.forall₂_same.2 fun A hA => ⟨(h.1 A hA).symm, fun i => ?_⟩
    exact NDArray.broadcastTo_get (by rw [h.1 A hA]; exact Shape.le_refl _) i

/-! ### Assignments -/

namespace SampleObj

/-- What is stored by construction and assignments, whether they raise or not. -/
structure Inv (o : SampleObj) : Prop where
  eps : ∃ l s, o.eps = some l ∧ Uniform l s
  t : ∃ l s, o.t = some l ∧ Uniform l s

theorem checkLayersValid_ok {o : SampleObj} {eps t} (he : o.eps = some eps) (ht : o.t = some t) :
    o.checkLayersValid = .ok () ↔ eps.length = t.length + 2 := by
  unfold checkLayersValid
  rw [he, ht]
  by_cases h : eps.length = t.length + 2 <;> simp [h]

theorem checkLayersValid_error {o : SampleObj} {e} (h : o.checkLayersValid = .error e) :
    e = .valueError layersMsg ∧ ∃ eps t, o.eps = some eps ∧ o.t = some t ∧ eps.length ≠ t.length + 2 := by
  unfold checkLayersValid at h
  split at h
  · rename_i t eps ht he
    split_ifs at h with hl
    · cases h
      exact ⟨rfl, eps, t, he, ht, hl⟩
  · cases h

/-- The outcomes of the setter of `t_stack`. -/
theorem setT_cases (o : SampleObj) (v : Option (StackVal (FP ℝ))) :
    (∃ e, o.setT v = (o, .error e)) ∨ ∃ l s, Uniform l s ∧
      o.setT v = ({ o with t := some l }, checkLayersValid { o with t := some l }) := by
  cases v with
  | none => exact .inr ⟨[], [], ⟨by simp, fun _ => rfl⟩, rfl⟩
  | some v =>
    cases h : unpackStack v with
    | error e => exact .inl ⟨e, by simp only [setT, h]⟩
    | ok l =>
      obtain ⟨s, hs⟩ := unpackStack_uniform h
      exact .inr ⟨l, s, hs, by simp only [setT, h]⟩

theorem setEps_cases (o : SampleObj) (v : StackVal (FP ℂ)) :
    (∃ e, o.setEps v = (o, .error e)) ∨ ∃ l s, Uniform l s ∧
      o.setEps v = ({ o with eps := some l }, checkLayersValid { o with eps := some l }) := by
  cases h : unpackStack v with
  | error e => exact .inl ⟨e, by simp only [setEps, h]⟩
  | ok l =>
    obtain ⟨s, hs⟩ := unpackStack_uniform h
    exact .inr ⟨l, s, hs, by simp only [setEps, h]⟩

theorem setBeta_cases (o : SampleObj) (v : StackVal (FP ℂ)) :
    (∃ e, o.setBeta v = (o, .error e)) ∨ ∃ w, o.setBeta v = o.setEps w := by
  unfold setBeta
  split
  · exact .inl ⟨_, rfl⟩
  · split
    · exact .inl ⟨_, rfl⟩
    · split
      · exact .inl ⟨_, rfl⟩
      · exact .inr ⟨_, rfl⟩

theorem setBeta_cases' (o : SampleObj) (v : StackVal (FP ℂ)) :
    (∃ e, o.setBeta v = (o, .error e)) ∨ ∃ l s, Uniform l s ∧
      o.setBeta v = ({ o with eps := some l }, checkLayersValid { o with eps := some l }) := by
  rcases setBeta_cases o v with h | ⟨w, h⟩
  · exact .inl h
  · rw [h]
    exact setEps_cases o w

theorem run_inv {o : SampleObj} (h : o.Inv) (op : Op) : (op.run o).1.Inv := by
  cases op with
  | t v =>
    rcases setT_cases o v with ⟨e, he⟩ | ⟨l, s, hs, he⟩
    · rw [Op.run, he]; exact h
    · rw [Op.run, he]; exact ⟨h.eps, l, s, rfl, hs⟩
  | eps v =>
    rcases setEps_cases o v with ⟨e, he⟩ | ⟨l, s, hs, he⟩
    · rw [Op.run, he]; exact h
    · rw [Op.run, he]; exact ⟨⟨l, s, rfl, hs⟩, h.t⟩
  | beta v =>
    rcases setBeta_cases' o v with ⟨e, he⟩ | ⟨l, s, hs, he⟩
    · rw [Op.run, he]; exact h
    · rw [Op.run, he]; exact ⟨⟨l, s, rfl, hs⟩, h.t⟩
  | nuVac v => exact ⟨h.eps, h.t⟩

theorem runCaught_inv {o : SampleObj} (h : o.Inv) (ops : List Op) : (o.runCaught ops).Inv := by
  induction ops generalizing o with
  | nil => exact h
  | cons op ops ih => exact ih (run_inv h op)

theorem raised_ok {r : SampleObj × PyM Unit} {o : SampleObj} (h : raised r = .ok o) :
    r.1 = o ∧ r.2 = .ok () := by
  obtain ⟨o', x⟩ := r
  cases x with
  | error e => cases h
  | ok u => exact ⟨Except.ok.inj h, rfl⟩

theorem raised_pair_ok (o : SampleObj) : raised (o, .ok ()) = .ok o := rfl

/-- What a successful construction does. -/
theorem init_ok {d : Defaults} {a : Args} {o : SampleObj} (h : init d a = .ok o) :
    ∃ o₀ o₁ : SampleObj, o₀ = ⟨none, none, a.epsEnv.getD (NDArray.scalar (FP.num d.epsEnv)), none⟩ ∧
      o₀.setT a.t = (o₁, .ok ()) ∧ ∃ o₂, o = { o₂ with nuVac := a.nuVac } ∧
        ((∃ v, a.eps = some v ∧ a.beta = none ∧ o₁.setEps v = (o₂, .ok ())) ∨
          ∃ v, a.eps = none ∧ a.beta = some v ∧ o₁.setBeta v = (o₂, .ok ())) := by
  unfold init at h
  split_ifs at h with hx
  simp only at h
  set o₀ : SampleObj := ⟨none, none, a.epsEnv.getD (NDArray.scalar (FP.num d.epsEnv)), none⟩ with ho₀
  cases h1 : raised (o₀.setT a.t) with
  | error e => rw [h1] at h; cases h
  | ok o₁ =>
    rw [h1] at h
    simp only [PyM.ok_bind] at h
    obtain ⟨h11, h12⟩ := raised_ok h1
    refine ⟨o₀, o₁, rfl, Prod.ext h11 h12, ?_⟩
    cases he : a.eps with
    | some v =>
      cases hb : a.beta with
      | some w => rw [he, hb] at hx; simp at hx
      | none =>
        rw [he, hb] at h
        simp only at h
        cases h2 : raised (o₁.setEps v) with
        | error e => rw [h2] at h; cases h
        | ok o₂ =>
          rw [h2] at h
          obtain ⟨h21, h22⟩ := raised_ok h2
          exact ⟨o₂, (Except.ok.inj h).symm, .inl ⟨v, rfl, rfl, Prod.ext h21 h22⟩⟩
    | none =>
      cases hb : a.beta with
      | none => rw [he, hb] at hx; simp at hx
      | some v =>
        rw [he, hb] at h
        simp only at h
        cases h2 : raised (o₁.setBeta v) with
        | error e => rw [h2] at h; cases h
        | ok o₂ =>
          rw [h2] at h
          obtain ⟨h21, h22⟩ := raised_ok h2
          exact ⟨o₂, (Except.ok.inj h).symm, .inr ⟨v, rfl, rfl, Prod.ext h21 h22⟩⟩

/-- After a successful assignment to one of the stacks the layer counts fit. -/
theorem valid_of_check {o : SampleObj} (h : o.Inv) (hc : o.checkLayersValid = .ok ()) : o.Valid := by
  obtain ⟨eps, _, he, _⟩ := h.eps
  obtain ⟨t, _, ht, _⟩ := h.t
  exact ⟨eps, t, he, ht, (checkLayersValid_ok he ht).1 hc⟩

theorem init_inv {d : Defaults} {a : Args} {o : SampleObj} (h : init d a = .ok o) : o.Inv ∧ o.Valid := by
  obtain ⟨o₀, o₁, ho₀, h1, o₂, rfl, h2⟩ := init_ok h
  have ht : ∃ l s, o₁.t = some l ∧ Uniform l s := by
    rcases setT_cases o₀ a.t with ⟨e, he⟩ | ⟨l, s, hs, he⟩
    · rw [he] at h1; cases h1
    · rw [he] at h1
      obtain ⟨rfl, _⟩ := Prod.ext_iff.1 h1
      exact ⟨l, s, rfl, hs⟩
  have key : ∀ l s, Uniform l s →
      ({ o₁ with eps := some l }, checkLayersValid { o₁ with eps := some l }) = (o₂, .ok ()) →
      o₂.Inv ∧ o₂.checkLayersValid = .ok () := by
    intro l s hs he
    obtain ⟨rfl, hc⟩ := Prod.ext_iff.1 he
    exact ⟨⟨⟨l, s, rfl, hs⟩, ht⟩, hc⟩
  have hi : o₂.Inv ∧ o₂.checkLayersValid = .ok () := by
    rcases h2 with ⟨v, _, _, h2⟩ | ⟨v, _, _, h2⟩
    · rcases setEps_cases o₁ v with ⟨e, he⟩ | ⟨l, s, hs, he⟩
      · rw [he] at h2; cases h2
      · exact key l s hs (he.symm.trans h2)
    · rcases setBeta_cases' o₁ v with ⟨e, he⟩ | ⟨l, s, hs, he⟩
      · rw [he] at h2; cases h2
      · exact key l s hs (he.symm.trans h2)
  obtain ⟨hi, hc⟩ := hi
  obtain ⟨eps, t, h3, h4, h5⟩ := valid_of_check hi hc
  exact ⟨⟨hi.eps, hi.t⟩, eps, t, h3, h4, h5⟩

theorem run_valid {o o' : SampleObj} (h : o.Inv) (hv : o.Valid) {op : Op}
    (hr : op.run o = (o', .ok ())) : o'.Valid := by
  have hi := run_inv h op
  rw [hr] at hi
  cases op with
  | t v =>
    rcases setT_cases o v with ⟨e, he⟩ | ⟨l, s, hs, he⟩
    · rw [Op.run, he] at hr; cases hr
    · rw [Op.run, he] at hr
      obtain ⟨rfl, hc⟩ := Prod.ext_iff.1 hr
      exact valid_of_check hi hc
  | eps v =>
    rcases setEps_cases o v with ⟨e, he⟩ | ⟨l, s, hs, he⟩
    · rw [Op.run, he] at hr; cases hr
    · rw [Op.run, he] at hr
      obtain ⟨rfl, hc⟩ := Prod.ext_iff.1 hr
      exact valid_of_check hi hc
  | beta v =>
    rcases setBeta_cases' o v with ⟨e, he⟩ | ⟨l, s, hs, he⟩
    · rw [Op.run, he] at hr; cases hr
    · rw [Op.run, he] at hr
      obtain ⟨rfl, hc⟩ := Prod.ext_iff.1 hr
      exact valid_of_check hi hc
  | nuVac v =>
    obtain ⟨rfl, _⟩ := Prod.ext_iff.1 hr
    exact hv

theorem runAll_valid {o o' : SampleObj} (h : o.Inv) (hv : o.Valid) {ops : List Op}
    (hr : o.runAll ops = .ok o') : o'.Inv ∧ o'.Valid := by
  induction ops generalizing o with
  | nil => cases hr; exact ⟨h, hv⟩
  | cons op ops ih =>
    unfold runAll at hr
    cases h1 : raised (op.run o) with
    | error e => rw [h1] at hr; cases hr
    | ok o₁ =>
      rw [h1] at hr
      obtain ⟨h2, h3⟩ := raised_ok h1
      refine ih (h2 ▸ run_inv h op) (run_valid h hv (Prod.ext h2 h3)) hr

/-! ### `beta_stack` -/

/-- Running products of numbers. -/
noncomputable def prods (e : ℂ) : List ℂ → List ℂ
  | [] => [e]
  | b :: bs => e :: prods (e * ((1 + b) / (1 - b))) bs

theorem NDArray.mulEq_get {A B : NDArray (FP ℂ)} (h : A.rshape = B.rshape) (i : ℕ → ℕ) :
    (A.mulEq B).get i = A.get i * B.get i := by
  show A.get (canon A.rshape i) * B.get (canon A.rshape i) = _
  congr 1
  · exact congrArg A.data (canon_canon _ _)
  · rw [h]
    exact congrArg B.data (canon_canon _ _)

theorem cumprodFrom_uniform {s : List ℕ} {acc : NDArray (FP ℂ)} (ha : acc.rshape = s)
    (l : List (NDArray (FP ℂ))) : ∀ A ∈ cumprodFrom acc l, A.rshape = s := by
  induction l generalizing acc with
  | nil => simp [cumprodFrom]
  | cons r rs ih =>
    intro A hA
    rcases List.mem_cons.1 hA with rfl | hA
    · exact ha
    · exact ih (acc := acc.mulEq r) ha A hA

theorem cumprodFrom_length (acc : NDArray (FP ℂ)) (l : List (NDArray (FP ℂ))) :
    (cumprodFrom acc l).length = l.length := by
  induction l generalizing acc with
  | nil => rfl
  | cons r rs ih => simp [cumprodFrom, ih]

theorem permitivitty_num {b : ℂ} (h : b ≠ 1) :
    (permitivitty (FP.num b) : FP ℂ) = FP.num ((1 + b) / (1 - b)) := by
  have h' : (1 : ℂ) - b ≠ 0 := sub_ne_zero.2 (Ne.symm h)
  show (FP.num 1 * (FP.num 1 + FP.num b) / (FP.num 1 - FP.num b) : FP ℂ) = _
  simp only [FP.num_add, FP.num_sub, FP.num_mul, one_mul, FP.num_div _ h']

theorem cumprodFrom_get {s : List ℕ} {acc : NDArray (FP ℂ)} (ha : acc.rshape = s)
    {l : List (NDArray (FP ℂ))} (hl : ∀ A ∈ l, A.rshape = s) (i : ℕ → ℕ) {e : ℂ}
    (he : acc.get i = FP.num e) {bs : List ℂ} (hb : l.map (·.get i) = bs.map FP.num)
    (h1 : ∀ b ∈ bs, b ≠ 1) :
    acc.get i :: (cumprodFrom acc (l.map fun b => b.map fun x => permitivitty x)).map (·.get i) =
      (prods e bs).map FP.num := by
  induction l generalizing acc e bs with
  | nil =>
    cases bs with
    | nil => simp [cumprodFrom, prods, he]
    | cons b bs => simp at hb
  | cons r rs ih =>
    cases bs with
    | nil => simp at hb
    | cons b bs =>
      simp only [List.map_cons, List.cons.injEq] at hb
      have hr : r.rshape = s := hl r (by simp)
      have hg : (acc.mulEq (r.map fun x => permitivitty x)).get i =
          FP.num (e * ((1 + b) / (1 - b))) := by
        rw [NDArray.mulEq_get (by rw [ha, ← hr]; rfl), NDArray.map_get, he, hb.1,
          permitivitty_num (h1 b (by simp)), FP.num_mul]
      have := ih (acc := acc.mulEq (r.map fun x => permitivitty x)) ha
        (fun A hA => hl A (by simp [hA])) hg hb.2 (fun c hc => h1 c (by simp [hc]))
      simp only [List.map_cons, cumprodFrom, prods, List.cons.injEq]
      exact ⟨he, this⟩

theorem epsFromBeta_shape {beta : List (NDArray (FP ℂ))} {s : List ℕ} (h : Uniform beta s) :
    (epsFromBeta beta).1 = s ∧ (∀ A ∈ (epsFromBeta beta).2, A.rshape = s) ∧
      (epsFromBeta beta).2.length = beta.length + 1 := by
  cases beta with
  | nil =>
    rw [h.2 rfl]
    exact ⟨rfl, by simp [epsFromBeta, cumprod], rfl⟩
  | cons b bs =>
    have hb : b.rshape = s := h.1 b (by simp)
    refine ⟨hb, fun A hA => ?_, ?_⟩
    · simp only [epsFromBeta, List.map_cons, cumprod, List.mem_cons] at hA
      rcases hA with rfl | rfl | hA
      · exact hb
      · exact hb
      · exact cumprodFrom_uniform (s := s) (by rw [← hb]; rfl) _ A hA
    · simp [epsFromBeta, cumprod, cumprodFrom_length]

theorem epsFromBeta_get {beta : List (NDArray (FP ℂ))} {s : List ℕ} (h : Uniform beta s) (i : ℕ → ℕ)
    {bs : List ℂ} (hb : beta.map (·.get i) = bs.map FP.num) (h1 : ∀ b ∈ bs, b ≠ 1) :
    (epsFromBeta beta).2.map (·.get i) = (prods 1 bs).map FP.num := by
  cases beta with
  | nil =>
    cases bs with
    | nil => rfl
    | cons b bs => simp at hb
  | cons b beta =>
    cases bs with
    | nil => simp at hb
    | cons c bs =>
      simp only [List.map_cons, List.cons.injEq] at hb
      have hs : b.rshape = s := h.1 b (by simp)
      have hg : (b.map fun x => permitivitty x).get i = FP.num ((1 + c) / (1 - c)) := by
        rw [NDArray.map_get, hb.1, permitivitty_num (h1 c (by simp))]
      have := cumprodFrom_get (s := s) (acc := b.map fun x => permitivitty x) (by rw [← hs]; rfl)
        (l := beta) (fun A hA => h.1 A (by simp [hA])) i hg hb.2 fun c hc => h1 c (by simp [hc])
      simp only [epsFromBeta, List.map_cons, cumprod, prods, one_mul, List.cons.injEq]
      exact ⟨rfl, this⟩

theorem permitivitty_inv {x : FP ℂ} {v : ℂ} (h : (permitivitty x : FP ℂ) = FP.num v) :
    ∃ b : ℂ, b ≠ 1 ∧ x = FP.num b := by
  cases x with
  | nan => cases h
  | num b =>
    refine ⟨b, fun hb => ?_, rfl⟩
    subst hb
    have : (permitivitty (FP.num (1 : ℂ)) : FP ℂ) = FP.nan := by
      show (FP.num 1 * (FP.num 1 + FP.num 1) / (FP.num 1 - FP.num 1) : FP ℂ) = _
      rw [FP.num_sub, FP.num_add, FP.num_mul, sub_self]
      exact FP.num_div_zero _
    rw [this] at h
    cases h

/-- Running products are finite only if no factor is infinite. -/
theorem cumprodFrom_inv {s : List ℕ} {acc : NDArray (FP ℂ)} (ha : acc.rshape = s)
    {l : List (NDArray (FP ℂ))} (hl : ∀ A ∈ l, A.rshape = s) (i : ℕ → ℕ) {es : List ℂ}
    (h : (cumprodFrom acc (l.map fun b => b.map fun x => permitivitty x)).map (·.get i) = es.map FP.num) :
    ∃ bs : List ℂ, (∀ b ∈ bs, b ≠ 1) ∧ l.map (·.get i) = bs.map FP.num := by
  induction l generalizing acc es with
  | nil => exact ⟨[], by simp, rfl⟩
  | cons r rs ih =>
    cases es with
    | nil => simp [cumprodFrom] at h
    | cons e es =>
      simp only [List.map_cons, cumprodFrom, List.cons.injEq] at h
      have hr : r.rshape = s := hl r (by simp)
      rw [NDArray.mulEq_get (by rw [ha, ← hr]; rfl), NDArray.map_get] at h
      obtain ⟨y, hy⟩ : ∃ y, (permitivitty (r.get i) : FP ℂ) = FP.num y := by
        have h1 := h.1
        cases hp : (permitivitty (r.get i) : FP ℂ) with
        | num y => exact ⟨y, rfl⟩
        | nan =>
          rw [hp] at h1
          cases hacc : acc.get i <;> rw [hacc] at h1 <;> cases h1
      obtain ⟨b, hb, hb'⟩ := permitivitty_inv hy
      obtain ⟨bs, h2, h3⟩ := ih (acc := acc.mulEq (r.map fun x => permitivitty x)) ha
        (fun A hA => hl A (by simp [hA])) h.2
      exact ⟨b :: bs, by simpa using ⟨hb, h2⟩, by simp [hb', h3]⟩

theorem epsFromBeta_inv {beta : List (NDArray (FP ℂ))} {s : List ℕ} (h : Uniform beta s) (i : ℕ → ℕ)
    {es : List ℂ} (he : (epsFromBeta beta).2.map (·.get i) = es.map FP.num) :
    ∃ bs : List ℂ, (∀ b ∈ bs, b ≠ 1) ∧ beta.map (·.get i) = bs.map FP.num := by
  cases beta with
  | nil => exact ⟨[], by simp, rfl⟩
  | cons b beta =>
    cases es with
    | nil => simp [epsFromBeta] at he
    | cons e es =>
      cases es with
      | nil => simp [epsFromBeta, cumprod] at he
      | cons f es =>
        simp only [epsFromBeta, List.map_cons, cumprod, List.cons.injEq] at he
        rw [NDArray.map_get] at he
        obtain ⟨c, hc, hc'⟩ := permitivitty_inv he.2.1
        have hs : b.rshape = s := h.1 b (by simp)
        obtain ⟨bs, h2, h3⟩ := cumprodFrom_inv (s := s) (acc := b.map fun x => permitivitty x) (by rw [← hs]; rfl)
          (l := beta) (fun A hA => h.1 A (by simp [hA])) i he.2.2
        exact ⟨c :: bs, by simpa using ⟨hc, h2⟩, by simp [hc', h3]⟩

/-- The first layer before the multiplication with the environment. -/
theorem epsFromBeta_head (beta : List (NDArray (FP ℂ))) :
    ∃ A l, (epsFromBeta beta).2 = A :: l ∧ ∀ i, A.get i = FP.num 1 :=
  ⟨_, _, rfl, fun _ => rfl⟩

/-- `eps_stack *= eps_env` when the environment broadcasts into the stack. -/
theorem imulEnv_ok {s : List ℕ} {eps : List (NDArray (FP ℂ))} (h : ∀ A ∈ eps, A.rshape = s)
    {env : NDArray (FP ℂ)}
    (hb : bshape (s ++ [eps.length]) env.rshape = some (s ++ [eps.length])) :
    ∃ l, imulEnv s eps env = .ok l ∧ (∀ A ∈ l, A.rshape = s) ∧ l.length = eps.length ∧
      ∀ i, l.map (·.get i) =
        eps.mapIdx fun k e => e.get i * env.get (Function.update i s.length k) := by
  refine ⟨_, if_pos hb, fun A hA => ?_, by simp, fun i => ?_⟩
  · obtain ⟨k, hk, rfl⟩ := List.mem_mapIdx.1 hA
    rfl
  · refine List.ext_getElem (by simp) fun k h1 h2 => ?_
    have hk : k < eps.length := by simpa using h2
    simp only [List.getElem_map, List.getElem_mapIdx]
    rw [NDArray.mk_get]
    have he : eps[k].rshape = s := h _ (List.getElem_mem hk)
    congr 1
    · refine NDArray.get_congr ?_
      rw [he, canon_canon]
    · refine NDArray.get_congr (canon_congr_of_le (u := s ++ [eps.length]) ?_ ?_)
      · show bshape _ _ = _
        rw [bshape_comm, hb]
      · exact NDArray.canon_snoc_congr (canon_canon _ _) k

/-- The setter of `beta_stack`, when the value unpacks. -/
theorem setBeta_eq {o : SampleObj} {v : StackVal (FP ℂ)} {beta : List (NDArray (FP ℂ))} {s : List ℕ}
    {env : NDArray (FP ℂ)} (hv : unpackStack v = .ok beta) (hs : Uniform beta s)
    (he : o.epsEnv = .ok env) :
    (¬ bshape (s ++ [beta.length + 1]) env.rshape = some (s ++ [beta.length + 1]) ∧
      o.setBeta v = (o, .error .broadcast)) ∨
    bshape (s ++ [beta.length + 1]) env.rshape = some (s ++ [beta.length + 1]) ∧
    ∃ eps, o.setBeta v = ({ o with eps := some eps }, checkLayersValid { o with eps := some eps }) ∧
      Uniform eps s ∧ eps.length = beta.length + 1 ∧
      ∀ i, eps.map (·.get i) =
        ((epsFromBeta beta).2.map (·.get i)).mapIdx
          fun k e => e * env.get (Function.update i s.length k) := by
  obtain ⟨h1, h2, h3⟩ := epsFromBeta_shape hs
  by_cases hb : bshape (s ++ [beta.length + 1]) env.rshape = some (s ++ [beta.length + 1])
  · refine .inr ⟨hb, ?_⟩
    rw [← h3] at hb
    obtain ⟨l, hl, h4, h5, h6⟩ := imulEnv_ok h2 hb
    have hu : Uniform l s := ⟨h4, fun h => by rw [h, h3] at h5; simp at h5⟩
    obtain ⟨eps, h7, h8, h9, _, h10⟩ := unpackStack_of_uniform hu
    refine ⟨eps, ?_, h8, by omega, fun i => ?_⟩
    · unfold setBeta
      rw [hv]
      simp only [he, h1, hl]
      unfold setEps
      rw [h7]
    · rw [h10, h6]
      exact List.ext_getElem (by simp) fun k h1 h2 => by simp
  · refine .inl ⟨hb, ?_⟩
    unfold setBeta
    rw [hv]
    simp only [he, h1, imulEnv, h3, if_neg hb]

theorem bshape_snoc_of_le {s u : List ℕ} (h : some s ≤ᵇ some u) (m : ℕ) :
    bshape (u ++ [m]) s = some (u ++ [m]) := by
  have h' : bshape s u = some u := h
  have h2 : some s ≤ᵇ some (u ++ [m]) := by
    refine Shape.le_trans h ?_
    show bshape u (u ++ [m]) = some (u ++ [m])
    have := bshape_pad u m
    have h3 := Shape.le_join_right (some (List.replicate u.length 1 ++ [m])) (some u)
    rw [Shape.some_join_some, this] at h3
    exact h3
  rw [bshape_comm]
  exact h2

theorem dimAt_of_le_length {s u : List ℕ} (h : some s ≤ᵇ some u) : dimAt s u.length = 1 :=
  dimAt_eq_one_of_le h (dimAt_of_length_le le_rfl)

theorem mapIdx_const {β γ : Type} (f : β → γ) (l : List β) : (l.mapIdx fun _ e => f e) = l.map f := by
  induction l with
  | nil => rfl
  | cons a l ih => simp [List.mapIdx_cons, ih]

/-- Multiplication of the running products by the environment. -/
theorem prods_mul (e E : ℂ) (bs : List ℂ) :
    (prods e bs).map (fun x => FP.num x * FP.num E) = (prods (e * E) bs).map FP.num := by
  induction bs generalizing e with
  | nil => rfl
  | cons b bs ih =>
    simp only [prods, List.map_cons, FP.num_mul] at ih ⊢
    rw [ih, mul_right_comm]

theorem prods_length (e : ℂ) (bs : List ℂ) : (prods e bs).length = bs.length + 1 := by
  induction bs generalizing e with
  | nil => rfl
  | cons b bs ih => simp [prods, ih]

theorem prods_head (e : ℂ) (bs : List ℂ) : ∃ l, prods e bs = e :: l := by
  cases bs <;> exact ⟨_, rfl⟩

/-- Reflection coefficients between consecutive layers. -/
theorem refl_prods {e : ℂ} (he : e ≠ 0) {bs : List ℂ} (h1 : ∀ b ∈ bs, b ≠ 1) (h2 : ∀ b ∈ bs, b ≠ -1) :
    List.zipWith (fun a b : FP ℂ => (reflCoefQsSingle a b : FP ℂ)) ((prods e bs).map FP.num).dropLast
      ((prods e bs).map FP.num).tail = bs.map FP.num := by
  induction bs generalizing e with
  | nil => rfl
  | cons b bs ih =>
    have hb1 : (1 : ℂ) - b ≠ 0 := sub_ne_zero.2 (Ne.symm (h1 b (by simp)))
    have hb2 : (1 : ℂ) + b ≠ 0 := fun h => h2 b (by simp) (eq_neg_of_add_eq_zero_right h)
    have he' : e * ((1 + b) / (1 - b)) ≠ 0 := mul_ne_zero he (div_ne_zero hb2 hb1)
    have := ih he' (fun c hc => h1 c (by simp [hc])) fun c hc => h2 c (by simp [hc])
    obtain ⟨l, hl⟩ := prods_head (e * ((1 + b) / (1 - b))) bs
    rw [hl] at this
    simp only [prods, hl, List.map_cons, List.tail_cons, List.dropLast_cons_cons, List.zipWith_cons_cons,
      List.cons.injEq] at this ⊢
    refine ⟨?_, this⟩
    have hsum : e * ((1 + b) / (1 - b)) + e ≠ 0 := by
      have : e * ((1 + b) / (1 - b)) + e = 2 * e / (1 - b) := by field_simp; ring
      rw [this]
      exact div_ne_zero (mul_ne_zero two_ne_zero he) hb1
    show (FP.num _ - FP.num _) / (FP.num _ + FP.num _) = _
    rw [FP.num_sub, FP.num_add, FP.num_div _ hsum, FP.num_inj]
    rw [div_eq_iff hsum]
    field_simp
    ring

/-- Which permittivities have finite reflection coefficients other than one. -/
theorem refl_inv {es bs : List ℂ} (h1 : ∀ b ∈ bs, b ≠ 1)
    (h : List.zipWith (fun a b : FP ℂ => (reflCoefQsSingle a b : FP ℂ)) (es.map FP.num).dropLast (es.map FP.num).tail =
      bs.map FP.num) :
    (∀ a ∈ es.dropLast, a ≠ 0) ∧ es.IsChain (fun a b => a + b ≠ 0) := by
  induction es generalizing bs with
  | nil => simp
  | cons e es ih =>
    cases es with
    | nil => simp
    | cons a es =>
      cases bs with
      | nil => simp at h
      | cons b bs =>
        simp only [List.map_cons, List.dropLast_cons_cons, List.tail_cons, List.zipWith_cons_cons,
          List.cons.injEq] at h
        obtain ⟨g1, g2⟩ := ih (bs := bs) (fun c hc => h1 c (by simp [hc])) h.2
        have hb : (FP.num a - FP.num e) / (FP.num a + FP.num e) = (FP.num b : FP ℂ) := h.1
        rw [FP.num_sub, FP.num_add] at hb
        have hae : a + e ≠ 0 := by
          intro h0
          rw [h0, FP.num_div_zero] at hb
          cases hb
        rw [FP.num_div _ hae] at hb
        have hb := FP.num.inj hb
        have he : e ≠ 0 := by
          intro h0
          refine h1 b (by simp) ?_
          rw [← hb, h0, sub_zero]
          rw [h0] at hae
          rw [add_zero] at hae ⊢
          exact div_self hae
        rw [List.isChain_cons_cons]
        refine ⟨?_, by rwa [add_comm], g2⟩
        intro c hc
        rw [List.dropLast_cons_cons, List.mem_cons] at hc
        rcases hc with rfl | hc
        · exact he
        · exact g1 c hc

/-- The running products of the ratios that belong to the reflection coefficients of a stack. -/
theorem prods_refl {e : ℂ} {es : List ℂ} (h0 : ∀ a ∈ (e :: es).dropLast, a ≠ 0)
    (hs : List.IsChain (fun a b => a + b ≠ 0) (e :: es)) :
    ∃ bs : List ℂ, List.zipWith (fun a b : FP ℂ => (reflCoefQsSingle a b : FP ℂ))
      ((e :: es).map FP.num).dropLast ((e :: es).map FP.num).tail = bs.map FP.num ∧
      (∀ b ∈ bs, b ≠ 1) ∧ prods e bs = e :: es := by
  induction es generalizing e with
  | nil => exact ⟨[], rfl, by simp, rfl⟩
  | cons a es ih =>
    rw [List.isChain_cons_cons] at hs
    have he : e ≠ 0 := h0 e (by simp)
    obtain ⟨bs, h1, h2, h3⟩ := ih (e := a) (fun c hc => h0 c (by simp [List.dropLast_cons_cons, hc])) hs.2
    have hae : a + e ≠ 0 := by rw [add_comm]; exact hs.1
    have hq : 1 - (a - e) / (a + e) = 2 * e / (a + e) := by field_simp; ring
    have hq0 : 1 - (a - e) / (a + e) ≠ 0 := by
      rw [hq]
      exact div_ne_zero (mul_ne_zero two_ne_zero he) hae
    refine ⟨(a - e) / (a + e) :: bs, ?_, fun b hb => ?_, ?_⟩
    · simp only [List.map_cons, List.dropLast_cons_cons, List.tail_cons, List.zipWith_cons_cons,
        List.cons.injEq] at h1 ⊢
      refine ⟨?_, h1⟩
      show (FP.num _ - FP.num _) / (FP.num _ + FP.num _) = _
      rw [FP.num_sub, FP.num_add, FP.num_div _ hae]
    · rcases List.mem_cons.1 hb with rfl | hb
      · exact fun h => hq0 (by rw [h, sub_self])
      · exact h2 b hb
    · have : e * ((1 + (a - e) / (a + e)) / (1 - (a - e) / (a + e))) = a := by
        rw [hq]
        field_simp
        ring
      rw [prods, this, h3]

/-- `mapM id` of values. -/
theorem mapM_id_ok {β : Type} (l : List β) : (l.map (Except.ok : β → PyM β)).mapM id = .ok l := by
  induction l with
  | nil => rfl
  | cons a l ih => simp [List.mapM_cons, ih]

/-- The getter of `beta_stack` is elementwise. -/
theorem betaStack_ok {o : SampleObj} {eps : List (NDArray (FP ℂ))} {s : List ℕ} (he : o.eps = some eps)
    (hs : ∀ A ∈ eps, A.rshape = s) :
    ∃ bs, o.betaStack = .ok bs ∧ (∀ B ∈ bs, B.rshape = s) ∧ bs.length = eps.length - 1 ∧
      ∀ i, bs.map (·.get i) = List.zipWith (fun a b : FP ℂ => (reflCoefQsSingle a b : FP ℂ))
        (eps.map (·.get i)).dropLast (eps.map (·.get i)).tail := by
  have key : ∀ l l' : List (NDArray (FP ℂ)), (∀ A ∈ l, A.rshape = s) → (∀ A ∈ l', A.rshape = s) →
      ∃ bs, (List.zipWith (fun a b => (reflCoefQsSingle (.ok a) (.ok b) : CArr)) l l').mapM id = .ok bs ∧
        (∀ B ∈ bs, B.rshape = s) ∧ bs.length = min l.length l'.length ∧
        ∀ i, bs.map (·.get i) = List.zipWith (fun a b : FP ℂ => (reflCoefQsSingle a b : FP ℂ))
          (l.map (·.get i)) (l'.map (·.get i)) := by
    intro l
    induction l with
    | nil => intro l' _ _; exact ⟨[], rfl, by simp, by simp, fun i => rfl⟩
    | cons a l ih =>
      intro l'
      cases l' with
      | nil => intro _ _; exact ⟨[], rfl, by simp, by simp, fun i => rfl⟩
      | cons b l' =>
        intro h1 h2
        obtain ⟨bs, h3, h4, h5, h6⟩ := ih l' (fun A hA => h1 A (by simp [hA]))
          fun A hA => h2 A (by simp [hA])
        have hd := ((Den.leaf b).csub (Den.leaf a)).cdiv ((Den.leaf b).cadd (Den.leaf a))
        rw [h1 a (by simp), h2 b (by simp), Shape.join_self, Shape.join_self] at hd
        obtain ⟨B, hB, hBs, hBg⟩ := hd
        have hB' : (reflCoefQsSingle (.ok a) (.ok b) : CArr) = .ok B := hB
        refine ⟨B :: bs, ?_, ?_, ?_, fun i => ?_⟩
        · rw [List.zipWith_cons_cons, List.mapM_cons, hB', id, PyM.ok_bind, h3]
          rfl
        · intro A hA
          rcases List.mem_cons.1 hA with rfl | hA
          · exact hBs
          · exact h4 A hA
        · simp [h5]
        · simp only [List.map_cons, List.zipWith_cons_cons, h6, hBg]
          rfl
  obtain ⟨bs, h1, h2, h3, h4⟩ := key eps.dropLast eps.tail
    (fun A hA => hs A (List.dropLast_subset _ hA)) fun A hA => hs A (List.tail_subset _ hA)
  refine ⟨bs, ?_, h2, ?_, fun i => ?_⟩
  · unfold betaStack
    rw [he]
    exact h1
  · simpa using h3
  · rw [h4, List.map_dropLast, List.map_tail]

end SampleObj

end Snompy
