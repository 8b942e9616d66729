import Verif.Lemmas.SampleObj

/-!
# C01–C08: construction and assignment of samples

`SampleObj` models an instance of `Sample`; `Op.run o op` is the object after an assignment together with the outcome
of the assignment.
-/

namespace Snompy.Props

open Snompy SampleObj

/-! ## C01 Exactly one of eps_stack / beta_stack -/

theorem C01_sample (d : Defaults) (a : Args) (h : a.eps.isSome = a.beta.isSome) :
    init d a = .error (.valueError exclusiveMsg) := by
  unfold init
  rw [if_pos]
  cases he : a.eps <;> cases hb : a.beta <;> simp_all

theorem C01_bulk (d : Defaults) (epsSub beta epsEnv : Option (NDArray (FP ℂ)))
    (t : Option (StackVal (FP ℝ))) (nu : Option (NDArray (FP ℝ))) (h : epsSub.isSome = beta.isSome) :
    SampleObj.bulk d epsSub beta epsEnv t nu = .error (.valueError exclusiveMsg) := by
  refine C01_sample d _ ?_
  simpa using h

theorem unpackStack_ne {α : Type} (v : StackVal α) :
    unpackStack v ≠ .error (.valueError exclusiveMsg) := by
  cases v with
  | notIterable => simp [unpackStack]
  | items l =>
    simp only [unpackStack]
    split <;> simp

theorem checkLayersValid_ne (o : SampleObj) : o.checkLayersValid ≠ .error (.valueError exclusiveMsg) := by
  intro h
  have := (checkLayersValid_error h).1
  simp [exclusiveMsg, layersMsg] at this

theorem setEps_ne (o : SampleObj) (v : StackVal (FP ℂ)) :
    (o.setEps v).2 ≠ .error (.valueError exclusiveMsg) := by
  unfold setEps
  split
  · rename_i e he
    intro h
    exact unpackStack_ne _ (he.trans (congrArg _ (Except.error.inj h)))
  · exact checkLayersValid_ne _

theorem setT_ne (o : SampleObj) (v : Option (StackVal (FP ℝ))) :
    (o.setT v).2 ≠ .error (.valueError exclusiveMsg) := by
  unfold setT
  split
  · exact checkLayersValid_ne _
  · split
    · rename_i e he
      intro h
      exact unpackStack_ne _ (he.trans (congrArg _ (Except.error.inj h)))
    · exact checkLayersValid_ne _

theorem setBeta_ne (o : SampleObj) (v : StackVal (FP ℂ)) :
    (o.setBeta v).2 ≠ .error (.valueError exclusiveMsg) := by
  unfold setBeta
  split
  · rename_i e he
    intro h
    exact unpackStack_ne _ (he.trans (congrArg _ (Except.error.inj h)))
  · split
    · rename_i e he
      intro h
      unfold epsEnv at he
      split at he <;> cases he
      cases h
    · split
      · rename_i e he
        intro h
        unfold imulEnv at he
        split_ifs at he
        cases he
        cases h
      · exact setEps_ne _ _

/-- The error is raised in no other case. -/
theorem C01_only (d : Defaults) (a : Args) (h : init d a = .error (.valueError exclusiveMsg)) :
    a.eps.isSome = a.beta.isSome := by
  by_contra hne
  unfold init at h
  have hne' : ¬ a.eps.isNone = a.beta.isNone := by
    cases he : a.eps <;> cases hb : a.beta <;> simp_all
  rw [if_neg hne'] at h
  simp only at h
  set o₀ : SampleObj := ⟨none, none, a.epsEnv.getD (NDArray.scalar (FP.num d.epsEnv)), none⟩
  have hr : ∀ r : SampleObj × PyM Unit, r.2 ≠ .error (.valueError exclusiveMsg) →
      raised r ≠ .error (.valueError exclusiveMsg) := by
    rintro ⟨o, e | u⟩ h1 h2
    · exact h1 (congrArg _ (Except.error.inj h2))
    · cases h2
  cases h1 : raised (o₀.setT a.t) with
  | error e =>
    rw [h1] at h
    exact hr _ (setT_ne _ _) (h1.trans h)
  | ok o₁ =>
    rw [h1] at h
    simp only [PyM.ok_bind] at h
    cases he : a.eps with
    | some v =>
      rw [he] at h
      simp only at h
      cases h2 : raised (o₁.setEps v) with
      | error e =>
        rw [h2] at h
        exact hr _ (setEps_ne _ _) (h2.trans h)
      | ok o₂ => rw [h2] at h; cases h
    | none =>
      cases hb : a.beta with
      | none => rw [he, hb] at hne; exact hne rfl
      | some v =>
        rw [he, hb] at h
        simp only at h
        cases h2 : raised (o₁.setBeta v) with
        | error e =>
          rw [h2] at h
          exact hr _ (setBeta_ne _ _) (h2.trans h)
        | ok o₂ => rw [h2] at h; cases h

/-- Both given, with other arguments that would raise too; neither given. -/
example (d : Defaults) : init d { eps := some .notIterable, beta := some (.items []), t := some .notIterable } =
    .error (.valueError exclusiveMsg) := C01_sample d _ rfl
example (d : Defaults) : init d {} = .error (.valueError exclusiveMsg) := C01_sample d _ rfl
example (d : Defaults) : SampleObj.bulk d none none = .error (.valueError exclusiveMsg) :=
  C01_bulk d _ _ _ _ _ rfl

/-! ## C02 Layer-count invariant over every history -/

theorem C02 {d : Defaults} {a : Args} {o o' : SampleObj} (h : init d a = .ok o) {ops : List Op}
    (hr : o.runAll ops = .ok o') : o'.Valid :=
  (runAll_valid (init_inv h).1 (init_inv h).2 hr).2

/-- Even if earlier assignments raised (and the exceptions were caught), a successful assignment to one of the stacks
leaves a valid sample. -/
theorem C02_last {o o' : SampleObj} (h : o.Reachable) {op : Op} (hop : ∀ v, op ≠ .nuVac v)
    (hr : op.run o = (o', .ok ())) : o'.Valid := by
  obtain ⟨d, a, o₀, ops, h0, rfl⟩ := h
  have hi := runCaught_inv (init_inv h0).1 ops
  have hi' := run_inv hi op
  rw [hr] at hi'
  cases op with
  | t v =>
    rcases setT_cases (o₀.runCaught ops) v with ⟨e, he⟩ | ⟨l, s, hs, he⟩
    · rw [Op.run, he] at hr; cases hr
    · rw [Op.run, he] at hr
      obtain ⟨rfl, hc⟩ := Prod.ext_iff.1 hr
      exact valid_of_check hi' hc
  | eps v =>
    rcases setEps_cases (o₀.runCaught ops) v with ⟨e, he⟩ | ⟨l, s, hs, he⟩
    · rw [Op.run, he] at hr; cases hr
    · rw [Op.run, he] at hr
      obtain ⟨rfl, hc⟩ := Prod.ext_iff.1 hr
      exact valid_of_check hi' hc
  | beta v =>
    rcases setBeta_cases' (o₀.runCaught ops) v with ⟨e, he⟩ | ⟨l, s, hs, he⟩
    · rw [Op.run, he] at hr; cases hr
    · rw [Op.run, he] at hr
      obtain ⟨rfl, hc⟩ := Prod.ext_iff.1 hr
      exact valid_of_check hi' hc
  | nuVac v => exact absurd rfl (hop v)

/-- A valid sample is a sample holding arrays in the sense of the vectorisation properties (C58–C62). -/
theorem C02_arr {o : SampleObj} (h : o.Reachable) (hv : o.Valid) :
    ∃ S : ArrSample, o.stack = S.stack (o.nuVac.map .ok) := by
  obtain ⟨d, a, o₀, ops, h0, rfl⟩ := h
  obtain ⟨⟨l, s, h1, h2⟩, ⟨lt, st, h3, h4⟩⟩ := runCaught_inv (init_inv h0).1 ops
  obtain ⟨eps, t, h5, h6, h7⟩ := hv
  rw [h1] at h5
  rw [h3] at h6
  cases h5
  cases h6
  refine ⟨⟨l, lt, s, st, h2.1, h4.1, h4.2, h7⟩, ?_⟩
  simp only [stack, ArrSample.stack, h1, h3, Option.getD_some]

/-- A scalar. -/
noncomputable abbrev sc (x : ℂ) : NDArray (FP ℂ) := NDArray.scalar (FP.num x)
noncomputable abbrev scR (x : ℝ) : NDArray (FP ℝ) := NDArray.scalar (FP.num x)

theorem unpack_scalars {α : Type} (l : List α) :
    ∃ l', unpackStack (.items (l.map NDArray.scalar)) = .ok l' ∧ l'.length = l.length ∧
      Uniform l' [] ∧ ∀ i, l'.map (·.get i) = l := by
  obtain ⟨l', h1, h2, h3, _, h5⟩ := unpackStack_of_uniform (l := l.map NDArray.scalar) (s := [])
    ⟨fun A hA => by obtain ⟨x, _, rfl⟩ := List.mem_map.1 hA; rfl, fun _ => rfl⟩
  refine ⟨l', h1, by simpa using h3, h2, fun i => ?_⟩
  rw [h5, List.map_map]
  exact List.map_id'' (fun _ => rfl) _

/-- Samples of scalars with `eps_stack` given. -/
theorem init_scalars (d : Defaults) {eps : List (FP ℂ)} {t : List (FP ℝ)}
    (h : eps.length = t.length + 2) (env : Option (NDArray (FP ℂ))) :
    ∃ o l l', init d { eps := some (.items (eps.map NDArray.scalar)),
                       t := some (.items (t.map NDArray.scalar)), epsEnv := env } = .ok o ∧
      o.eps = some l ∧ o.t = some l' ∧ (∀ i, l.map (·.get i) = eps) ∧ (∀ i, l'.map (·.get i) = t) ∧
      Uniform l [] ∧ l'.length = t.length := by
  obtain ⟨l', h1, h2, h3, h4⟩ := unpack_scalars t
  obtain ⟨l, h5, h6, h7, h8⟩ := unpack_scalars eps
  refine ⟨⟨some l', some l, env.getD (NDArray.scalar (FP.num d.epsEnv)), none⟩, l, l', ?_, rfl, rfl, h8, h4,
    h7, h2⟩
  simp only [init, setT, h1, setEps, h5, Option.isNone_some, Option.isNone_none, Bool.false_eq_true,
    if_false, raised, checkLayersValid, PyM.ok_bind, PyM.pure_eq_ok, h2, h6, h, ne_eq, not_true]

/-- A history of two assignments (the first is rejected) after construction. -/
theorem example_history (d : Defaults) : ∃ o o' : SampleObj,
    init d { eps := some (.items ([FP.num 1, FP.num 2].map NDArray.scalar)),
             t := some (.items ([].map NDArray.scalar)) } = .ok o ∧
    (o.setT (some (.items ([FP.num 5].map NDArray.scalar)))).2 = .error (.valueError layersMsg) ∧
    (o.setT (some (.items ([FP.num 5].map NDArray.scalar)))).1.setEps
      (.items ([FP.num 1, FP.num 3, FP.num 2].map NDArray.scalar)) = (o', .ok ()) := by
  obtain ⟨o, l, l', h1, h2, h3, h4, h5, h6, h7⟩ :=
    init_scalars d (eps := [FP.num 1, FP.num 2]) (t := []) rfl none
  obtain ⟨lt, g1, g2, _⟩ := unpack_scalars [FP.num (5 : ℝ)]
  obtain ⟨le, k1, k2, _⟩ := unpack_scalars [FP.num (1 : ℂ), FP.num 3, FP.num 2]
  have hl : l.length = 2 := by
    have := congrArg List.length (h4 fun _ => 0)
    simpa using this
  refine ⟨o, { o with t := some lt, eps := some le }, h1, ?_, ?_⟩
  · simp only [setT, g1, checkLayersValid, h2, hl, g2]
    rfl
  · simp only [setT, g1, setEps, k1, checkLayersValid, k2, g2]
    rfl

/-- The hypotheses of `C02` and of `C02_last`. -/
example (d : Defaults) : ∃ o o' o'' : SampleObj, o.Reachable ∧ o'.Reachable ∧
    Op.run o' (.eps (.items ([FP.num 1, FP.num 3, FP.num 2].map NDArray.scalar))) = (o'', .ok ()) ∧
    o.runAll [.nuVac (some (scR 1)), .eps (.items ([FP.num 1, FP.num 2].map NDArray.scalar))] =
      .ok { o with nuVac := some (scR 1),
                   eps := some ([FP.num (1 : ℂ), FP.num 2].map fun x => (NDArray.scalar x).broadcastTo []) } := by
  obtain ⟨o, o'', h1, _, h3⟩ := example_history d
  refine ⟨o, _, o'', ⟨d, _, o, [], h1, rfl⟩, ⟨d, _, o, [.t _], h1, rfl⟩, h3, ?_⟩
  obtain ⟨eps, t, h4, h5, h6⟩ := (init_inv h1).2
  have ht : t.length = 0 := by
    obtain ⟨o₁, l, l', g1, g2, g3, _, _, _, g7⟩ :=
      init_scalars d (eps := [FP.num 1, FP.num 2]) (t := []) rfl none
    rw [h1] at g1
    cases g1
    rw [h5] at g3
    cases g3
    exact g7
  simp only [runAll, Op.run, raised, PyM.ok_bind, PyM.pure_eq_ok, setEps]
  simp [unpackStack, broadcastShapes, NDArray.scalar, checkLayersValid, h5, ht]

/-! ## C03 A rejected assignment leaves the sample unchanged

False: the setters store the new value before they check it. -/

/-- What does hold: a rejected assignment either leaves the object unchanged (the value could not be broadcast), or
the layer counts do not fit; then exactly one of the stacks was overwritten and the message is that of the check. -/
theorem C03_partial (o : SampleObj) {op : Op} {o' : SampleObj} {e : PyErr} (hr : op.run o = (o', .error e)) :
    o' = o ∨ (e = .valueError layersMsg ∧ ¬ o'.Valid ∧ o'.nuVac = o.nuVac ∧ o'.epsEnv0 = o.epsEnv0 ∧
      ((o'.t = o.t ∧ ∀ v, op ≠ .t v) ∨ (o'.eps = o.eps ∧ ∃ v, op = .t v))) := by
  have key : ∀ o₁ : SampleObj, o₁.checkLayersValid = .error e → e = .valueError layersMsg ∧ ¬ o₁.Valid := by
    intro o₁ h
    obtain ⟨h1, eps, t, h2, h3, h4⟩ := checkLayersValid_error h
    refine ⟨h1, ?_⟩
    rintro ⟨eps', t', g1, g2, g3⟩
    rw [h2] at g1
    rw [h3] at g2
    cases g1
    cases g2
    exact h4 g3
  cases op with
  | t v =>
    rcases setT_cases o v with ⟨e', he⟩ | ⟨l, s, hs, he⟩
    · rw [Op.run, he] at hr
      exact .inl (Prod.ext_iff.1 hr).1.symm
    · rw [Op.run, he] at hr
      obtain ⟨rfl, hc⟩ := Prod.ext_iff.1 hr
      exact .inr ⟨(key _ hc).1, (key _ hc).2, rfl, rfl, .inr ⟨rfl, v, rfl⟩⟩
  | eps v =>
    rcases setEps_cases o v with ⟨e', he⟩ | ⟨l, s, hs, he⟩
    · rw [Op.run, he] at hr
      exact .inl (Prod.ext_iff.1 hr).1.symm
    · rw [Op.run, he] at hr
      obtain ⟨rfl, hc⟩ := Prod.ext_iff.1 hr
      exact .inr ⟨(key _ hc).1, (key _ hc).2, rfl, rfl, .inl ⟨rfl, fun _ => nofun⟩⟩
  | beta v =>
    rcases setBeta_cases' o v with ⟨e', he⟩ | ⟨l, s, hs, he⟩
    · rw [Op.run, he] at hr
      exact .inl (Prod.ext_iff.1 hr).1.symm
    · rw [Op.run, he] at hr
      obtain ⟨rfl, hc⟩ := Prod.ext_iff.1 hr
      exact .inr ⟨(key _ hc).1, (key _ hc).2, rfl, rfl, .inl ⟨rfl, fun _ => nofun⟩⟩
  | nuVac v => exact absurd (Prod.ext_iff.1 hr).2 (by simp [Op.run])

/-- Every rejection by the layer check changes a valid sample. -/
theorem C03_stored {o o' : SampleObj} (hv : o.Valid) {op : Op}
    (hr : op.run o = (o', .error (.valueError layersMsg))) : o' ≠ o := by
  rintro rfl
  have key : ∀ o₁ : SampleObj, o₁.checkLayersValid = .error (.valueError layersMsg) → ¬ o₁.Valid := by
    intro o₁ h
    obtain ⟨h1, eps, t, h2, h3, h4⟩ := checkLayersValid_error h
    rintro ⟨eps', t', g1, g2, g3⟩
    rw [h2] at g1
    rw [h3] at g2
    cases g1
    cases g2
    exact h4 g3
  have hun : ∀ {α : Type} (v : StackVal α), unpackStack v ≠ .error (.valueError layersMsg) := by
    intro α v
    cases v with
    | notIterable => simp [unpackStack]
    | items l =>
      simp only [unpackStack]
      split <;> simp
  have heps : ∀ w, o'.setEps w ≠ (o', .error (.valueError layersMsg)) := by
    intro w hr
    unfold setEps at hr
    split at hr
    · rename_i e he
      exact hun w (he.trans (congrArg _ (Except.error.inj (Prod.ext_iff.1 hr).2)))
    · obtain ⟨h1, h2⟩ := Prod.ext_iff.1 hr
      exact key _ h2 (cast (congrArg Valid h1.symm) hv)
  cases op with
  | t v =>
    simp only [Op.run, setT] at hr
    split at hr
    · obtain ⟨h1, h2⟩ := Prod.ext_iff.1 hr
      exact key _ h2 (cast (congrArg Valid h1.symm) hv)
    · split at hr
      · rename_i e he
        exact hun _ (he.trans (congrArg _ (Except.error.inj (Prod.ext_iff.1 hr).2)))
      · obtain ⟨h1, h2⟩ := Prod.ext_iff.1 hr
        exact key _ h2 (cast (congrArg Valid h1.symm) hv)
  | eps v => exact heps v hr
  | beta v =>
    simp only [Op.run, setBeta] at hr
    split at hr
    · rename_i e he
      exact hun _ (he.trans (congrArg _ (Except.error.inj (Prod.ext_iff.1 hr).2)))
    · split at hr
      · rename_i e he
        have := (Prod.ext_iff.1 hr).2
        unfold epsEnv at he
        split at he <;> cases he
        cases this
      · split at hr
        · rename_i e he
          have := (Prod.ext_iff.1 hr).2
          unfold imulEnv at he
          split_ifs at he
          cases he
          cases this
        · exact heps _ hr
  | nuVac v => exact absurd (Prod.ext_iff.1 hr).2 (by simp [Op.run])

/-- The property is false: a bulk sample whose `t_stack` is assigned a thickness raises, but keeps the thickness. -/
theorem C03_false (d : Defaults) : ∃ o o' : SampleObj, o.Reachable ∧ o.Valid ∧
    Op.run o (.t (some (.items ([FP.num 5].map NDArray.scalar)))) = (o', .error (.valueError layersMsg)) ∧
    o.t = some [] ∧ o'.t ≠ some [] ∧ ¬ o'.Valid := by
  obtain ⟨o, l, l', h1, h2, h3, h4, h5, h6, h7⟩ :=
    init_scalars d (eps := [FP.num 1, FP.num 2]) (t := []) rfl none
  obtain ⟨o₁, o₂, g1, g2, g3⟩ := example_history d
  rw [h1] at g1
  cases g1
  have hv := (init_inv h1).2
  have hr : Op.run o (.t (some (.items ([FP.num 5].map NDArray.scalar)))) =
      ((o.setT (some (.items ([FP.num 5].map NDArray.scalar)))).1, .error (.valueError layersMsg)) :=
    Prod.ext rfl g2
  have hl' : l' = [] := List.length_eq_zero_iff.1 h7
  refine ⟨o, _, ⟨d, _, o, [], h1, rfl⟩, hv, hr, by rw [h3, hl'], fun h => ?_, ?_⟩
  · obtain ⟨lt, k1, k2, _⟩ := unpack_scalars [FP.num (5 : ℝ)]
    simp only [setT, k1, Option.some.injEq] at h
    rw [h] at k2
    simp at k2
  · rcases C03_partial o hr with h | ⟨_, h, _⟩
    · exact absurd h (C03_stored hv hr)
    · exact h

/-! ## C04 beta_stack survives construction -/

/-- Building from `beta_stack` always works when the environment broadcasts with the layers, and reading `beta_stack`
gives the input (broadcast to a common shape `s`), provided no entry is `1` or `-1` and no environment is zero. -/
theorem C04_arr (d : Defaults) {beta beta' : List (NDArray (FP ℂ))} {s : List ℕ}
    {t : Option (StackVal (FP ℝ))} {o₀ : SampleObj} {E : NDArray (FP ℂ)} {nu : Option (NDArray (FP ℝ))}
    (hb : unpackStack (.items beta) = .ok beta') (hs : Uniform beta' s)
    (ht : (⟨none, none, E, none⟩ : SampleObj).setT t = (o₀, .ok ()))
    (hlen : ∀ l, o₀.t = some l → beta.length = l.length + 1) (hE : some E.rshape ≤ᵇ some s) :
    ∃ o bs, init d { beta := some (.items beta), t := t, epsEnv := some E, nuVac := nu } = .ok o ∧
      o.betaStack = .ok bs ∧ bs.length = beta.length ∧ (∀ B ∈ bs, B.rshape = s) ∧
      ∀ (i : ℕ → ℕ) (b : List ℂ) (e : ℂ), beta.map (·.get i) = b.map FP.num → (∀ x ∈ b, x ≠ 1 ∧ x ≠ -1) → E.get i = FP.num e →
        e ≠ 0 → bs.map (·.get i) = beta.map (·.get i) := by
  have hl : beta'.length = beta.length := by
    have := congrArg List.length (unpackStack_get hb fun _ => 0)
    simpa using this
  have hd : dimAt E.rshape s.length = 1 := dimAt_of_le_length hE
  obtain ⟨lt, ho₀, hlt⟩ : ∃ lt, o₀ = ⟨some lt, none, E, none⟩ ∧ o₀.t = some lt := by
    rcases setT_cases ⟨none, none, E, none⟩ t with ⟨e, he⟩ | ⟨l, s', hs', he⟩
    · rw [he] at ht; cases ht
    · rw [he] at ht
      obtain ⟨rfl, _⟩ := Prod.ext_iff.1 ht
      exact ⟨l, rfl, rfl⟩
  have hlen' := hlen lt hlt
  rcases setBeta_eq (o := o₀) (env := E) hb hs (by rw [ho₀]; rfl) with ⟨h, _⟩ |
      ⟨_, eps, h1, h2, h3, h4⟩
  · exact absurd (bshape_snoc_of_le hE _) h
  · obtain ⟨bs, k1, k2, k3, k4⟩ := betaStack_ok (o := { o₀ with eps := some eps, nuVac := nu }) rfl h2.1
    have hc : checkLayersValid { o₀ with eps := some eps } = .ok () := by
      refine (checkLayersValid_ok (o := { o₀ with eps := some eps }) rfl hlt).2 ?_
      omega
    refine ⟨{ o₀ with eps := some eps, nuVac := nu }, bs, ?_, k1, by omega, k2, fun i b e hib hx he he0 => ?_⟩
    · simp only [init, Option.isNone_some, Option.isNone_none, Bool.true_eq_false, if_false,
        Option.getD_some, ht, raised, PyM.ok_bind, PyM.pure_eq_ok, h1, hc]
    · rw [k4, h4]
      rw [epsFromBeta_get hs i (bs := b) (by rw [unpackStack_get hb, hib]) fun x h => (hx x h).1]
      have : (((prods 1 b).map FP.num).mapIdx fun k x => x * E.get (Function.update i s.length k)) =
          (prods e b).map FP.num := by
        simp only [NDArray.get_update_of_dimAt hd, he]
        rw [mapIdx_const, List.map_map]
        have := prods_mul 1 e b
        rw [one_mul] at this
        exact this
      rw [this, refl_prods he0 (fun x h => (hx x h).1) fun x h => (hx x h).2, hib]

/-- C04 for scalars: any number of interfaces, any values other than 1 and -1, any non-zero environment. -/
theorem C04 (d : Defaults) (beta : List ℂ) (t : List (FP ℝ)) (hlen : beta.length = t.length + 1)
    (hb : ∀ x ∈ beta, x ≠ 1 ∧ x ≠ -1) (E : Option ℂ) (hE : E.getD d.epsEnv ≠ 0)
    (nu : Option (NDArray (FP ℝ))) :
    ∃ o bs, init d { beta := some (.items (beta.map fun x => NDArray.scalar (FP.num x))),
                     t := some (.items (t.map NDArray.scalar)),
                     epsEnv := E.map fun x => NDArray.scalar (FP.num x), nuVac := nu } = .ok o ∧
      o.betaStack = .ok bs ∧ (∀ B ∈ bs, B.rshape = []) ∧ ∀ i, bs.map (·.get i) = beta.map FP.num := by
  obtain ⟨lt, h1, h2, h3, h4⟩ := unpack_scalars t
  obtain ⟨lb, g1, g2, g3, g4⟩ := unpack_scalars (beta.map FP.num)
  rw [List.map_map] at g1
  set EE : NDArray (FP ℂ) := NDArray.scalar (FP.num (E.getD d.epsEnv)) with hEE
  obtain ⟨o, bs, k1, k2, k3, k4, k5⟩ := C04_arr d (beta := beta.map fun x => NDArray.scalar (FP.num x))
    (t := some (.items (t.map NDArray.scalar))) (E := EE) (nu := nu)
    (o₀ := ⟨some lt, none, EE, none⟩) g1 g3 (by simp only [setT, h1]; rfl)
    (fun l hl => by cases hl; simpa [h2] using hlen) (show bshape [] [] = some [] from rfl)
  refine ⟨o, bs, ?_, k2, k4, fun i => ?_⟩
  · rw [← k1]
    cases E <;> rfl
  · rw [k5 i beta (E.getD d.epsEnv) (by rw [List.map_map]; rfl) hb rfl hE, List.map_map]
    rfl

example (d : Defaults) := C04 d [1 / 2, Complex.I, -3] [FP.num 1, FP.num 0] rfl
  (by
    intro x hx
    simp only [List.mem_cons, List.not_mem_nil, or_false] at hx
    rcases hx with rfl | rfl | rfl
    · norm_num
    · refine ⟨fun h => ?_, fun h => ?_⟩ <;> simpa using congrArg Complex.re h
    · norm_num) (some 2) (by norm_num) none

/-! ## C05 eps_stack survives a trip through beta_stack -/

/-- Rebuilding from `beta_stack`, `eps_env` and `t_stack`.  Beyond the condition of C05 every permittivity except the
last must be different from zero: see `C05_false`.  The two conditions together are necessary and sufficient. -/
theorem C05_partial (d : Defaults) {o : SampleObj} (hr : o.Reachable) (hv : o.Valid) :
    ∃ E bs t eps o' eps', o.epsEnv = .ok E ∧ o.betaStack = .ok bs ∧ o.t = some t ∧ o.eps = some eps ∧
      init d { beta := some (.items bs), t := some (.items t), epsEnv := some E, nuVac := o.nuVac } = .ok o' ∧
      o'.eps = some eps' ∧ List.Forall₂ (fun A B => A.rshape = B.rshape) eps' eps ∧
      ∀ (i : ℕ → ℕ) (e : List ℂ), eps.map (·.get i) = e.map FP.num →
        (eps'.map (·.get i) = eps.map (·.get i) ↔
          (∀ x ∈ e.dropLast, x ≠ 0) ∧ e.IsChain (fun x y => x + y ≠ 0)) := by
  obtain ⟨d', a, o₀, ops, h0, rfl⟩ := hr
  obtain ⟨⟨eps, s, h1, h2⟩, ⟨t, st, h3, h4⟩⟩ := runCaught_inv (init_inv h0).1 ops
  set o := o₀.runCaught ops with ho
  obtain ⟨eps₁, t₁, h5, h6, h7⟩ := hv
  rw [h1] at h5
  rw [h3] at h6
  cases h5
  cases h6
  obtain ⟨bs, k1, k2, k3, k4⟩ := betaStack_ok h1 h2.1
  obtain ⟨E, rest, rfl⟩ : ∃ E rest, eps = E :: rest := by
    cases eps with
    | nil => simp at h7
    | cons E rest => exact ⟨E, rest, rfl⟩
  have hE : E.rshape = s := h2.1 E (by simp)
  have hbs : Uniform bs s := ⟨k2, fun h => by
    rw [h] at k3
    simp at k3 h7
    omega⟩
  obtain ⟨bs', b1, b2, b3, _, b5⟩ := unpackStack_of_uniform hbs
  obtain ⟨t', t1, t2, t3, _⟩ := unpackStack_of_uniform h4
  rcases setBeta_eq (o := ⟨some t', none, E, none⟩) (env := E) b1 b2 rfl with ⟨h, _⟩ |
      ⟨_, eps', g1, g2, g3, g4⟩
  · exact absurd (bshape_snoc_of_le (by rw [hE]; exact Shape.le_refl _) _) h
  · have hl : eps'.length = (E :: rest).length := by omega
    have hc : checkLayersValid ⟨some t', some eps', E, none⟩ = .ok () := by
      rw [checkLayersValid_ok (eps := eps') (t := t') rfl rfl]
      omega
    refine ⟨E, bs, t, E :: rest, ⟨some t', some eps', E, o.nuVac⟩, eps', ?_, k1, h3, h1, ?_, rfl, ?_,
      fun i e he => ⟨fun hback => ?_, fun ⟨h0, hch⟩ => ?_⟩⟩
    · unfold epsEnv
      rw [h1]
    · have hc0 : checkLayersValid ⟨some t', none, E, none⟩ = .ok () := rfl
      simp only [init, setT, t1, Option.isNone_some, Option.isNone_none, Bool.true_eq_false, if_false,
        Option.getD_some, raised, PyM.ok_bind, PyM.pure_eq_ok, hc0, g1, hc]
    · rw [List.forall₂_iff_get]
      refine ⟨hl, fun n hn hn' => ?_⟩
      rw [g2.1 _ (List.get_mem _ _), h2.1 _ (List.get_mem _ _)]
    · have hd : dimAt E.rshape s.length = 1 := by
        rw [hE]
        exact dimAt_of_length_le le_rfl
      rw [he, g4] at hback
      simp only [NDArray.get_update_of_dimAt hd] at hback
      rw [mapIdx_const] at hback
      obtain ⟨es, hes⟩ : ∃ es : List ℂ, (epsFromBeta bs').2.map (·.get i) = es.map FP.num := by
        generalize (epsFromBeta bs').2.map (·.get i) = l at hback
        clear he
        induction l generalizing e with
        | nil => exact ⟨[], rfl⟩
        | cons x l ih =>
          cases e with
          | nil => simp at hback
          | cons y e =>
            simp only [List.map_cons, List.cons.injEq] at hback
            obtain ⟨es, hes⟩ := ih e hback.2
            cases x with
            | nan => exact absurd hback.1 (by simp)
            | num x => exact ⟨x :: es, by simp [hes]⟩
      obtain ⟨b, p1, p2⟩ := epsFromBeta_inv b2 i hes
      rw [b5, k4, he] at p2
      exact refl_inv p1 p2
    · cases e with
      | nil => simp at he
      | cons x e =>
        obtain ⟨b, p1, p2, p3⟩ := prods_refl h0 hch
        have hE0 : E.get i = FP.num x := by
          simp only [List.map_cons, List.cons.injEq] at he
          exact he.1
        rw [g4, epsFromBeta_get b2 i (bs := b) (by rw [b5, k4, he, p1]) p2]
        have hd : dimAt E.rshape s.length = 1 := by
          rw [hE]
          exact dimAt_of_length_le le_rfl
        simp only [NDArray.get_update_of_dimAt hd, hE0]
        rw [mapIdx_const, List.map_map]
        have := prods_mul 1 x b
        rw [one_mul, p3] at this
        rw [he]
        exact this

/-- A sample to which C05 applies, with all hypotheses. -/
example (d : Defaults) : ∃ o : SampleObj, o.Reachable ∧ o.Valid ∧ ∃ eps, o.eps = some eps ∧
    ∀ i, eps.map (·.get i) = [1, Complex.I, 3].map FP.num ∧ (∀ x ∈ [1, Complex.I, 3].dropLast, x ≠ 0) ∧
      [1, Complex.I, 3].IsChain (fun x y => x + y ≠ 0) := by
  obtain ⟨o, l, l', h1, h2, h3, h4, _⟩ := init_scalars d (eps := [1, Complex.I, 3].map FP.num)
    (t := [FP.num 1]) rfl none
  refine ⟨o, ⟨d, _, o, [], h1, rfl⟩, (init_inv h1).2, l, h2, fun i => ⟨h4 i, by simp, ?_⟩⟩
  simp only [List.isChain_cons_cons, List.isChain_singleton, and_true]
  constructor <;> intro h <;> simpa using congrArg Complex.re h

/-- C05 as stated fails for a vanishing permittivity: neighbours of `eps_stack = (0, 1)` do not cancel, but its
reflection coefficient is 1, from which no permittivity can be computed. -/
theorem C05_false (d : Defaults) : ∃ (o o' : SampleObj) (E : NDArray (FP ℂ)) (bs eps eps' : List (NDArray (FP ℂ)))
    (t : List (NDArray (FP ℝ))),
    o.Reachable ∧ o.Valid ∧ o.eps = some eps ∧ (∀ i, eps.map (·.get i) = [0, 1].map FP.num) ∧
    [(0 : ℂ), 1].IsChain (fun x y => x + y ≠ 0) ∧
    o.epsEnv = .ok E ∧ o.betaStack = .ok bs ∧ o.t = some t ∧
    init d { beta := some (.items bs), t := some (.items t), epsEnv := some E, nuVac := o.nuVac } = .ok o' ∧
    o'.eps = some eps' ∧ ∀ i, eps'.map (·.get i) = [FP.num 0, FP.nan] := by
  obtain ⟨o, l, l', h1, h2, h3, h4, h5, h6, h7⟩ := init_scalars d (eps := [0, 1].map FP.num)
    (t := []) rfl none
  have hr : o.Reachable := ⟨d, _, o, [], h1, rfl⟩
  have hv := (init_inv h1).2
  obtain ⟨E, bs, t, eps, o', eps', k1, k2, k3, k4, k5, k6, _⟩ := C05_partial d hr hv
  rw [h2] at k4
  cases k4
  refine ⟨o, o', E, bs, l, eps', t, hr, hv, h2, h4, by simp, k1, k2, k3, k5, k6, fun i => ?_⟩
  obtain ⟨bs₁, b1, b2, b3, b4⟩ := betaStack_ok h2 h6.1
  rw [k2] at b1
  cases b1
  have hbs : ∀ i, bs.map (·.get i) = [FP.num 1] := by
    intro i
    rw [b4, h4]
    show [(FP.num 1 - FP.num 0) / (FP.num 1 + FP.num 0)] = [(FP.num 1 : FP ℂ)]
    rw [FP.num_sub, FP.num_add, FP.num_div _ (by norm_num)]
    norm_num
  have hl : l.length = 2 := by
    have := congrArg List.length (h4 fun _ => 0)
    simpa using this
  obtain ⟨B, rfl⟩ : ∃ B, bs = [B] := List.length_eq_one_iff.1 (by omega)
  have hB : B.rshape = [] := b2 B (by simp)
  have hE : E.rshape = [] ∧ ∀ i, E.get i = FP.num 0 := by
    cases l with
    | nil => simp at hl
    | cons A l =>
      unfold epsEnv at k1
      rw [h2] at k1
      cases k1
      refine ⟨h6.1 _ (by simp), fun i => ?_⟩
      have := h4 i
      simp only [List.map_cons, List.cons.injEq] at this
      exact this.1
  obtain ⟨o₀, o₁, ho₀, g1, o₂, rfl, g2⟩ := init_ok k5
  rcases g2 with ⟨v, g2, _⟩ | ⟨v, _, g2, g3⟩
  · cases g2
  cases g2
  obtain ⟨t', t1, t2, t3, _⟩ := unpackStack_of_uniform (l := [B]) (s := []) ⟨by simpa using hB, fun _ => rfl⟩
  have ho₁ : o₁.epsEnv = .ok E := by
    rcases setT_cases o₀ (some (.items t)) with ⟨e, he⟩ | ⟨l, s', hs', he⟩
    · rw [he] at g1; cases g1
    · rw [he] at g1
      obtain ⟨rfl, _⟩ := Prod.ext_iff.1 g1
      rw [ho₀]
      rfl
  rcases setBeta_eq (o := o₁) t1 t2 ho₁ with ⟨_, h⟩ | ⟨_, eps₁, q1, q2, q3, q4⟩
  · rw [h] at g3; cases g3
  · rw [q1] at g3
    obtain ⟨rfl, _⟩ := Prod.ext_iff.1 g3
    cases k6
    rw [q4]
    obtain ⟨C, rfl⟩ : ∃ C, t' = [C] := List.length_eq_one_iff.1 (by simpa using t3)
    have hC : C.get i = FP.num 1 := by
      have := unpackStack_get t1 i
      simp only [List.map_cons, List.map_nil, List.cons.injEq, and_true] at this
      have h' := hbs i
      simp only [List.map_cons, List.map_nil, List.cons.injEq, and_true] at h'
      rw [this, h']
    have hC' : (C.map fun x => permitivitty x).get i = FP.nan := by
      rw [NDArray.map_get, hC]
      show (FP.num 1 * (FP.num 1 + FP.num 1) / (FP.num 1 - FP.num 1) : FP ℂ) = _
      rw [FP.num_sub, FP.num_add, FP.num_mul, sub_self, FP.num_div_zero]
    simp only [epsFromBeta, List.map_cons, List.map_nil, cumprod, cumprodFrom, List.mapIdx_cons,
      List.mapIdx_nil, hE.2, hC', FP.nan_mul, List.cons.injEq, and_true]
    show FP.num 1 * FP.num 0 = FP.num 0
    rw [FP.num_mul, mul_zero]

/-! ## C06 eps_env is the first layer -/

/-- Whatever happened to the sample, `eps_env` reads as `eps_stack[0]` (an `IndexError` if a rejected assignment left an
empty `eps_stack`). -/
theorem C06_first {o : SampleObj} (h : o.Reachable) : ∃ eps, o.eps = some eps ∧
    o.epsEnv = match eps with
      | [] => .error .indexError
      | e :: _ => .ok e := by
  obtain ⟨d, a, o₀, ops, h0, rfl⟩ := h
  obtain ⟨⟨eps, s, h1, h2⟩, _⟩ := runCaught_inv (init_inv h0).1 ops
  refine ⟨eps, h1, ?_⟩
  unfold epsEnv
  rw [h1]
  cases eps <;> rfl

/-- The environment after an assignment to `beta_stack` (also the one at construction), if the environment before does
not reach the layer axis. -/
theorem setBeta_env {o o' : SampleObj} {v : StackVal (FP ℂ)} {beta : List (NDArray (FP ℂ))} {s : List ℕ}
    {E : NDArray (FP ℂ)} (hv : unpackStack v = .ok beta) (hs : Uniform beta s) (hE : o.epsEnv = .ok E)
    (hd : dimAt E.rshape s.length = 1) (hr : o.setBeta v = (o', .ok ())) :
    ∃ e, o'.epsEnv = .ok e ∧ e.rshape = s ∧ ∀ i, e.get i = E.get i := by
  rcases setBeta_eq hv hs hE with ⟨_, h⟩ | ⟨_, eps, h1, h2, h3, h4⟩
  · rw [h] at hr; cases hr
  · rw [h1] at hr
    obtain ⟨rfl, _⟩ := Prod.ext_iff.1 hr
    cases eps with
    | nil => simp at h3
    | cons e eps =>
      refine ⟨e, rfl, h2.1 e (by simp), fun i => ?_⟩
      obtain ⟨A, l, hA, hA1⟩ := epsFromBeta_head beta
      have := h4 i
      rw [hA] at this
      simp only [List.map_cons, List.mapIdx_cons, List.cons.injEq] at this
      rw [this.1, hA1, NDArray.get_update_of_dimAt hd]
      cases E.get i with
      | num x => rw [FP.num_mul, one_mul]
      | nan => rfl

/-- Built from `beta_stack` with a scalar environment, or none: the environment is the one passed, or the default. -/
theorem C06_built {d : Defaults} {a : Args} {o : SampleObj} (h : init d a = .ok o) (ha : a.beta.isSome)
    (hE : ∀ E, a.epsEnv = some E → E.rshape = []) :
    ∃ e, o.epsEnv = .ok e ∧ ∀ i, e.get i = match a.epsEnv with
      | some E => E.get i
      | none => FP.num d.epsEnv := by
  obtain ⟨o₀, o₁, ho₀, h1, o₂, rfl, h2⟩ := init_ok h
  rcases h2 with ⟨v, _, hb, _⟩ | ⟨v, _, hb, h2⟩
  · rw [hb] at ha; simp at ha
  have ho₁ : o₁.epsEnv = .ok (a.epsEnv.getD (NDArray.scalar (FP.num d.epsEnv))) := by
    rcases setT_cases o₀ a.t with ⟨e, he⟩ | ⟨l, s', hs', he⟩
    · rw [he] at h1; cases h1
    · rw [he] at h1
      obtain ⟨rfl, _⟩ := Prod.ext_iff.1 h1
      rw [ho₀]
      rfl
  cases hv : unpackStack v with
  | error e =>
    simp only [setBeta, hv] at h2
    cases h2
  | ok beta =>
    obtain ⟨s, hs⟩ := unpackStack_uniform hv
    have hsc : (a.epsEnv.getD (NDArray.scalar (FP.num d.epsEnv))).rshape = [] := by
      cases hx : a.epsEnv with
      | none => rfl
      | some E => exact hE E hx
    obtain ⟨e, h3, _, h4⟩ := setBeta_env hv hs ho₁ (by rw [hsc]; exact dimAt_nil _) h2
    refine ⟨e, ?_, fun i => ?_⟩
    · unfold epsEnv at h3 ⊢
      exact h3
    · rw [h4]
      cases a.epsEnv <;> rfl

/-- Assigning `beta_stack` keeps the environment, unless the environment is an array that reaches the layer axis of the
new stack, see `C06_keep_false`. -/
theorem C06_keep_partial {o o' : SampleObj} {v : StackVal (FP ℂ)} {beta : List (NDArray (FP ℂ))}
    {s : List ℕ} {E : NDArray (FP ℂ)} (hv : unpackStack v = .ok beta) (hs : Uniform beta s)
    (hE : o.epsEnv = .ok E) (hd : dimAt E.rshape s.length = 1)
    (hr : Op.run o (.beta v) = (o', .ok ())) :
    ∃ e, o'.epsEnv = .ok e ∧ e.rshape = s ∧ ∀ i, e.get i = E.get i :=
  setBeta_env hv hs hE hd hr

theorem setEps_env0 (o : SampleObj) (x : NDArray (FP ℂ)) (v : StackVal (FP ℂ)) :
    ({ o with epsEnv0 := x } : SampleObj).setEps v =
      ({ (o.setEps v).1 with epsEnv0 := x }, (o.setEps v).2) := by
  unfold setEps
  split <;> rfl

theorem setT_env0 (o : SampleObj) (x : NDArray (FP ℂ)) (v : Option (StackVal (FP ℝ))) :
    ({ o with epsEnv0 := x } : SampleObj).setT v = ({ (o.setT v).1 with epsEnv0 := x }, (o.setT v).2) := by
  unfold setT
  split
  · rfl
  · split <;> rfl

theorem run_env0 {o : SampleObj} (h : o.eps ≠ none) (x : NDArray (FP ℂ)) (op : Op) :
    op.run { o with epsEnv0 := x } = ({ (op.run o).1 with epsEnv0 := x }, (op.run o).2) ∧
      (op.run o).1.eps ≠ none := by
  have heps : ∀ w, (o.setEps w).1.eps ≠ none := by
    intro w
    rcases setEps_cases o w with ⟨e, he⟩ | ⟨l, s, _, he⟩ <;> rw [he]
    · exact h
    · simp
  cases op with
  | t v =>
    refine ⟨setT_env0 o x v, ?_⟩
    rcases setT_cases o v with ⟨e, he⟩ | ⟨l, s, _, he⟩ <;> rw [Op.run, he] <;> exact h
  | eps v => exact ⟨setEps_env0 o x v, heps v⟩
  | beta v =>
    have henv : ({ o with epsEnv0 := x } : SampleObj).epsEnv = o.epsEnv := by
      unfold epsEnv
      cases he : o.eps with
      | none => exact absurd he h
      | some l => cases l <;> rfl
    refine ⟨?_, ?_⟩
    · simp only [Op.run, setBeta, henv]
      split
      · rfl
      · split
        · rfl
        · split
          · rfl
          · exact setEps_env0 o x _
    · rcases setBeta_cases o v with ⟨e, he⟩ | ⟨w, he⟩ <;> rw [Op.run, he]
      · exact h
      · exact heps w
  | nuVac v => exact ⟨rfl, h⟩

theorem runCaught_env0 {o : SampleObj} (h : o.eps ≠ none) (x : NDArray (FP ℂ)) (ops : List Op) :
    ({ o with epsEnv0 := x } : SampleObj).runCaught ops = { o.runCaught ops with epsEnv0 := x } ∧
      (o.runCaught ops).eps ≠ none := by
  induction ops generalizing o with
  | nil => exact ⟨rfl, h⟩
  | cons op ops ih =>
    obtain ⟨h1, h2⟩ := run_env0 h x op
    simp only [runCaught, h1]
    exact ih h2

/-- With `eps_stack` given the argument `eps_env` has no influence on anything that can be read from the sample, now
or after any further assignments. -/
theorem C06_ignored (d : Defaults) (a : Args) (he : a.eps.isSome) (E E' : Option (NDArray (FP ℂ))) :
    (∃ e, init d { a with epsEnv := E } = .error e ∧ init d { a with epsEnv := E' } = .error e) ∨
    ∃ o o', init d { a with epsEnv := E } = .ok o ∧ init d { a with epsEnv := E' } = .ok o' ∧
      ∀ ops, (o.runCaught ops).Observe = (o'.runCaught ops).Observe ∧
        (o.runCaught ops).stack = (o'.runCaught ops).stack := by
  cases hb : a.beta with
  | some w =>
    refine .inl ⟨.valueError exclusiveMsg, C01_sample d _ ?_, C01_sample d _ ?_⟩ <;> simp [he]
  | none =>
    cases hv : a.eps with
    | none => rw [hv] at he; simp at he
    | some v =>
    have key : ∀ F : Option (NDArray (FP ℂ)), init d { a with epsEnv := F } = (do
        let o ← raised ((⟨none, none, NDArray.scalar FP.nan, none⟩ : SampleObj).setT a.t)
        let o ← raised (o.setEps v)
        pure { o with nuVac := a.nuVac, epsEnv0 := F.getD (NDArray.scalar (FP.num d.epsEnv)) }) := by
      intro F
      have h1 := setT_env0 ⟨none, none, NDArray.scalar FP.nan, none⟩
        (F.getD (NDArray.scalar (FP.num d.epsEnv))) a.t
      simp only at h1
      simp only [init, hv, hb, Option.isNone_some, Option.isNone_none, Bool.false_eq_true, if_false, h1]
      obtain ⟨o₁, e | u⟩ := (⟨none, none, NDArray.scalar FP.nan, none⟩ : SampleObj).setT a.t
      · rfl
      · simp only [raised, PyM.ok_bind, PyM.pure_eq_ok]
        rw [setEps_env0]
        obtain ⟨o₂, e | u⟩ := o₁.setEps v <;> rfl
    rw [hv, hb] at key
    rw [key E, key E']
    cases h1 : raised ((⟨none, none, NDArray.scalar FP.nan, none⟩ : SampleObj).setT a.t) with
    | error e => exact .inl ⟨e, rfl, rfl⟩
    | ok o₁ =>
      simp only [PyM.ok_bind]
      cases h2 : raised (o₁.setEps v) with
      | error e => exact .inl ⟨e, rfl, rfl⟩
      | ok o₂ =>
        refine .inr ⟨_, _, rfl, rfl, fun ops => ?_⟩
        have hne : o₂.eps ≠ none := by
          obtain ⟨h3, h4⟩ := raised_ok h2
          rcases setEps_cases o₁ v with ⟨e, he'⟩ | ⟨l, s, _, he'⟩
          · rw [he'] at h4; cases h4
          · rw [he'] at h3; rw [← h3]; simp
        have h5 := fun F : Option (NDArray (FP ℂ)) =>
          runCaught_env0 (o := { o₂ with nuVac := a.nuVac }) hne
            (F.getD (NDArray.scalar (FP.num d.epsEnv))) ops
        have hF : ∀ F : Option (NDArray (FP ℂ)), (SampleObj.mk o₂.t o₂.eps
            (F.getD (NDArray.scalar (FP.num d.epsEnv))) a.nuVac).runCaught ops =
            { (SampleObj.mk o₂.t o₂.eps o₂.epsEnv0 a.nuVac).runCaught ops with
              epsEnv0 := F.getD (NDArray.scalar (FP.num d.epsEnv)) } := fun F => (h5 F).1
        simp only [hF]
        refine ⟨?_, rfl⟩
        have hne' := (h5 none).2
        unfold Observe
        have henv : ∀ (o : SampleObj) (x : NDArray (FP ℂ)), o.eps ≠ none →
            ({ o with epsEnv0 := x } : SampleObj).epsEnv = o.epsEnv := by
          intro o x h
          unfold epsEnv
          cases he : o.eps with
          | none => exact absurd he h
          | some l => cases l <;> rfl
        rw [henv _ (E.getD _) hne', henv _ (E'.getD _) hne']
        rfl

/-- A one-dimensional array of two entries. -/
def vec2 {α : Type} (x y : α) : NDArray α := ⟨[2], fun i => if i 0 = 0 then x else y⟩

/-- The environment at the time of an assignment to `beta_stack` is not kept if it is an array that is as long as the
new stack: here the sample holds two environments, and afterwards one. -/
theorem C06_keep_false (d : Defaults) : ∃ (o o' : SampleObj) (E e : NDArray (FP ℂ)),
    o.Reachable ∧ o.Valid ∧ o.epsEnv = .ok E ∧ E.rshape = [2] ∧ E.get (fun _ => 1) = FP.num 2 ∧
    Op.run o (.beta (.items [sc (1 / 2)])) = (o', .ok ()) ∧ o'.epsEnv = .ok e ∧ e.rshape = [] ∧
    ∀ i, e.get i = FP.num 1 := by
  have hu : Uniform [vec2 (FP.num (1 : ℂ)) (FP.num 2), vec2 (FP.num 3) (FP.num 4)] [2] :=
    ⟨by simp [vec2], fun h => by simp at h⟩
  obtain ⟨l, h1, h2, h3, _, h5⟩ := unpackStack_of_uniform hu
  obtain ⟨E, F, rfl⟩ := List.length_eq_two.1 h3
  have hi : init d { eps := some (.items [vec2 (FP.num (1 : ℂ)) (FP.num 2), vec2 (FP.num 3) (FP.num 4)]) } =
      .ok ⟨some [], some [E, F], NDArray.scalar (FP.num d.epsEnv), none⟩ := by
    simp only [init, setT, setEps, h1, Option.isNone_some, Option.isNone_none, Bool.false_eq_true,
      if_false]
    rfl
  set o : SampleObj := ⟨some [], some [E, F], NDArray.scalar (FP.num d.epsEnv), none⟩ with ho
  have hE : E.rshape = [2] := h2.1 E (by simp)
  have hEg : ∀ i, E.get i = (vec2 (FP.num (1 : ℂ)) (FP.num 2)).get i := fun i => by
    have := h5 i
    simp only [List.map_cons, List.cons.injEq] at this
    exact this.1
  have hub : Uniform [sc (1 / 2)] [] := ⟨by simp [NDArray.scalar], fun _ => rfl⟩
  obtain ⟨b, k1, k2, k3, _, k5⟩ := unpackStack_of_uniform hub
  rcases setBeta_eq (o := o) (env := E) k1 k2 rfl with ⟨h, _⟩ | ⟨_, eps, q1, q2, q3, q4⟩
  · rw [k3, hE] at h
    exact absurd rfl h
  · rw [k3] at q3
    obtain ⟨e, f, rfl⟩ := List.length_eq_two.1 q3
    have hc : checkLayersValid { o with eps := some [e, f] } = .ok () := rfl
    refine ⟨o, _, E, e, ⟨d, _, o, [], hi, rfl⟩, (init_inv hi).2, rfl, hE, by rw [hEg]; rfl,
      q1.trans (by rw [hc]), rfl, q2.1 e (by simp), fun i => ?_⟩
    have := q4 i
    obtain ⟨A, l, hA, hA1⟩ := epsFromBeta_head b
    rw [hA] at this
    simp only [List.map_cons, List.mapIdx_cons, List.cons.injEq, hA1] at this
    rw [this.1, hEg]
    show FP.num 1 * FP.num 1 = FP.num 1
    rw [FP.num_mul, one_mul]

/-- Hypotheses of the positive statements. -/
example (d : Defaults) : ∃ o e, init d { beta := some (.items [sc (1 / 2)]), epsEnv := some (sc 3) } = .ok o ∧
    o.epsEnv = .ok e ∧ e.get (fun _ => 0) = FP.num 3 := by
  obtain ⟨o, bs, h1, _⟩ := C04 d [1 / 2] [] rfl (by norm_num) (some 3) (by norm_num) none
  have h1' : init d { beta := some (.items [sc (1 / 2)]), t := some (.items []), epsEnv := some (sc 3) } =
    .ok o := h1
  have h2 : init d { beta := some (.items [sc (1 / 2)]), epsEnv := some (sc 3) } = .ok o := by
    rw [← h1']
    rfl
  obtain ⟨e, h3, h4⟩ := C06_built h2 rfl (by rintro E ⟨⟩; rfl)
  exact ⟨o, e, h2, h3, h4 _⟩

/-! ## C07 An array-valued environment reaches every beta-built sample elementwise

False: an environment with more axes than the reflection coefficient is matched against the layer axis. -/

/-- What does hold: environments that broadcast into the shape of the reflection coefficient. -/
theorem C07_partial (d : Defaults) (b E : NDArray (FP ℂ)) (nu : Option (NDArray (FP ℝ)))
    (hE : some E.rshape ≤ᵇ some b.rshape) :
    ∃ o e B, SampleObj.bulk d none (some b) (some E) none nu = .ok o ∧
      o.epsEnv = .ok e ∧ e.rshape = b.rshape ∧ (∀ i, e.get i = E.get i) ∧
      o.betaStack = .ok [B] ∧ B.rshape = b.rshape ∧
      ∀ (i : ℕ → ℕ) (x y : ℂ), b.get i = FP.num x → x ≠ 1 → x ≠ -1 → E.get i = FP.num y → y ≠ 0 →
        B.get i = b.get i := by
  have hu : Uniform [b] b.rshape := ⟨by simp, fun h => by simp at h⟩
  obtain ⟨b', h1, h2, h3, _, h5⟩ := unpackStack_of_uniform hu
  obtain ⟨o, bs, k1, k2, k3, k4, k5⟩ := C04_arr d (beta := [b]) (t := none) (E := E) (nu := nu)
    (o₀ := ⟨some [], none, E, none⟩) h1 h2 rfl (fun l hl => by cases hl; rfl) hE
  obtain ⟨B, rfl⟩ := List.length_eq_one_iff.1 k3
  obtain ⟨o₀, o₁, ho₀, g1, o₂, ho, g2⟩ := init_ok k1
  have henv : ∃ e, o.epsEnv = .ok e ∧ e.rshape = b.rshape ∧ ∀ i, e.get i = E.get i := by
    rcases g2 with ⟨v, g2, _⟩ | ⟨v, _, g2, g3⟩
    · cases g2
    cases g2
    have ho₁ : o₁.epsEnv = .ok E := by
      have : (o₀.setT none).1 = o₁ := (Prod.ext_iff.1 g1).1
      rw [← this, ho₀]
      rfl
    obtain ⟨e, q1, q2, q3⟩ := setBeta_env h1 h2 ho₁ (dimAt_of_le_length hE) g3
    refine ⟨e, ?_, q2, q3⟩
    rw [ho]
    exact q1
  obtain ⟨e, q1, q2, q3⟩ := henv
  refine ⟨o, e, B, k1, q1, q2, q3, k2, k4 B (by simp), fun i x y hx h1 h2 hy h0 => ?_⟩
  have := k5 i [x] y (by simp [hx]) (by simp [h1, h2]) hy h0
  simpa using this

example (d : Defaults) := C07_partial d (vec2 (FP.num (1 / 2)) (FP.num (-3))) (vec2 (FP.num 1) (FP.num 2)) none
  (show bshape [2] [2] = some [2] from rfl)

/-- The property is false: a scalar reflection coefficient 1/2 with the environments 1 and 2 gives a single sample with
environment 1 and reflection coefficient 5/7. -/
theorem C07_false (d : Defaults) : ∃ o e B, SampleObj.bulk d none (some (sc (1 / 2)))
      (some (vec2 (FP.num 1) (FP.num 2))) = .ok o ∧ o.Valid ∧ o.epsEnv = .ok e ∧ e.rshape = [] ∧
      (∀ i, e.get i = FP.num 1) ∧ o.betaStack = .ok [B] ∧ B.rshape = [] ∧ ∀ i, B.get i = FP.num (5 / 7) := by
  set E : NDArray (FP ℂ) := vec2 (FP.num 1) (FP.num 2) with hE
  have hub : Uniform [sc (1 / 2)] [] := ⟨by simp [NDArray.scalar], fun _ => rfl⟩
  obtain ⟨b, k1, k2, k3, _, k5⟩ := unpackStack_of_uniform hub
  rcases setBeta_eq (o := ⟨some [], none, E, none⟩) (env := E) k1 k2 rfl with ⟨h, _⟩ |
      ⟨_, eps, q1, q2, q3, q4⟩
  · rw [k3] at h
    exact absurd rfl h
  · rw [k3] at q3
    obtain ⟨e, f, rfl⟩ := List.length_eq_two.1 q3
    have hc : checkLayersValid ⟨some [], some [e, f], E, none⟩ = .ok () := rfl
    have hi : SampleObj.bulk d none (some (sc (1 / 2))) (some E) = .ok ⟨some [], some [e, f], E, none⟩ := by
      have hc0 : checkLayersValid ⟨some [], none, E, none⟩ = .ok () := rfl
      simp only [SampleObj.bulk, init, setT, Option.map_some, Option.map_none, Option.isNone_some,
        Option.isNone_none, Bool.true_eq_false, if_false, Option.getD_some, raised, PyM.ok_bind,
        PyM.pure_eq_ok, hc0, q1, hc]
    obtain ⟨bs, b1, b2, b3, b4⟩ := betaStack_ok (o := ⟨some [], some [e, f], E, none⟩) rfl q2.1
    obtain ⟨B, rfl⟩ := List.length_eq_one_iff.1 (show bs.length = 1 from b3)
    have hg : ∀ i, e.get i = FP.num 1 ∧ f.get i = FP.num 6 := by
      intro i
      have := q4 i
      rw [epsFromBeta_get k2 i (bs := [1 / 2]) (by rw [k5]; rfl) (by norm_num)] at this
      simp only [prods, List.map_cons, List.map_nil, List.mapIdx_cons, List.mapIdx_nil, List.cons.injEq,
        and_true] at this
      refine ⟨this.1.trans ?_, this.2.trans ?_⟩
      · show FP.num 1 * FP.num 1 = FP.num 1
        rw [FP.num_mul, one_mul]
      · show FP.num _ * FP.num 2 = FP.num 6
        rw [FP.num_mul, FP.num_inj]
        norm_num
    refine ⟨_, e, B, hi, (init_inv hi).2, rfl, q2.1 e (by simp), fun i => (hg i).1, b1, b2 B (by simp),
      fun i => ?_⟩
    have := b4 i
    simp only [List.map_cons, List.map_nil, (hg i).1, (hg i).2] at this
    have h2 : B.get i = (FP.num 6 - FP.num 1) / (FP.num 6 + FP.num 1) := by
      have h3 := this
      simp only [List.dropLast, List.tail, List.zipWith_cons_cons, List.zipWith_nil_left,
        List.cons.injEq, and_true] at h3
      exact h3
    rw [h2, FP.num_sub, FP.num_add, FP.num_div _ (by norm_num), FP.num_inj]
    norm_num

/-- Nor does it raise only for environments of another length than two: with a scalar reflection coefficient every
longer array of environments is rejected. -/
theorem C07_raises (d : Defaults) (x : FP ℂ) (E : NDArray (FP ℂ)) {m : ℕ} (hE : E.rshape = [m]) (h1 : m ≠ 1)
    (h2 : m ≠ 2) : SampleObj.bulk d none (some (NDArray.scalar x)) (some E) = .error .broadcast := by
  have hub : Uniform [NDArray.scalar x] [] := ⟨by simp [NDArray.scalar], fun _ => rfl⟩
  obtain ⟨b, k1, k2, k3, _, k5⟩ := unpackStack_of_uniform hub
  rcases setBeta_eq (o := ⟨some [], none, E, none⟩) (env := E) k1 k2 rfl with ⟨_, h⟩ | ⟨h, _⟩
  · have hc0 : checkLayersValid ⟨some [], none, E, none⟩ = .ok () := rfl
    simp only [SampleObj.bulk, init, setT, Option.map_some, Option.map_none, Option.isNone_some,
        Option.isNone_none, Bool.true_eq_false, if_false, Option.getD_some, raised, PyM.ok_bind,
        PyM.pure_eq_ok, hc0, h, PyM.error_bind]
  · rw [k3, hE] at h
    simp [bshape, bdim, h1, Ne.symm h2] at h

/-! ## C08 multilayer tells whether there is a finite layer -/

/-- Every consistent object. -/
theorem C08_valid {o : SampleObj} (hv : o.Valid) {t : List (NDArray (FP ℝ))} (ht : o.t = some t) :
    o.multilayer = .ok (decide (t ≠ [])) ∧ o.stack.multilayer = decide (t ≠ []) := by
  obtain ⟨eps, t', h1, h2, h3⟩ := hv
  rw [ht] at h2
  cases h2
  have hd : decide (eps.length > 2) = decide (t ≠ []) := by
    rw [decide_eq_decide, h3]
    cases t <;> simp
  constructor
  · simp only [multilayer, nLayers, h1, PyM.ok_bind, PyM.pure_eq_ok, hd]
  · simp only [Stack.multilayer, Stack.nLayers, stack, h1, Option.getD_some, List.length_map, hd]

/-- **C08.** After construction and any accepted assignments, `multilayer` is true exactly if the sample has a finite
thickness. -/
theorem C08 {d : Defaults} {a : Args} {o o' : SampleObj} (h : init d a = .ok o) {ops : List Op}
    (hr : o.runAll ops = .ok o') :
    ∃ t, o'.t = some t ∧ o'.multilayer = .ok (decide (t ≠ [])) ∧ o'.stack.multilayer = decide (t ≠ []) := by
  have hv := C02 h hr
  obtain ⟨_, t, _, ht, _⟩ := id hv
  exact ⟨t, ht, C08_valid hv ht⟩

example (d : Defaults) : ∃ o : SampleObj, o.Valid ∧ ∃ t, o.t = some t ∧ t ≠ [] := by
  obtain ⟨o, l, l', h1, h2, h3, _, _, _, h4⟩ := init_scalars d (eps := [1, Complex.I, 3].map FP.num)
    (t := [FP.num 1]) rfl none
  exact ⟨o, (init_inv h1).2, l', h3, fun h => by rw [h] at h4; simp at h4⟩

end Snompy.Props
