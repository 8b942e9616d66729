import Verif.Props.Whole

/-!
# C91: what `bulk_sample` builds
-/

namespace Snompy.Props

open Snompy SampleObj

/-! ## C91 bulk_sample puts the environment above the substrate -/

/-- From the permittivity of the substrate: two layers of the common shape, environment first, no thickness, the
wavenumber as given.  Shapes without a common one raise. -/
theorem C91_eps (d : Defaults) (e : NDArray (FP ℂ)) (E : Option (NDArray (FP ℂ))) (nu : Option (NDArray (FP ℝ))) :
    match bshape (E.getD (NDArray.scalar (FP.num d.epsEnv))).rshape e.rshape with
    | none => SampleObj.bulk d (some e) none E none nu = .error .broadcast
    | some s => ∃ (o : SampleObj) (A B : NDArray (FP ℂ)), SampleObj.bulk d (some e) none E none nu = .ok o ∧
        o.eps = some [A, B] ∧ o.t = some [] ∧ o.nuVac = nu ∧ A.rshape = s ∧ B.rshape = s ∧ (∀ i, B.get i = e.get i) ∧
        ∀ i, A.get i = match E with
          | some E => E.get i
          | none => FP.num d.epsEnv := by
  set E₀ := E.getD (NDArray.scalar (FP.num d.epsEnv)) with hE₀
  have hc0 : checkLayersValid ⟨some [], none, E₀, none⟩ = .ok () := rfl
  have hb : broadcastShapes ([E₀, e].map (·.rshape)) = bshape E₀.rshape e.rshape := by
    rw [broadcastShapes_eq]
    simp only [List.map_cons, List.map_nil, joinAll, Shape.join_unit]
    rfl
  have hun : SampleObj.bulk d (some e) none E none nu =
      raised ((⟨some [], none, E₀, none⟩ : SampleObj).setEps (.items [E₀, e])) >>= fun o => pure { o with nuVac := nu } := by
    simp only [SampleObj.bulk, init, setT, Option.map_some, Option.map_none, Option.isNone_some, Option.isNone_none,
      Bool.false_eq_true, if_false, Option.getD_some, raised, PyM.ok_bind, PyM.pure_eq_ok, hc0, ← hE₀]
  cases hs : bshape E₀.rshape e.rshape with
  | none =>
    simp only [hun, setEps, unpackStack, hb, hs]
    rfl
  | some s =>
    rw [hs] at hb
    refine ⟨⟨some [], some [E₀.broadcastTo s, e.broadcastTo s], E₀, nu⟩, E₀.broadcastTo s, e.broadcastTo s, ?_, rfl, rfl,
      rfl, rfl, rfl, fun i => NDArray.broadcastTo_get (le_of_broadcastShapes hb (by simp)) i, fun i => ?_⟩
    · simp only [hun, setEps, unpackStack, hb]
      rfl
    · refine (NDArray.broadcastTo_get (le_of_broadcastShapes hb (by simp)) i).trans ?_
      rw [hE₀]
      cases E <;> rfl

/-- From the reflection coefficient of the surface, for environments that broadcast into its shape: the permittivity of
the substrate is the one with that reflection coefficient. -/
theorem C91_beta (d : Defaults) (b E : NDArray (FP ℂ)) (nu : Option (NDArray (FP ℝ)))
    (hE : some E.rshape ≤ᵇ some b.rshape) :
    ∃ (o : SampleObj) (A B : NDArray (FP ℂ)), SampleObj.bulk d none (some b) (some E) none nu = .ok o ∧
      o.eps = some [A, B] ∧ o.t = some [] ∧ o.nuVac = nu ∧ A.rshape = b.rshape ∧ B.rshape = b.rshape ∧
      (∀ i, A.get i = E.get i) ∧
      ∀ (i : ℕ → ℕ) (x y : ℂ), b.get i = FP.num x → E.get i = FP.num y → x ≠ 1 →
        B.get i = FP.num (y * (1 + x) / (1 - x)) := by
  have hub : Uniform [b] b.rshape := ⟨by simp, fun h => by simp at h⟩
  obtain ⟨b', k1, k2, k3, _, k5⟩ := unpackStack_of_uniform hub
  have hd : dimAt E.rshape b.rshape.length = 1 := dimAt_of_le_length hE
  obtain ⟨o₁, e₁, B₁, hbulk, -⟩ := C07_partial d b E nu hE
  rcases setBeta_eq (o := ⟨some [], none, E, none⟩) (env := E) k1 k2 rfl with ⟨_, h⟩ | ⟨_, eps, q1, q2, q3, q4⟩
  · exfalso
    have hc0 : checkLayersValid ⟨some [], none, E, none⟩ = .ok () := rfl
    simp only [SampleObj.bulk, init, setT, Option.map_some, Option.map_none, Option.isNone_some,
        Option.isNone_none, Bool.true_eq_false, if_false, Option.getD_some, raised, PyM.ok_bind,
        PyM.pure_eq_ok, hc0, h, PyM.error_bind] at hbulk
    cases hbulk
  rw [k3] at q3
  obtain ⟨A, B, rfl⟩ := List.length_eq_two.1 q3
  have hc : checkLayersValid ⟨some [], some [A, B], E, none⟩ = .ok () := rfl
  have hi : SampleObj.bulk d none (some b) (some E) none nu = .ok ⟨some [], some [A, B], E, nu⟩ := by
    have hc0 : checkLayersValid ⟨some [], none, E, none⟩ = .ok () := rfl
    simp only [SampleObj.bulk, init, setT, Option.map_some, Option.map_none, Option.isNone_some,
      Option.isNone_none, Bool.true_eq_false, if_false, Option.getD_some, raised, PyM.ok_bind,
      PyM.pure_eq_ok, hc0, q1, hc]
  refine ⟨_, A, B, hi, rfl, rfl, rfl, q2.1 A (by simp), q2.1 B (by simp), fun i => ?_, fun i x y hx hy h1 => ?_⟩
  · obtain ⟨A₀, l, hA, hA1⟩ := epsFromBeta_head b'
    have := q4 i
    rw [hA] at this
    simp only [List.map_cons, List.mapIdx_cons, List.cons.injEq] at this
    rw [this.1, hA1, NDArray.get_update_of_dimAt hd]
    cases E.get i with
    | num x => rw [FP.num_mul, one_mul]
    | nan => rfl
  · have := q4 i
    rw [epsFromBeta_get k2 i (bs := [x]) (by rw [k5]; simp [hx]) (by simpa using h1)] at this
    simp only [prods, List.map_cons, List.map_nil, List.mapIdx_cons, List.mapIdx_nil, List.cons.injEq, and_true] at this
    rw [this.2, NDArray.get_update_of_dimAt hd, hy, FP.num_mul, FP.num_inj]
    ring

example (d : Defaults) := C91_beta d (vec2 (FP.num (1 / 2)) (FP.num (-3))) (vec2 (FP.num 1) (FP.num 2)) none
  (show bshape [2] [2] = some [2] from rfl)

/-- A bulk sample has no finite layer: an empty `t_stack` changes nothing, every other one raises. -/
theorem C91_layers (d : Defaults) (e b E : Option (NDArray (FP ℂ))) (nu : Option (NDArray (FP ℝ))) :
    SampleObj.bulk d e b E (some (.items [])) nu = SampleObj.bulk d e b E none nu ∧
    ∀ v, v ≠ .items [] → ∀ o, SampleObj.bulk d e b E (some v) nu ≠ .ok o := by
  refine ⟨rfl, fun v hv o ho => ?_⟩
  obtain ⟨o₀, o₁, rfl, h1, o₂, rfl, h2⟩ := init_ok ho
  obtain ⟨eps, t, g1, g2, g3⟩ := (init_inv ho).2
  have ht : ∃ lt, o₁.t = some lt ∧ lt ≠ [] := by
    cases hv' : unpackStack v with
    | error err =>
      simp only [setT, hv'] at h1
      cases h1
    | ok l =>
      simp only [setT, hv'] at h1
      obtain ⟨rfl, _⟩ := Prod.ext_iff.1 h1
      refine ⟨l, rfl, ?_⟩
      rintro rfl
      obtain ⟨l₀, s, rfl, _, hl⟩ := unpackStack_ok hv'
      exact hv (by rw [List.map_eq_nil_iff.1 hl.symm])
  obtain ⟨lt, hlt, hne⟩ := ht
  rcases h2 with ⟨w, h3, h4, h5⟩ | ⟨w, h3, h4, h5⟩
  · have he : ∃ e', e = some e' := by
      cases e with
      | none => cases h3
      | some e' => exact ⟨e', rfl⟩
    obtain ⟨e', rfl⟩ := he
    cases h3
    cases hu : unpackStack (.items [E.getD (NDArray.scalar (FP.num d.epsEnv)), e']) with
    | error err =>
      simp only [setEps, hu] at h5
      cases h5
    | ok l =>
      simp only [setEps, hu] at h5
      obtain ⟨rfl, _⟩ := Prod.ext_iff.1 h5
      have hlen : l.length = 2 := by
        have := congrArg List.length (unpackStack_get hu fun _ => 0)
        simpa using this
      simp only [Option.some.injEq] at g1
      rw [hlt] at g2
      cases g2
      rw [← g1, hlen] at g3
      exact hne (List.length_eq_zero_iff.1 (by omega))
  · have he : ∃ b', b = some b' := by
      cases b with
      | none => cases h4
      | some e' => exact ⟨e', rfl⟩
    obtain ⟨b', rfl⟩ := he
    cases h4
    have hub : Uniform [b'] b'.rshape := ⟨by simp, fun h => by simp at h⟩
    obtain ⟨b'', k1, k2, k3, _, k5⟩ := unpackStack_of_uniform hub
    have hE : ∃ X, o₁.epsEnv = .ok X := by
      cases hX : o₁.epsEnv with
      | ok X => exact ⟨X, rfl⟩
      | error err =>
        simp only [setBeta, k1, hX] at h5
        cases h5
    obtain ⟨X, hX⟩ := hE
    rcases setBeta_eq (o := o₁) (env := X) k1 k2 hX with ⟨_, h⟩ | ⟨_, eps', q1, q2, q3, q4⟩
    · rw [h] at h5
      cases h5
    · rw [q1] at h5
      obtain ⟨rfl, _⟩ := Prod.ext_iff.1 h5
      simp only [Option.some.injEq] at g1
      rw [hlt] at g2
      cases g2
      rw [← g1, q3, k3] at g3
      simp only [List.length_cons, List.length_nil] at g3
      exact hne (List.length_eq_zero_iff.1 (by omega))

/-- A thickness for a bulk sample. -/
example (d : Defaults) : ∀ o, SampleObj.bulk d (some (sc 4)) none none (some (.items [scR 5])) ≠ .ok o :=
  (C91_layers d (some (sc 4)) none none none).2 _ (by simp)

/-- The reflection coefficient of the sample is the one given, or the one of the interface between environment and
substrate. -/
theorem C91_refl (d : Defaults) (E : ℂ) (nu : Option (NDArray (FP ℝ))) (q : ℝ) :
    (∀ e : ℂ, e ≠ 0 → e + E ≠ 0 → ∃ o A, SampleObj.bulk d (some (sc e)) none (some (sc E)) none nu = .ok o ∧
      o.stack.reflCoefQs (.ok (scR q)) = .ok (.ok A) ∧ ∀ i, A.get i = FP.num ((e - E) / (e + E))) ∧
    (∀ β : ℂ, β ≠ 1 → β ≠ -1 → E ≠ 0 → ∃ o A, SampleObj.bulk d none (some (sc β)) (some (sc E)) none nu = .ok o ∧
      o.stack.reflCoefQs (.ok (scR q)) = .ok (.ok A) ∧ ∀ i, A.get i = FP.num β) := by
  have key : ∀ (o : SampleObj) (A B : NDArray (FP ℂ)) (e : ℂ), o.eps = some [A, B] → o.t = some [] → A.rshape = [] →
      B.rshape = [] → (∀ i, A.get i = FP.num E) → (∀ i, B.get i = FP.num e) → e ≠ 0 → e + E ≠ 0 →
      ∃ R, o.stack.reflCoefQs (.ok (scR q)) = .ok (.ok R) ∧ ∀ i, R.get i = FP.num ((e - E) / (e + E)) := by
    intro o A B e h1 h2 h3 h4 h5 h6 h7 h8
    let S : ArrSample := ⟨[A, B], [], [], [], by simp [h3, h4], by simp, fun _ => rfl, rfl⟩
    have hS : o.stack = S.stack (o.nuVac.map .ok) := by
      simp only [SampleObj.stack, ArrSample.stack, h1, h2, S, Option.getD_some]
    have hf : ∀ i : ℕ → ℕ, (S.at_ i).reflCoefQs ((scR q).get i) = .ok (FP.num ((e - E) / (e + E))) := fun i => by
      have : S.at_ i = bulk E e none := by
        simp only [ArrSample.at_, S, List.map_cons, List.map_nil, h5, h6]
        rfl
      rw [this]
      exact C09_refl E e none _ h7 h8
    have hD := C60_refl_coef_qs S (o.nuVac.map .ok) (scR q)
    rw [show joinAll [some (scR q).rshape, some S.epsShape, some S.tShape] = some [] from rfl] at hD
    rcases hD with ⟨err, _, h⟩ | ⟨R, g, hR, _, hg⟩
    · have := (hf fun _ => 0).symm.trans (h fun _ => 0)
      cases this
    · refine ⟨R, by rw [hS]; exact hR, fun i => ?_⟩
      rw [(hg i).2, ← Except.ok.inj ((hf i).symm.trans (hg i).1)]
  refine ⟨fun e h1 h2 => ?_, fun β h1 h2 h3 => ?_⟩
  · have h := C91_eps d (sc e) (some (sc E)) nu
    obtain ⟨o, A, B, g1, g2, g3, g4, g5, g6, g7, g8⟩ := h
    obtain ⟨R, k1, k2⟩ := key o A B e g2 g3 g5 g6 g8 g7 h1 h2
    exact ⟨o, R, g1, k1, k2⟩
  · obtain ⟨o, A, B, g1, g2, g3, g4, g5, g6, g7, g8⟩ := C91_beta d (sc β) (sc E) nu (show bshape [] [] = some [] from rfl)
    have d1 : 1 - β ≠ 0 := sub_ne_zero.2 (Ne.symm h1)
    have d2 : 1 + β ≠ 0 := fun h => h2 (by linear_combination h)
    have e1 : E * (1 + β) / (1 - β) + E = 2 * E / (1 - β) := by field_simp; ring
    have e2 : E * (1 + β) / (1 - β) - E = β * (2 * E / (1 - β)) := by field_simp; ring
    have e3 : 2 * E / (1 - β) ≠ 0 := div_ne_zero (mul_ne_zero two_ne_zero h3) d1
    obtain ⟨R, k1, k2⟩ := key o A B (E * (1 + β) / (1 - β)) g2 g3 g5 g6 g7 (fun i => g8 i β E rfl rfl h1)
      (div_ne_zero (mul_ne_zero h3 d2) d1) (by rw [e1]; exact e3)
    refine ⟨o, R, g1, k1, fun i => ?_⟩
    rw [k2, e1, e2, mul_div_assoc, div_self e3, mul_one]

example (d : Defaults) := (C91_refl d 1 none 0).1 4 (by norm_num) (by norm_num)
example (d : Defaults) := (C91_refl d 1 none 0).2 (1 / 2) (by norm_num) (by norm_num) one_ne_zero

end Snompy.Props
