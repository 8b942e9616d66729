import Verif.Model.Masked
import Verif.Props.BulkSample
import Verif.Props.Inversion

/-!
# C99: permittivities recovered from a measurement
-/

namespace Snompy.Props

open Snompy Polynomial

theorem bshape_of_le {s u : List ℕ} (h : some s ≤ᵇ some u) : bshape s u = some u := h

theorem le_snoc (s : List ℕ) (K : ℕ) : some s ≤ᵇ some (s ++ [K]) := by
  show bshape s (s ++ [K]) = some (s ++ [K])
  induction s with
  | nil => simp
  | cons a s ih => rw [List.cons_append, bshape_cons, bdim_self, ih]; rfl

/-- The permittivity of the entry `x` of a masked array in the environment `e`, unless the division is not possible. -/
noncomputable def recovered : FP ℂ → FP ℂ → Option (FP ℂ)
  | .num e, .num β => open Classical in if ‖e * (1 + β)‖ * maTiny < ‖1 - β‖ then some (.num (epsOf e β)) else none
  | _, _ => none

open Classical in
theorem recovered_num (e β : ℂ) : recovered (FP.num e) (FP.num β) =
    if ‖e * (1 + β)‖ * maTiny < ‖1 - β‖ then some (.num (epsOf e β)) else none := rfl

theorem zipWith_get {α β γ : Type} (f : α → β → γ) {A : NDArray α} {B : NDArray β} {u : List ℕ}
    (h : bshape A.rshape B.rshape = some u) : ∃ C, NDArray.zipWith f A B = .ok C ∧ C.rshape = u ∧
      ∀ i, C.get i = f (A.get i) (B.get i) := by
  refine ⟨⟨u, fun i => f (A.get i) (B.get i)⟩, by unfold NDArray.zipWith; rw [h], rfl, fun i => ?_⟩
  have hA : some A.rshape ≤ᵇ some u := by rw [← h, ← Shape.some_join_some]; exact Shape.le_join_left _ _
  have hB : some B.rshape ≤ᵇ some u := by rw [← h, ← Shape.some_join_some]; exact Shape.le_join_right _ _
  show f (A.get (canon u i)) (B.get (canon u i)) = _
  unfold NDArray.get
  rw [canon_canon_of_le hA, canon_canon_of_le hB]

/-- The chain of masked operations on one entry. -/
noncomputable def permElem (e : FP ℂ) (x : MElem) : MElem :=
  maDiv (maBin (· * ·) (e, false) (maBin (· + ·) (FP.num 1, false) x)) (maBin (· - ·) (FP.num 1, false) x)

theorem permElem_eq (e x : FP ℂ) (m : Bool) :
    (if (permElem e (x, m)).2 then none else some (permElem e (x, m)).1) = if m then none else recovered e x := by
  have key : ∀ y : MElem, y.2 = true → (maDiv y (maBin (· - ·) (FP.num 1, false) (x, m))).2 = true := by
    intro y hy
    unfold maDiv
    split <;> simp [hy]
  cases m with
  | true =>
    have : (permElem e (x, true)).2 = true := key _ (by simp [maBin])
    simp [this]
  | false =>
    unfold permElem
    simp only [maBin, Bool.or_self, Bool.false_eq_true, if_false]
    cases e with
    | nan => cases x <;> rfl
    | num e =>
      cases x with
      | nan => rfl
      | num b =>
        rw [FP.num_add, FP.num_mul, FP.num_sub]
        unfold recovered
        by_cases h : ‖e * (1 + b)‖ * maTiny < ‖1 - b‖
        · have hb : 1 - b ≠ 0 := by
            intro h0
            rw [h0, norm_zero] at h
            have : (0 : ℝ) ≤ ‖e * (1 + b)‖ * maTiny := by unfold maTiny; positivity
            linarith
          simp only [maDiv, FP.num_div _ hb, unsafeDivide, not_le.2 h, h, epsOf, decide_false, Bool.or_self, Bool.false_eq_true,
            if_false, if_true]
        · simp only [h, if_false]
          by_cases hb : 1 - b = 0
          · have : (FP.num (e * (1 + b)) / FP.num (1 - b) : FP ℂ) = FP.nan := by rw [hb]; exact FP.num_div_zero _
            simp only [maDiv, this, if_true]
          · simp only [maDiv, FP.num_div _ hb, unsafeDivide, not_lt.1 h, decide_true, Bool.true_or, if_true]

/-- C99: `permitivitty` of a masked array has the same shape; it hides what was hidden and what cannot be divided, and the
other entries are the permittivities with the given reflection coefficients. -/
theorem C99_masked (M : Masked) (epsI : NDArray (FP ℂ)) {s : List ℕ} {K : ℕ} (hd : M.data.rshape = s ++ [K])
    (hm : M.mask.rshape = s ++ [K]) (hE : some epsI.rshape ≤ᵇ some s) :
    ∃ E, permMasked M epsI = .ok E ∧ E.data.rshape = s ++ [K] ∧ E.mask.rshape = s ++ [K] ∧
      (∀ i, (if E.mask.get i then none else some (E.data.get i)) =
        if M.mask.get i then none else recovered (epsI.get i) (M.data.get i)) ∧
      ∀ i, E.unmasked i = (M.unmasked i).filterMap (recovered (epsI.get i)) := by
  have hel : ∀ i, M.elems.get i = (M.data.get i, M.mask.get i) := by
    intro i
    show (M.data.get (canon M.data.rshape i), M.mask.get (canon M.data.rshape i)) = _
    unfold NDArray.get
    rw [hd, hm, canon_canon]
  have hels : M.elems.rshape = s ++ [K] := hd
  have hun : ∀ (A : NDArray (FP ℂ)) i, (unmaskedElems A).get i = (A.get i, false) := fun A i => NDArray.map_get _ _ _
  obtain ⟨a, ha, has, hag⟩ := zipWith_get (maBin (· + ·)) (A := unmaskedElems (NDArray.scalar (FP.num 1))) (B := M.elems)
    (u := s ++ [K]) (by rw [hels]; rfl)
  obtain ⟨b, hb, hbs, hbg⟩ := zipWith_get (maBin (· * ·)) (A := unmaskedElems epsI) (B := a)
    (u := s ++ [K]) (by rw [has]; exact Shape.le_trans hE (le_snoc s K))
  obtain ⟨c, hc, hcs, hcg⟩ := zipWith_get (maBin (· - ·)) (A := unmaskedElems (NDArray.scalar (FP.num 1))) (B := M.elems)
    (u := s ++ [K]) (by rw [hels]; rfl)
  obtain ⟨q, hq, hqs, hqg⟩ := zipWith_get maDiv (A := b) (B := c) (u := s ++ [K]) (by rw [hbs, hcs]; exact bshape_self _)
  have hget : ∀ i, q.get i = permElem (epsI.get i) (M.data.get i, M.mask.get i) := fun i => by
    rw [hqg, hbg, hcg, hag, hel, hun, hun]
    rfl
  have hone : ∀ i, (if (q.map Prod.snd).get i then none else some ((q.map Prod.fst).get i)) =
      if M.mask.get i then none else recovered (epsI.get i) (M.data.get i) := fun i => by
    rw [NDArray.map_get, NDArray.map_get, hget, permElem_eq]
  refine ⟨⟨q.map Prod.fst, q.map Prod.snd⟩, ?_, hqs, hqs, hone, fun i => ?_⟩
  · unfold permMasked
    simp only [ha, hb, hc, hq, PyM.ok_bind, PyM.pure_eq_ok]
  · have hdim : dimAt epsI.rshape s.length = 1 := SampleObj.dimAt_of_le_length hE
    unfold Masked.unmasked
    rw [NDArray.column_eq (A := q.map Prod.fst) hqs, NDArray.column_eq (A := q.map Prod.snd) hqs, NDArray.column_eq hd,
      NDArray.column_eq hm, List.zip_map', List.zip_map', List.filterMap_map, List.filterMap_map, List.filterMap_filterMap]
    refine List.filterMap_congr fun k _ => ?_
    have := hone (Function.update i s.length k)
    rw [NDArray.get_update_of_dimAt hdim] at this
    simp only [Function.comp]
    rw [this]
    split <;> rfl

theorem recovered_some {x y : FP ℂ} {e : FP ℂ} (h : recovered e x = some y) : ∃ e' β : ℂ, e = FP.num e' ∧ x = FP.num β ∧
    β ≠ 1 ∧ y = FP.num (epsOf e' β) := by
  cases e with
  | nan => cases h
  | num e =>
    cases x with
    | nan => cases h
    | num β =>
      rw [recovered_num] at h
      split at h
      · rename_i h'
        refine ⟨e, β, rfl, rfl, ?_, (Option.some.inj h).symm⟩
        rintro rfl
        rw [sub_self, norm_zero] at h'
        have : (0 : ℝ) ≤ ‖e * (1 + 1)‖ * maTiny := by unfold maTiny; positivity
        linarith
      · cases h

/-- The reflection coefficient of the recovered permittivity. -/
theorem refl_epsOf {e β : ℂ} (he : e ≠ 0) (hβ : β ≠ 1) :
    epsOf e β + e ≠ 0 ∧ (epsOf e β - e) / (epsOf e β + e) = β := by
  have h1 : 1 - β ≠ 0 := sub_ne_zero.2 (Ne.symm hβ)
  have h2 : epsOf e β + e = 2 * e / (1 - β) := by unfold epsOf; field_simp; ring
  have h3 : epsOf e β - e = 2 * e * β / (1 - β) := by unfold epsOf; field_simp; ring
  have h4 : 2 * e / (1 - β) ≠ 0 := div_ne_zero (mul_ne_zero two_ne_zero he) h1
  refine ⟨h2 ▸ h4, ?_⟩
  rw [h2, h3]
  field_simp

/-- The permittivity is recovered from the reflection coefficient, unless it is huge. -/
theorem recovered_refl {e ε : ℂ} (he : e ≠ 0) (hs : ε + e ≠ 0) (hbig : ‖ε‖ < 2 ^ (1022 : ℤ)) :
    (ε - e) / (ε + e) ≠ 1 ∧ epsOf e ((ε - e) / (ε + e)) = ε ∧
      recovered (FP.num e) (FP.num ((ε - e) / (ε + e))) = some (FP.num ε) := by
  have h1 : 1 - (ε - e) / (ε + e) = 2 * e / (ε + e) := by field_simp; ring
  have h2 : e * (1 + (ε - e) / (ε + e)) = 2 * e / (ε + e) * ε := by field_simp; ring
  have h0 : 2 * e / (ε + e) ≠ 0 := div_ne_zero (mul_ne_zero two_ne_zero he) hs
  have h3 : epsOf e ((ε - e) / (ε + e)) = ε := by
    unfold epsOf
    rw [h1, h2]
    field_simp
  refine ⟨fun h => h0 (by rw [← h1, h, sub_self]), h3, ?_⟩
  rw [recovered_num, h1, h2, h3, if_pos]
  rw [norm_mul, mul_assoc]
  refine mul_lt_of_lt_one_right (norm_pos_iff.2 h0) ?_
  have : (0 : ℝ) < maTiny := by unfold maTiny; positivity
  calc ‖ε‖ * maTiny < 2 ^ (1022 : ℤ) * maTiny := mul_lt_mul_of_pos_right hbig this
    _ = 1 := by unfold maTiny; rw [← zpow_add₀ two_ne_zero]; norm_num

/-- A bulk sample as the methods see it: environment and substrate at every index. -/
theorem bulk_arr {d : Defaults} {eps : NDArray (FP ℂ)} {E : Option (NDArray (FP ℂ))} {nu : Option (NDArray (FP ℝ))}
    {o : SampleObj} (ho : SampleObj.bulk d (some eps) none E none nu = .ok o) :
    ∃ S : ArrSample, S.t = [] ∧ o.stack = S.stack (nu.map .ok) ∧ ∀ (i : ℕ → ℕ) (e ε : ℂ), eps.get i = FP.num ε →
      (E.getD (NDArray.scalar (FP.num d.epsEnv))).get i = FP.num e → S.at_ i = bulk e ε := by
  have h := C91_eps d eps E nu
  split at h
  · rw [ho] at h
    cases h
  · rename_i s _
    obtain ⟨o', A, B, h1, h2, h3, h4, h5, h6, h7, h8⟩ := h
    rw [ho, Except.ok.injEq] at h1
    subst h1
    refine ⟨⟨[A, B], [], s, [], by simp [h5, h6], by simp, fun _ => rfl, rfl⟩, rfl, ?_, fun i e ε hε he => ?_⟩
    · unfold SampleObj.stack ArrSample.stack
      rw [h2, h3, h4]
      rfl
    · have hA : A.get i = FP.num e := by
        rw [h8, ← he]
        cases E <;> rfl
      simp [ArrSample.at_, bulk, layered, h7, hA, hε]

/-! ## The finite dipole model -/

section

variable {env : Env} {sv : Solver} (hs : sv.Correct) {α : NDArray (FP ℂ)} {aTip n : NDArray (FP ℝ)}
  {z : Option (NDArray (FP ℝ))} {a : Fdm.Args} {nTrapz nTayl : Option ℕ} {v : InvArgs} {M : Masked}
  (hM : Fdm.invert env sv α aTip n z a nTrapz nTayl v = .ok M) {s : List ℕ} (hsh : Fdm.invShape α aTip n z a = some s)
  (hE : some (v.envEps env).rshape ≤ᵇ some s)

include hs hM hsh hE

/-- C99 for the finite dipole model: every permittivity that is recovered is one of a bulk sample that gives the measured
signal in the Taylor model, and it meets the criteria. -/
theorem C99_fdm_sound : ∃ E, permMasked M (v.envEps env) = .ok E ∧ E.data.rshape = M.data.rshape ∧
    ∀ i, InBounds s i → ∀ x ∈ E.unmasked i, ∃ e ε : ℂ, (v.envEps env).get i = FP.num e ∧ x = FP.num ε ∧
      (v.rejectNegativeEpsImag = true → 0 ≤ ε.im) ∧ (v.rejectSubvacuumEpsAbs = true → 1 ≤ ‖ε‖) ∧
      (e ≠ 0 → ε ≠ 0 → ‖(ε - e) / (ε + e)‖ ≤ v.thr env ∧ ∀ nu nLag m, m = none ∨ m = some "bulk" →
        Fdm.effPolNTaylor env (bulk e ε nu) (aTip.get i) (n.get i) (z.map (·.get i)) (Fdm.argsAt a i) nLag m nTrapz nTayl =
          .ok (α.get i)) := by
  obtain ⟨K, hd, hm, -⟩ := C52_fdm hs hM hsh
  obtain ⟨E, h1, h2, h3, -, h4⟩ := C99_masked M (v.envEps env) hd hm hE
  refine ⟨E, h1, h2.trans hd.symm, fun i hi x hx => ?_⟩
  rw [h4 i, List.mem_filterMap] at hx
  obtain ⟨y, hy, hyx⟩ := hx
  obtain ⟨e, β, he, rfl, hβ, rfl⟩ := recovered_some hyx
  obtain ⟨s', K', hs', -, hsound⟩ := C50_fdm hs hM
  have := hs'.symm.trans hsh
  cases this
  obtain ⟨β', c, p, hb, -, -, -, hthr, -, hacc⟩ := hsound i hi _ hy
  rw [FP.num_inj] at hb
  subst hb
  obtain ⟨-, hI, hA⟩ := hacc (SampleObj.dimAt_of_le_length hE)
  refine ⟨e, _, he, rfl, fun h => ?_, fun h => ?_, fun he0 hε => ?_⟩
  · obtain ⟨e', he', h5⟩ := hI h
    rw [he, FP.num_inj] at he'
    subst he'
    rcases h5 with h5 | h5
    · exact h5.2
    · exact absurd h5.1 hβ
  · obtain ⟨e', he', h5⟩ := hA h
    rw [he, FP.num_inj] at he'
    subst he'
    rcases h5 with h5 | h5
    · exact h5.2
    · exact absurd h5.1 hβ
  · obtain ⟨r1, r2⟩ := refl_epsOf he0 hβ
    refine ⟨r2.symm ▸ hthr, fun nu nLag m hm => ?_⟩
    refine C53_fdm_back hs hM hsh hi hy (S := bulk e (epsOf e β) nu) ?_ hm nLag ?_
    · simp [bulk, layered]
    · rw [C09_refl e _ nu _ hε r1, r2]

/-- C99 for the finite dipole model: the permittivity of a bulk sample whose Taylor signal was measured is among the recovered
ones, if it meets the criteria and the threshold (and the equation has degree two or more, or one like the first column,
see C51). -/
theorem C99_fdm_complete {E : Masked} (hperm : permMasked M (v.envEps env) = .ok E) {eps : NDArray (FP ℂ)} {o : SampleObj}
    {nu : Option (NDArray (FP ℝ))} (ho : SampleObj.bulk env.defaults (some eps) none v.epsEnv none nu = .ok o)
    {m : Option String} (hm : m = none ∨ m = some "bulk") (nLag : Option ℕ)
    (hfwd : Fdm.effPolNTaylor env o.stack (.ok aTip) (.ok n) (z.map .ok) (Fdm.argsArr a) nLag m nTrapz nTayl = .ok (.ok α))
    {i : ℕ → ℕ} (hi : InBounds s i) {e ε : ℂ} (he : (v.envEps env).get i = FP.num e) (hε : eps.get i = FP.num ε)
    (he0 : e ≠ 0) (hε0 : ε ≠ 0) (hsum : ε + e ≠ 0) (hbig : ‖ε‖ < 2 ^ (1022 : ℤ))
    (hthr : ‖(ε - e) / (ε + e)‖ ≤ v.thr env) (hI : v.rejectNegativeEpsImag = true → 0 ≤ ε.im)
    (hA : v.rejectSubvacuumEpsAbs = true → 1 ≤ ‖ε‖) {p : ℂ[X]}
    (hp : IsSeries (Fdm.coefAt env aTip n z a nTrapz i) (nTayl.getD env.defaults.nTayl) p) (hpos : p.natDegree ≠ 0)
    (hdeg : p.natDegree = 1 → ∃ c₀ p₀, α.get (fun _ => 0) = FP.num c₀ ∧
      IsSeries (Fdm.coefAt env aTip n z a nTrapz fun _ => 0) (nTayl.getD env.defaults.nTayl) p₀ ∧
      p₀.natDegree = 1) : FP.num ε ∈ E.unmasked i := by
  obtain ⟨K, hd, hmk, -⟩ := C52_fdm hs hM hsh
  obtain ⟨E', h1, -, -, -, h4⟩ := C99_masked M (v.envEps env) hd hmk hE
  rw [hperm, Except.ok.injEq] at h1
  subst h1
  obtain ⟨r1, r2, r3⟩ := recovered_refl he0 hsum hbig
  obtain ⟨S, hS, hst, hat⟩ := bulk_arr ho
  rw [h4 i, List.mem_filterMap]
  refine ⟨_, ?_, by rw [he]; exact r3⟩
  refine C53_fdm_partial hs S hS (nu.map .ok) hm nLag (hst ▸ hfwd) hM hsh hi (SampleObj.dimAt_of_le_length hE)
    ?_ ⟨hthr, fun h => ⟨e, he, .inl ⟨r1, by rw [r2]; exact hI h⟩⟩, fun h => ⟨e, he, .inl ⟨r1, by rw [r2]; exact hA h⟩⟩⟩ hp hpos hdeg
  rw [hat i e ε hε he]
  exact C09_refl e ε none _ hε0 hsum

end

/-! ## The point dipole model -/

section

variable {env : Env} {sv : Solver} (hs : sv.Correct) {α : NDArray (FP ℂ)} {aTip n : NDArray (FP ℝ)}
  {z : Option (NDArray (FP ℝ))} {a : Pdm.Args} {nTrapz nTayl : Option ℕ} {v : InvArgs} {M : Masked}
  (hM : Pdm.invert env sv α aTip n z a nTrapz nTayl v = .ok M) {s : List ℕ} (hsh : Pdm.invShape α aTip n z a = some s)
  (hE : some (v.envEps env).rshape ≤ᵇ some s)

include hs hM hsh hE

/-- C99 for the point dipole model: every permittivity that is recovered is one of a bulk sample that gives the measured
signal in the Taylor model, and it meets the criteria. -/
theorem C99_pdm_sound : ∃ E, permMasked M (v.envEps env) = .ok E ∧ E.data.rshape = M.data.rshape ∧
    ∀ i, InBounds s i → ∀ x ∈ E.unmasked i, ∃ e ε : ℂ, (v.envEps env).get i = FP.num e ∧ x = FP.num ε ∧
      (v.rejectNegativeEpsImag = true → 0 ≤ ε.im) ∧ (v.rejectSubvacuumEpsAbs = true → 1 ≤ ‖ε‖) ∧
      (e ≠ 0 → ε ≠ 0 → ‖(ε - e) / (ε + e)‖ ≤ v.thr env ∧ ∀ nu,
        Pdm.effPolNTaylor env (bulk e ε nu) (aTip.get i) (n.get i) (z.map (·.get i)) (Pdm.argsAt a i) nTrapz nTayl =
          .ok (α.get i)) := by
  obtain ⟨K, hd, hm, -⟩ := C52_pdm hs hM hsh
  obtain ⟨E, h1, h2, h3, -, h4⟩ := C99_masked M (v.envEps env) hd hm hE
  refine ⟨E, h1, h2.trans hd.symm, fun i hi x hx => ?_⟩
  rw [h4 i, List.mem_filterMap] at hx
  obtain ⟨y, hy, hyx⟩ := hx
  obtain ⟨e, β, he, rfl, hβ, rfl⟩ := recovered_some hyx
  obtain ⟨s', K', hs', -, hsound⟩ := C50_pdm hs hM
  have := hs'.symm.trans hsh
  cases this
  obtain ⟨β', c, p, hb, -, -, -, hthr, -, hacc⟩ := hsound i hi _ hy
  rw [FP.num_inj] at hb
  subst hb
  obtain ⟨-, hI, hA⟩ := hacc (SampleObj.dimAt_of_le_length hE)
  refine ⟨e, _, he, rfl, fun h => ?_, fun h => ?_, fun he0 hε => ?_⟩
  · obtain ⟨e', he', h5⟩ := hI h
    rw [he, FP.num_inj] at he'
    subst he'
    rcases h5 with h5 | h5
    · exact h5.2
    · exact absurd h5.1 hβ
  · obtain ⟨e', he', h5⟩ := hA h
    rw [he, FP.num_inj] at he'
    subst he'
    rcases h5 with h5 | h5
    · exact h5.2
    · exact absurd h5.1 hβ
  · obtain ⟨r1, r2⟩ := refl_epsOf he0 hβ
    refine ⟨r2.symm ▸ hthr, fun nu => ?_⟩
    refine C53_pdm_back hs hM hsh hi hy (S := bulk e (epsOf e β) nu) ?_
    rw [C09_refl e _ nu _ hε r1, r2]

/-- C99 for the point dipole model: the permittivity of a bulk sample whose Taylor signal was measured is among the recovered
ones, if it meets the criteria and the threshold (and the equation has degree two or more, or one like the first column,
see C51). -/
theorem C99_pdm_complete {E : Masked} (hperm : permMasked M (v.envEps env) = .ok E) {eps : NDArray (FP ℂ)} {o : SampleObj}
    {nu : Option (NDArray (FP ℝ))} (ho : SampleObj.bulk env.defaults (some eps) none v.epsEnv none nu = .ok o)
    (hfwd : Pdm.effPolNTaylor env o.stack (.ok aTip) (.ok n) (z.map .ok) (Pdm.argsArr a) nTrapz nTayl = .ok (.ok α))
    {i : ℕ → ℕ} (hi : InBounds s i) {e ε : ℂ} (he : (v.envEps env).get i = FP.num e) (hε : eps.get i = FP.num ε)
    (he0 : e ≠ 0) (hε0 : ε ≠ 0) (hsum : ε + e ≠ 0) (hbig : ‖ε‖ < 2 ^ (1022 : ℤ))
    (hthr : ‖(ε - e) / (ε + e)‖ ≤ v.thr env) (hI : v.rejectNegativeEpsImag = true → 0 ≤ ε.im)
    (hA : v.rejectSubvacuumEpsAbs = true → 1 ≤ ‖ε‖) {p : ℂ[X]}
    (hp : IsSeries (Pdm.coefAt env aTip n z a nTrapz i) (nTayl.getD env.defaults.nTayl) p) (hpos : p.natDegree ≠ 0)
    (hdeg : p.natDegree = 1 → ∃ c₀ p₀, α.get (fun _ => 0) = FP.num c₀ ∧
      IsSeries (Pdm.coefAt env aTip n z a nTrapz fun _ => 0) (nTayl.getD env.defaults.nTayl) p₀ ∧
      p₀.natDegree = 1) : FP.num ε ∈ E.unmasked i := by
  obtain ⟨K, hd, hmk, -⟩ := C52_pdm hs hM hsh
  obtain ⟨E', h1, -, -, -, h4⟩ := C99_masked M (v.envEps env) hd hmk hE
  rw [hperm, Except.ok.injEq] at h1
  subst h1
  obtain ⟨r1, r2, r3⟩ := recovered_refl he0 hsum hbig
  obtain ⟨S, hS, hst, hat⟩ := bulk_arr ho
  rw [h4 i, List.mem_filterMap]
  refine ⟨_, ?_, by rw [he]; exact r3⟩
  refine C53_pdm_partial hs S (nu.map .ok) (hst ▸ hfwd) hM hsh hi (SampleObj.dimAt_of_le_length hE)
    ?_ ⟨hthr, fun h => ⟨e, he, .inl ⟨r1, by rw [r2]; exact hI h⟩⟩, fun h => ⟨e, he, .inl ⟨r1, by rw [r2]; exact hA h⟩⟩⟩ hp hpos hdeg
  rw [hat i e ε hε he]
  exact C09_refl e ε none _ hε0 hsum

end

/-! ## Examples -/

/-- The criteria and the environment of the examples. -/
noncomputable def exInv : InvArgs :=
  ⟨some 1, true, true, some (NDArray.scalar (FP.num 1))⟩

theorem exBulk (env : Env) : ∃ o, SampleObj.bulk env.defaults (some (NDArray.scalar (FP.num 2))) none exInv.epsEnv none none =
    .ok o ∧ o.stack = exSample.stack := ⟨_, rfl, rfl⟩

/-- The permittivity 2 in vacuum is recovered in the point dipole model. -/
example (env : Env) : ∃ (α : NDArray (FP ℂ)) (M E : Masked),
    Pdm.effPolNTaylor env exSample.stack (.ok (NDArray.scalar (FP.num 0)))
      (.ok (NDArray.scalar (FP.num 2))) ((some (NDArray.scalar (FP.num 0))).map .ok)
      (Pdm.argsArr exPdm) (some 2) (some 2) = .ok (.ok α) ∧
    Pdm.invert env exactSolver α (NDArray.scalar (FP.num 0)) (NDArray.scalar (FP.num 2))
      (some (NDArray.scalar (FP.num 0))) exPdm (some 2) (some 2) exInv = .ok M ∧
    permMasked M (exInv.envEps env) = .ok E ∧ FP.num 2 ∈ E.unmasked fun _ => 0 := by
  have hdegX : (X + C 1 : ℂ[X]).natDegree = 1 := natDegree_X_add_C 1
  have hp : ∀ i, IsSeries (Pdm.coefAt env (NDArray.scalar (FP.num 0)) (NDArray.scalar (FP.num 2))
      (some (NDArray.scalar (FP.num 0))) exPdm (some 2) i) 2 (X + C 1) := fun i => by
    refine ⟨by rw [degree_X_add_C]; exact_mod_cast one_lt_two, fun j hj => ?_⟩
    refine (pdm_coef_even env j).trans ?_
    have : j = 0 ∨ j = 1 := by omega
    rcases this with rfl | rfl <;> simp [coeff_one]
  obtain ⟨α, h1, h2, h3⟩ := exists_fwd_pdm env 2 hp
  obtain ⟨M, hM⟩ := C51_pdm_ok (env := env) exactSolver_correct (α := α)
    (aTip := NDArray.scalar (FP.num 0)) (n := NDArray.scalar (FP.num 2))
    (z := some (NDArray.scalar (FP.num 0))) (a := exPdm) (nTrapz := some 2) (nTayl := some 2)
    (v := exInv) (invShape_scalar h2 2) (inBounds_nil _) rfl 1 two_pos
    fun i _ => ⟨_, _, h3 i, hp i, hdegX⟩
  obtain ⟨E, hE, -⟩ := C99_pdm_sound exactSolver_correct hM (invShape_scalar h2 2) rfl
  obtain ⟨o, ho, hst⟩ := exBulk env
  refine ⟨α, M, E, h1, hM, hE, ?_⟩
  refine C99_pdm_complete exactSolver_correct hM (invShape_scalar h2 2) rfl hE ho (by rw [hst]; exact h1)
    (inBounds_nil _) (e := 1) (ε := 2) rfl rfl one_ne_zero two_ne_zero (by norm_num) ?_ ?_ (fun _ => by simp)
    (fun _ => by simp) (hp _) (by rw [hdegX]; simp) fun _ => ⟨_, _, h3 _, hp _, hdegX⟩
  · rw [Complex.norm_ofNat]
    calc (2 : ℝ) = 2 ^ (1 : ℤ) := (zpow_one 2).symm
      _ < 2 ^ (1022 : ℤ) := zpow_lt_zpow_right₀ (by norm_num) (by norm_num)
  · show ‖((2 : ℂ) - 1) / (2 + 1)‖ ≤ 1
    norm_num

/-- The same in the finite dipole model. -/
example (env : Env) : ∃ (α : NDArray (FP ℂ)) (M E : Masked),
    Fdm.effPolNTaylor env exSample.stack (.ok (NDArray.scalar (FP.num 0)))
      (.ok (NDArray.scalar (FP.num 2))) ((some (NDArray.scalar (FP.num 0))).map .ok)
      (Fdm.argsArr exFdm) none none (some 2) (some 2) = .ok (.ok α) ∧
    Fdm.invert env exactSolver α (NDArray.scalar (FP.num 0)) (NDArray.scalar (FP.num 2))
      (some (NDArray.scalar (FP.num 0))) exFdm (some 2) (some 2) exInv = .ok M ∧
    permMasked M (exInv.envEps env) = .ok E ∧ FP.num 2 ∈ E.unmasked fun _ => 0 := by
  set c := Fdm.geom 0 1 1 300 Complex.I / 2 with hc
  have hc0 : c ≠ 0 := div_ne_zero example_geom_ne two_ne_zero
  have hdegX : (C c * X : ℂ[X]).natDegree = 1 := natDegree_C_mul_X c hc0
  have hp : ∀ i, IsSeries (Fdm.coefAt env (NDArray.scalar (FP.num 0)) (NDArray.scalar (FP.num 2))
      (some (NDArray.scalar (FP.num 0))) exFdm (some 2) i) 2 (C c * X) := fun i => by
    refine ⟨by rw [degree_C_mul_X hc0]; exact_mod_cast one_lt_two, fun j hj => ?_⟩
    refine (Fdm.taylorCoef_num env example_geomOk.1 example_geomOk.2 Complex.I j le_rfl 2
      two_ne_zero).trans ?_
    have : j = 0 ∨ j = 1 := by omega
    rcases this with rfl | rfl
    · simp [Fdm.coef]
    · have h1 : demodSum (fun x => Fdm.geom x 1 1 300 Complex.I *
          Fdm.geom x (1 / 2) 1 300 Complex.I ^ (1 - 1)) (0 + 0) 0 2 2 =
          Fdm.geom 0 1 1 300 Complex.I := by
        have h2 := demodSum_const_alias (0 + 0) 0 2 (N := 2) two_ne_zero (by decide)
        simp only [Int.cast_ofNat] at h2
        rw [demodSum_congr (g' := fun _ => Fdm.geom 0 1 1 300 Complex.I * 1) le_rfl 2 2
          fun x h1 h2 => by
            have hx : x = 0 := by linarith
            simp [hx], demodSum_mul, h2]
        norm_num
      simp only [Fdm.coef, one_ne_zero, if_false, h1, coeff_C_mul, coeff_X_one, mul_one, hc]
  obtain ⟨α, h1, h2, h3⟩ := exists_fwd_fdm env hp
  have hsh : Fdm.invShape α (NDArray.scalar (FP.num 0)) (NDArray.scalar (FP.num 2))
      (some (NDArray.scalar (FP.num 0))) exFdm = some [] := by
    unfold Fdm.invShape
    rw [h2]
    rfl
  obtain ⟨M, hM⟩ := C51_fdm_ok (env := env) exactSolver_correct (α := α)
    (aTip := NDArray.scalar (FP.num 0)) (n := NDArray.scalar (FP.num 2))
    (z := some (NDArray.scalar (FP.num 0))) (a := exFdm) (nTrapz := some 2) (nTayl := some 2)
    (v := exInv) hsh (inBounds_nil _) rfl 1 two_pos
    fun i _ => ⟨_, _, h3 i, hp i, hdegX⟩
  obtain ⟨E, hE, -⟩ := C99_fdm_sound exactSolver_correct hM hsh rfl
  obtain ⟨o, ho, hst⟩ := exBulk env
  refine ⟨α, M, E, h1, hM, hE, ?_⟩
  refine C99_fdm_complete exactSolver_correct hM hsh rfl hE ho (.inl rfl) none (by rw [hst]; exact h1)
    (inBounds_nil _) (e := 1) (ε := 2) rfl rfl one_ne_zero two_ne_zero (by norm_num) ?_ ?_ (fun _ => by simp)
    (fun _ => by simp) (hp _) (by rw [hdegX]; simp) fun _ => ⟨_, _, h3 _, hp _, hdegX⟩
  · rw [Complex.norm_ofNat]
    calc (2 : ℝ) = 2 ^ (1 : ℤ) := (zpow_one 2).symm
      _ < 2 ^ (1022 : ℤ) := zpow_lt_zpow_right₀ (by norm_num) (by norm_num)
  · show ‖((2 : ℂ) - 1) / (2 + 1)‖ ≤ 1
    norm_num

/-- A masked array with a visible 1/2, a visible 1 and a hidden 1/3: the permittivity 3 is visible, the others are hidden. -/
example : ∃ E, permMasked ⟨⟨[] ++ [3], fun i => if i 0 = 0 then FP.num (1 / 2) else if i 0 = 1 then FP.num 1 else FP.num (1 / 3)⟩,
    ⟨[] ++ [3], fun i => decide (i 0 = 2)⟩⟩ (NDArray.scalar (FP.num 1)) = .ok E ∧ E.data.rshape = [] ++ [3] := by
  obtain ⟨E, h1, h2, -⟩ := C99_masked ⟨⟨[] ++ [3], fun i => if i 0 = 0 then FP.num (1 / 2) else if i 0 = 1 then FP.num 1
    else FP.num (1 / 3)⟩, ⟨[] ++ [3], fun i => decide (i 0 = 2)⟩⟩ (NDArray.scalar (FP.num 1)) (s := []) (K := 3) rfl rfl rfl
  exact ⟨E, h1, h2⟩

end Snompy.Props
