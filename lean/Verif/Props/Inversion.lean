import Verif.Lemmas.Inversion
import Verif.Lemmas.ExactSolver
import Verif.Props.Taylor

/-!
# C50–C53 Inversion through the Taylor series

All statements hold for every correct root finder and every correct `argsort` (`Solver.Correct`).
`coefAt` are the scalar Taylor coefficients at an index, and `IsSeries (coefAt .. i) J p` says that they are
finite and are the coefficients of `p`.
-/

namespace Snompy.Props

open Snompy Polynomial


section

variable {env : Env} {sv : Solver} (hs : sv.Correct) {α : NDArray (FP ℂ)} {aTip n : NDArray (FP ℝ)}
  {z : Option (NDArray (FP ℝ))} {a : Fdm.Args} {nTrapz nTayl : Option ℕ} {v : InvArgs} {M : Masked}
  (hM : Fdm.invert env sv α aTip n z a nTrapz nTayl v = .ok M)

include hs hM

/-- C50 for the finite dipole model.  The environment may vary along the axis of the solutions; `k` is the row in
which a solution was tested. -/
theorem C50_fdm : ∃ s K, Fdm.invShape α aTip n z a = some s ∧ M.data.rshape = s ++ [K] ∧
    ∀ i, InBounds s i → ∀ x ∈ M.unmasked i, ∃ (β c : ℂ) (p : ℂ[X]), x = FP.num β ∧ α.get i = FP.num c ∧
      IsSeries (Fdm.coefAt env aTip n z a nTrapz i) (nTayl.getD env.defaults.nTayl) p ∧
      p.eval β = c ∧ ‖β‖ ≤ v.thr env ∧ (∃ k, v.Accepts env (Function.update i s.length k) β) ∧
      (dimAt (v.envEps env).rshape s.length = 1 → v.Accepts env i β) := by
  have h := Fdm.inverts env sv α aTip n z a nTrapz nTayl v
  obtain ⟨s, hsh⟩ := inverts_shape h hM
  obtain ⟨K, hK, _⟩ := inverts_shape_order hs h hM hsh
  refine ⟨s, K, hsh, hK, fun i hi x hx => ?_⟩
  obtain ⟨β, c, p, h1, h2, h3, h4, k, h5⟩ := inverts_sound hs h hM hsh hi hx
  refine ⟨β, c, p, h1, h2, h3, h4, h5.1, ⟨k, h5⟩, fun hd => ?_⟩
  have := NDArray.get_update_of_dimAt hd i k
  unfold InvArgs.Accepts
  rw [← this]
  exact h5

variable {s : List ℕ} (hsh : Fdm.invShape α aTip n z a = some s) {i : ℕ → ℕ} (hi : InBounds s i)
  (henv : dimAt (v.envEps env).rshape s.length = 1) {c : ℂ} {p : ℂ[X]} (hc : α.get i = FP.num c)
  (hp : IsSeries (Fdm.coefAt env aTip n z a nTrapz i) (nTayl.getD env.defaults.nTayl) p)

include hsh

/-- C51 for the finite dipole model, with the conditions under which it is true: the equation depends on the unknown,
the environment does not vary along the axis of the solutions, and a linear equation does not stand
beside a first column of another degree. -/
theorem C51_fdm_partial (hi : InBounds s i)
    (henv : dimAt (v.envEps env).rshape s.length = 1) (hc : α.get i = FP.num c)
    (hp : IsSeries (Fdm.coefAt env aTip n z a nTrapz i) (nTayl.getD env.defaults.nTayl) p)
    (hne : p ≠ C c)
    (hdeg : p.natDegree = 1 → ∃ c₀ p₀, α.get (fun _ => 0) = FP.num c₀ ∧
      IsSeries (Fdm.coefAt env aTip n z a nTrapz fun _ => 0) (nTayl.getD env.defaults.nTayl) p₀ ∧
      p₀.natDegree = 1) (β : ℂ) :
    (p.eval β = c → v.Accepts env i β → FP.num β ∈ M.unmasked i) ∧
    open Classical in (M.unmasked i).count (FP.num β) =
      if v.Accepts env i β then (p - C c).rootMultiplicity β else 0 := by
  classical
  have h := Fdm.inverts env sv α aTip n z a nTrapz nTayl v
  have key := inverts_complete hs h hM hsh hi henv hc hp hdeg
  have hcount : (M.unmasked i).count (FP.num β) =
      if v.Accepts env i β then (p - C c).rootMultiplicity β else 0 := by
    rw [← Multiset.coe_count, key, Multiset.count_map_eq_count' _ _ (fun x y h => FP.num_inj.1 h),
      Multiset.count_filter, count_roots]
    rfl
  refine ⟨fun he ha => ?_, by convert hcount⟩
  rw [if_pos ha] at hcount
  have : 0 < (p - C c).rootMultiplicity β :=
    (rootMultiplicity_pos (sub_ne_zero.2 hne)).2 (by simp [he])
  rw [← hcount] at this
  exact List.count_pos_iff.1 this

/-- What goes wrong otherwise: when the equation of the first column does not depend on the unknown, no
solution of any column is returned. -/
theorem C51_fdm_dropped {c₀ : ℂ} {p₀ : ℂ[X]} (hc₀ : α.get (fun _ => 0) = FP.num c₀)
    (hp₀ : IsSeries (Fdm.coefAt env aTip n z a nTrapz fun _ => 0) (nTayl.getD env.defaults.nTayl) p₀)
    (hd : p₀.natDegree = 0) : M.data.rshape = s ++ [0] ∧ ∀ i, M.unmasked i = [] :=
  inverts_dropped hs (Fdm.inverts env sv α aTip n z a nTrapz nTayl v) hM hsh hc₀ hp₀ hd

/-- C52 for the finite dipole model, in terms of the unmasked entries: the first axis is as long as the fullest column,
and each column is sorted (`nan`, which `fpLe` puts last, is always masked). -/
theorem C52_fdm : ∃ K, M.data.rshape = s ++ [K] ∧ M.mask.rshape = s ++ [K] ∧
    (∀ i, InBounds s i → (M.unmasked i).length ≤ K) ∧ (∃ i, InBounds s i ∧ (M.unmasked i).length = K) ∧
    (∀ i, (M.data.column i).Pairwise fun x y => fpLe (CplxOps.cabs x) (CplxOps.cabs y)) :=
  inverts_shape_order hs (Fdm.inverts env sv α aTip n z a nTrapz nTayl v) hM hsh

open Classical in
/-- C52 for the finite dipole model, in terms of the solutions (counted with multiplicity), under the conditions of
C51. -/
theorem C52_fdm_partial (henv : dimAt (v.envEps env).rshape s.length = 1) (cs : (ℕ → ℕ) → ℂ)
    (ps : (ℕ → ℕ) → ℂ[X]) (hc : ∀ i, InBounds s i → α.get i = FP.num (cs i))
    (hp : ∀ i, InBounds s i →
      IsSeries (Fdm.coefAt env aTip n z a nTrapz i) (nTayl.getD env.defaults.nTayl) (ps i))
    (_hne : ∀ i, InBounds s i → ps i ≠ C (cs i))
    (hdeg : ∀ i, InBounds s i → (ps i).natDegree = 1 → (ps fun _ => 0).natDegree = 1) :
    ∃ K, M.data.rshape = s ++ [K] ∧
      (∀ i, InBounds s i → ((ps i - C (cs i)).roots.filter (v.Accepts env i)).card ≤ K) ∧
      ∃ i, InBounds s i ∧ ((ps i - C (cs i)).roots.filter (v.Accepts env i)).card = K := by
  have h := Fdm.inverts env sv α aTip n z a nTrapz nTayl v
  obtain ⟨K, h1, h2, h3, ⟨j, hj, h4⟩, h5⟩ := inverts_shape_order hs h hM hsh
  have h0 : InBounds s fun _ => 0 := by
    intro k hk
    exact lt_of_le_of_lt (Nat.zero_le _) (hj k hk)
  have hcard : ∀ i, InBounds s i →
      ((ps i - C (cs i)).roots.filter (v.Accepts env i)).card = (M.unmasked i).length := by
    intro i hi
    have key := inverts_complete hs h hM hsh hi henv (hc i hi) (hp i hi)
      fun hd => ⟨_, _, hc _ h0, hp _ h0, hdeg i hi hd⟩
    have := congrArg Multiset.card key
    rw [Multiset.coe_card, Multiset.card_map] at this
    rw [this]
    rfl
  exact ⟨K, h1, fun i hi => by rw [hcard i hi]; exact h3 i hi, j, hj, by rw [hcard j hj]; exact h4⟩

end

/-- The call succeeds when the coefficients are finite and all equations have the same degree. -/
theorem C51_fdm_ok {env : Env} {sv : Solver} (hs : sv.Correct) {α : NDArray (FP ℂ)}
    {aTip n : NDArray (FP ℝ)} {z : Option (NDArray (FP ℝ))} {a : Fdm.Args} {nTrapz nTayl : Option ℕ}
    {v : InvArgs} {s : List ℕ} (hsh : Fdm.invShape α aTip n z a = some s)
    (h0 : InBounds s fun _ => 0) (henv : some (v.envEps env).rshape ≤ᵇ some s) (d : ℕ)
    (hJ : 0 < nTayl.getD env.defaults.nTayl)
    (hcol : ∀ i, InBounds s i → ∃ c p, α.get i = FP.num c ∧
      IsSeries (Fdm.coefAt env aTip n z a nTrapz i) (nTayl.getD env.defaults.nTayl) p ∧
      p.natDegree = d) :
    ∃ M, Fdm.invert env sv α aTip n z a nTrapz nTayl v = .ok M := by
  have h : Inverts (Fdm.invert env sv α aTip n z a nTrapz nTayl v) sv (v.thr env)
      v.rejectNegativeEpsImag v.rejectSubvacuumEpsAbs (v.envEps env) (Fdm.invShape α aTip n z a)
      (Fdm.coefAt env aTip n z a nTrapz) α (nTayl.getD env.defaults.nTayl) := Fdm.inverts env sv α aTip n z a nTrapz nTayl v
  obtain ⟨c, p, h1, h2, h3⟩ := hcol _ h0
  exact inverts_total hs h hsh h0 henv hJ d ⟨c, p, h1, h2, h3⟩ fun i hi => by
    obtain ⟨c, p, h1, h2, h3⟩ := hcol i hi
    exact ⟨c, p, h1, h2, .inl h3⟩

theorem pdm_inverts {env : Env} {sv : Solver} {α : NDArray (FP ℂ)} {aTip n : NDArray (FP ℝ)}
    {z : Option (NDArray (FP ℝ))} {a : Pdm.Args} {nTrapz nTayl : Option ℕ} {v : InvArgs} {M : Masked}
    (hM : Pdm.invert env sv α aTip n z a nTrapz nTayl v = .ok M) :
    Inverts (Pdm.invert env sv α aTip n z a nTrapz nTayl v) sv (v.thr env) v.rejectNegativeEpsImag
      v.rejectSubvacuumEpsAbs (v.envEps env) (Pdm.invShape α aTip n z a)
      (Pdm.coefAt env aTip n z a nTrapz) α (nTayl.getD env.defaults.nTayl) := by
  rcases Pdm.inverts env sv α aTip n z a nTrapz nTayl v with ⟨e, he, _⟩ | h
  · rw [Pdm.invert, he] at hM; cases hM
  · exact h

section

variable {env : Env} {sv : Solver} (hs : sv.Correct) {α : NDArray (FP ℂ)} {aTip n : NDArray (FP ℝ)}
  {z : Option (NDArray (FP ℝ))} {a : Pdm.Args} {nTrapz nTayl : Option ℕ} {v : InvArgs} {M : Masked}
  (hM : Pdm.invert env sv α aTip n z a nTrapz nTayl v = .ok M)

include hs hM

/-- C50 for the point dipole model.  The environment may vary along the axis of the solutions; `k` is the row in
which a solution was tested. -/
theorem C50_pdm : ∃ s K, Pdm.invShape α aTip n z a = some s ∧ M.data.rshape = s ++ [K] ∧
    ∀ i, InBounds s i → ∀ x ∈ M.unmasked i, ∃ (β c : ℂ) (p : ℂ[X]), x = FP.num β ∧ α.get i = FP.num c ∧
      IsSeries (Pdm.coefAt env aTip n z a nTrapz i) (nTayl.getD env.defaults.nTayl) p ∧
      p.eval β = c ∧ ‖β‖ ≤ v.thr env ∧ (∃ k, v.Accepts env (Function.update i s.length k) β) ∧
      (dimAt (v.envEps env).rshape s.length = 1 → v.Accepts env i β) := by
  have h := pdm_inverts hM
  obtain ⟨s, hsh⟩ := inverts_shape h hM
  obtain ⟨K, hK, _⟩ := inverts_shape_order hs h hM hsh
  refine ⟨s, K, hsh, hK, fun i hi x hx => ?_⟩
  obtain ⟨β, c, p, h1, h2, h3, h4, k, h5⟩ := inverts_sound hs h hM hsh hi hx
  refine ⟨β, c, p, h1, h2, h3, h4, h5.1, ⟨k, h5⟩, fun hd => ?_⟩
  have := NDArray.get_update_of_dimAt hd i k
  unfold InvArgs.Accepts
  rw [← this]
  exact h5

variable {s : List ℕ} (hsh : Pdm.invShape α aTip n z a = some s) {i : ℕ → ℕ} (hi : InBounds s i)
  (henv : dimAt (v.envEps env).rshape s.length = 1) {c : ℂ} {p : ℂ[X]} (hc : α.get i = FP.num c)
  (hp : IsSeries (Pdm.coefAt env aTip n z a nTrapz i) (nTayl.getD env.defaults.nTayl) p)

include hsh

/-- C51 for the point dipole model, with the conditions under which it is true: the equation depends on the unknown,
the environment does not vary along the axis of the solutions, and a linear equation does not stand
beside a first column of another degree. -/
theorem C51_pdm_partial (hi : InBounds s i)
    (henv : dimAt (v.envEps env).rshape s.length = 1) (hc : α.get i = FP.num c)
    (hp : IsSeries (Pdm.coefAt env aTip n z a nTrapz i) (nTayl.getD env.defaults.nTayl) p)
    (hne : p ≠ C c)
    (hdeg : p.natDegree = 1 → ∃ c₀ p₀, α.get (fun _ => 0) = FP.num c₀ ∧
      IsSeries (Pdm.coefAt env aTip n z a nTrapz fun _ => 0) (nTayl.getD env.defaults.nTayl) p₀ ∧
      p₀.natDegree = 1) (β : ℂ) :
    (p.eval β = c → v.Accepts env i β → FP.num β ∈ M.unmasked i) ∧
    open Classical in (M.unmasked i).count (FP.num β) =
      if v.Accepts env i β then (p - C c).rootMultiplicity β else 0 := by
  classical
  have h := pdm_inverts hM
  have key := inverts_complete hs h hM hsh hi henv hc hp hdeg
  have hcount : (M.unmasked i).count (FP.num β) =
      if v.Accepts env i β then (p - C c).rootMultiplicity β else 0 := by
    rw [← Multiset.coe_count, key, Multiset.count_map_eq_count' _ _ (fun x y h => FP.num_inj.1 h),
      Multiset.count_filter, count_roots]
    rfl
  refine ⟨fun he ha => ?_, by convert hcount⟩
  rw [if_pos ha] at hcount
  have : 0 < (p - C c).rootMultiplicity β :=
    (rootMultiplicity_pos (sub_ne_zero.2 hne)).2 (by simp [he])
  rw [← hcount] at this
  exact List.count_pos_iff.1 this

/-- What goes wrong otherwise: when the equation of the first column does not depend on the unknown, no
solution of any column is returned. -/
theorem C51_pdm_dropped {c₀ : ℂ} {p₀ : ℂ[X]} (hc₀ : α.get (fun _ => 0) = FP.num c₀)
    (hp₀ : IsSeries (Pdm.coefAt env aTip n z a nTrapz fun _ => 0) (nTayl.getD env.defaults.nTayl) p₀)
    (hd : p₀.natDegree = 0) : M.data.rshape = s ++ [0] ∧ ∀ i, M.unmasked i = [] :=
  inverts_dropped hs (pdm_inverts hM) hM hsh hc₀ hp₀ hd

/-- C52 for the point dipole model, in terms of the unmasked entries: the first axis is as long as the fullest column,
and each column is sorted (`nan`, which `fpLe` puts last, is always masked). -/
theorem C52_pdm : ∃ K, M.data.rshape = s ++ [K] ∧ M.mask.rshape = s ++ [K] ∧
    (∀ i, InBounds s i → (M.unmasked i).length ≤ K) ∧ (∃ i, InBounds s i ∧ (M.unmasked i).length = K) ∧
    (∀ i, (M.data.column i).Pairwise fun x y => fpLe (CplxOps.cabs x) (CplxOps.cabs y)) :=
  inverts_shape_order hs (pdm_inverts hM) hM hsh

open Classical in
/-- C52 for the point dipole model, in terms of the solutions (counted with multiplicity), under the conditions of
C51. -/
theorem C52_pdm_partial (henv : dimAt (v.envEps env).rshape s.length = 1) (cs : (ℕ → ℕ) → ℂ)
    (ps : (ℕ → ℕ) → ℂ[X]) (hc : ∀ i, InBounds s i → α.get i = FP.num (cs i))
    (hp : ∀ i, InBounds s i →
      IsSeries (Pdm.coefAt env aTip n z a nTrapz i) (nTayl.getD env.defaults.nTayl) (ps i))
    (_hne : ∀ i, InBounds s i → ps i ≠ C (cs i))
    (hdeg : ∀ i, InBounds s i → (ps i).natDegree = 1 → (ps fun _ => 0).natDegree = 1) :
    ∃ K, M.data.rshape = s ++ [K] ∧
      (∀ i, InBounds s i → ((ps i - C (cs i)).roots.filter (v.Accepts env i)).card ≤ K) ∧
      ∃ i, InBounds s i ∧ ((ps i - C (cs i)).roots.filter (v.Accepts env i)).card = K := by
  have h := pdm_inverts hM
  obtain ⟨K, h1, h2, h3, ⟨j, hj, h4⟩, h5⟩ := inverts_shape_order hs h hM hsh
  have h0 : InBounds s fun _ => 0 := by
    intro k hk
    exact lt_of_le_of_lt (Nat.zero_le _) (hj k hk)
  have hcard : ∀ i, InBounds s i →
      ((ps i - C (cs i)).roots.filter (v.Accepts env i)).card = (M.unmasked i).length := by
    intro i hi
    have key := inverts_complete hs h hM hsh hi henv (hc i hi) (hp i hi)
      fun hd => ⟨_, _, hc _ h0, hp _ h0, hdeg i hi hd⟩
    have := congrArg Multiset.card key
    rw [Multiset.coe_card, Multiset.card_map] at this
    rw [this]
    rfl
  exact ⟨K, h1, fun i hi => by rw [hcard i hi]; exact h3 i hi, j, hj, by rw [hcard j hj]; exact h4⟩

end

/-- The call succeeds when the coefficients are finite and all equations have the same degree. -/
theorem C51_pdm_ok {env : Env} {sv : Solver} (hs : sv.Correct) {α : NDArray (FP ℂ)}
    {aTip n : NDArray (FP ℝ)} {z : Option (NDArray (FP ℝ))} {a : Pdm.Args} {nTrapz nTayl : Option ℕ}
    {v : InvArgs} {s : List ℕ} (hsh : Pdm.invShape α aTip n z a = some s)
    (h0 : InBounds s fun _ => 0) (henv : some (v.envEps env).rshape ≤ᵇ some s) (d : ℕ)
    (hJ : 0 < nTayl.getD env.defaults.nTayl)
    (hcol : ∀ i, InBounds s i → ∃ c p, α.get i = FP.num c ∧
      IsSeries (Pdm.coefAt env aTip n z a nTrapz i) (nTayl.getD env.defaults.nTayl) p ∧
      p.natDegree = d) :
    ∃ M, Pdm.invert env sv α aTip n z a nTrapz nTayl v = .ok M := by
  have h : Inverts (Pdm.invert env sv α aTip n z a nTrapz nTayl v) sv (v.thr env)
      v.rejectNegativeEpsImag v.rejectSubvacuumEpsAbs (v.envEps env) (Pdm.invShape α aTip n z a)
      (Pdm.coefAt env aTip n z a nTrapz) α (nTayl.getD env.defaults.nTayl) := by
    rcases Pdm.inverts env sv α aTip n z a nTrapz nTayl v with ⟨e, _, he⟩ | h
    · exfalso
      obtain ⟨c, p, _, h2, _⟩ := hcol _ h0
      have := h2.2 0 hJ
      unfold Pdm.coefAt at this
      rw [he] at this
      cases this
    · exact h
  obtain ⟨c, p, h1, h2, h3⟩ := hcol _ h0
  exact inverts_total hs h hsh h0 henv hJ d ⟨c, p, h1, h2, h3⟩ fun i hi => by
    obtain ⟨c, p, h1, h2, h3⟩ := hcol i hi
    exact ⟨c, p, h1, h2, .inl h3⟩

/-! ## Examples

A scalar call of each kind that succeeds, so that the hypothesis `hM` above can be met, and the other
hypotheses with it. -/

theorem scalar_get {β : Type} (x : β) (i : ℕ → ℕ) : (NDArray.scalar x).get i = x := rfl

/-- The tip arguments of the examples. -/
noncomputable def exFdm : Fdm.Args :=
  ⟨some (NDArray.scalar (FP.num 1)), some (NDArray.scalar (FP.num 300)),
    some (NDArray.scalar (FP.num Complex.I)), some (NDArray.scalar (FP.num 1)),
    some (NDArray.scalar (FP.num (1 / 2))), some (NDArray.scalar (FP.num 1.4))⟩

/-- The tip arguments of the examples. -/
noncomputable def exPdm : Pdm.Args :=
  ⟨some (NDArray.scalar (FP.num 1)), none, some (NDArray.scalar (FP.num (16 * Real.pi)))⟩

theorem inBounds_nil (i : ℕ → ℕ) : InBounds [] i := fun k hk => absurd (dimAt_nil k) hk

theorem example_fdm (env : Env) (c : ℂ) (v : InvArgs) (hv : v.epsEnv = none) : ∃ M p,
    Fdm.invert env exactSolver (NDArray.scalar (FP.num c)) (NDArray.scalar (FP.num 2))
      (NDArray.scalar (FP.num 3)) (some (NDArray.scalar (FP.num 0))) exFdm (some 8) (some 5) v = .ok M ∧
    Fdm.invShape (NDArray.scalar (FP.num c)) (NDArray.scalar (FP.num 2))
      (NDArray.scalar (FP.num 3)) (some (NDArray.scalar (FP.num 0))) exFdm = some [] ∧
    InBounds [] (fun _ => 0) ∧ dimAt (v.envEps env).rshape 0 = 1 ∧
    IsSeries (Fdm.coefAt env (NDArray.scalar (FP.num 2)) (NDArray.scalar (FP.num 3))
      (some (NDArray.scalar (FP.num 0))) exFdm (some 8) fun _ => 0) 5 p := by
  obtain ⟨p, h1, h2, _⟩ := C49_fdm env 0 1 300 Complex.I 1 (1 / 2) 1.4 example_geomOk.1 example_geomOk.2 2
    (by norm_num) 3 8 5 (by norm_num)
  have henv : (v.envEps env).rshape = [] := by rw [InvArgs.envEps, hv]; rfl
  obtain ⟨M, hM⟩ := C51_fdm_ok (env := env) (sv := exactSolver) exactSolver_correct
    (α := NDArray.scalar (FP.num c)) (aTip := NDArray.scalar (FP.num 2)) (n := NDArray.scalar (FP.num 3))
    (z := some (NDArray.scalar (FP.num 0))) (a := exFdm) (nTrapz := some 8) (nTayl := some 5) (v := v)
    (s := []) rfl (inBounds_nil _) (by rw [henv]; rfl) p.natDegree (by norm_num)
    fun i _ => ⟨c, p, rfl, ⟨h1, h2⟩, rfl⟩
  exact ⟨M, p, hM, rfl, inBounds_nil _, by rw [henv]; rfl, h1, h2⟩

theorem example_pdm (env : Env) (c : ℂ) (v : InvArgs) (hv : v.epsEnv = none) : ∃ M p,
    Pdm.invert env exactSolver (NDArray.scalar (FP.num c)) (NDArray.scalar (FP.num 2))
      (NDArray.scalar (FP.num 3)) (some (NDArray.scalar (FP.num 0))) exPdm (some 8) (some 5) v = .ok M ∧
    Pdm.invShape (NDArray.scalar (FP.num c)) (NDArray.scalar (FP.num 2))
      (NDArray.scalar (FP.num 3)) (some (NDArray.scalar (FP.num 0))) exPdm = some [] ∧
    InBounds [] (fun _ => 0) ∧ dimAt (v.envEps env).rshape 0 = 1 ∧
    IsSeries (Pdm.coefAt env (NDArray.scalar (FP.num 2)) (NDArray.scalar (FP.num 3))
      (some (NDArray.scalar (FP.num 0))) exPdm (some 8) fun _ => 0) 5 p := by
  obtain ⟨p, h1, h2, _⟩ := C49_pdm env 0 1 (16 * Real.pi) (by norm_num) 2 (by norm_num) 3 8 5 (by norm_num)
  have henv : (v.envEps env).rshape = [] := by rw [InvArgs.envEps, hv]; rfl
  obtain ⟨M, hM⟩ := C51_pdm_ok (env := env) (sv := exactSolver) exactSolver_correct
    (α := NDArray.scalar (FP.num c)) (aTip := NDArray.scalar (FP.num 2)) (n := NDArray.scalar (FP.num 3))
    (z := some (NDArray.scalar (FP.num 0))) (a := exPdm) (nTrapz := some 8) (nTayl := some 5) (v := v)
    (s := []) rfl (inBounds_nil _) (by rw [henv]; rfl) p.natDegree (by norm_num)
    fun i _ => ⟨c, p, rfl, ⟨h1, h2⟩, rfl⟩
  exact ⟨M, p, hM, rfl, inBounds_nil _, by rw [henv]; rfl, h1, h2⟩

/-! ## C51 and C52 fail in general -/

/-- A row with two entries. -/
def pair {β : Type} (x y : β) : NDArray β := ⟨[2], fun i => if i 0 = 0 then x else y⟩

theorem pair_get {β : Type} (x y : β) (i : ℕ → ℕ) : (pair x y).get i = if i 0 = 0 then x else y := rfl

theorem pdm_coef_const (n : ℝ) (j : ℕ) :
    Pdm.coef 0 j 0 n 1 (16 * Real.pi) 2 = demodSum (fun _ => 1) (0 + 0) 0 n 2 := by
  refine demodSum_congr le_rfl n 2 fun x h1 h2 => ?_
  have hx : x = 0 := by linarith
  have hpi : (Real.pi : ℂ) ≠ 0 := by exact_mod_cast Real.pi_ne_zero
  subst hx
  unfold Pdm.geom
  have : (16 * Real.pi : ℂ) / (16 * Real.pi * ((1 : ℝ) + (0 : ℝ) : ℂ) ^ 3) = 1 := by
    rw [div_eq_one_iff_eq] <;> simp [hpi]
  simp only [this, one_pow]

theorem pdm_coef_odd (env : Env) (j : ℕ) : Pdm.taylorCoef env (FP.num 0) (j : ℤ) (FP.num 0) (FP.num (1 : ℝ))
    (FP.num 1) (FP.num (16 * Real.pi : ℂ)) (some 2) = .ok (FP.num 0 : FP ℂ) := by
  rw [Pdm.taylorCoef_num env (by norm_num) _ j le_rfl 1 two_ne_zero, pdm_coef_const]
  have := demodSum_const 1 (0 + 0) 0 1 (N := 2) two_ne_zero (.inr (by decide))
  simp only [Int.cast_one, one_ne_zero, if_false] at this
  rw [this]

theorem pdm_coef_even (env : Env) (j : ℕ) : Pdm.taylorCoef env (FP.num 0) (j : ℤ) (FP.num 0) (FP.num 2)
    (FP.num 1) (FP.num (16 * Real.pi : ℂ)) (some 2) = .ok (FP.num 1 : FP ℂ) := by
  rw [Pdm.taylorCoef_num env (by norm_num) _ j le_rfl 2 two_ne_zero, pdm_coef_const]
  have := demodSum_const_alias (0 + 0) 0 2 (N := 2) two_ne_zero (by decide)
  simp only [Int.cast_ofNat] at this
  rw [this]
  norm_num

theorem accepts_one (env : Env) (i : ℕ → ℕ) {β : ℂ} (h : ‖β‖ ≤ 1) :
    InvArgs.Accepts { betaThreshold := some 1 } env i β :=
  ⟨h, fun h => (Bool.false_ne_true h).elim, fun h => (Bool.false_ne_true h).elim⟩

/-- C51 and C52 as stated are false.  Two columns are solved in one call (`n = [1, 2]`, no tapping, `n_tayl = 2`).
The equation of the first is `0 = 5`, without solution; that of the second is `1 + β = 1`.  The
solution `β = 0` of the second passes the threshold, but the result has no rows: the number of roots
of the first column fixes the length of the first axis. -/
theorem C51_false (env : Env) (sv : Solver) (hs : sv.Correct) : ∃ M : Masked,
    Pdm.invert env sv (pair (FP.num 5) (FP.num 1)) (NDArray.scalar (FP.num 0))
      (pair (FP.num 1) (FP.num 2)) (some (NDArray.scalar (FP.num 0))) exPdm (some 2) (some 2)
      { betaThreshold := some 1 } = .ok M ∧
    M.data.rshape = [2] ++ [0] ∧ ∃ i p, InBounds [2] i ∧
      IsSeries (Pdm.coefAt env (NDArray.scalar (FP.num 0)) (pair (FP.num 1) (FP.num 2))
        (some (NDArray.scalar (FP.num 0))) exPdm (some 2) i) 2 p ∧ p ≠ C 1 ∧
      (pair (FP.num (5 : ℂ)) (FP.num 1)).get i = FP.num 1 ∧ p.eval 0 = 1 ∧
      InvArgs.Accepts { betaThreshold := some 1 } env i 0 ∧ FP.num 0 ∉ M.unmasked i := by
  set v : InvArgs := { betaThreshold := some 1 } with hv
  have hcoef : ∀ i k, Pdm.coefAt env (NDArray.scalar (FP.num 0)) (pair (FP.num 1) (FP.num 2))
      (some (NDArray.scalar (FP.num 0))) exPdm (some 2) i k =
      if i 0 = 0 then .ok (FP.num 0) else .ok (FP.num 1) := by
    intro i k
    have : ∀ m : FP ℝ, m = (pair (FP.num 1) (FP.num 2)).get i →
        Pdm.coefAt env (NDArray.scalar (FP.num 0)) (pair (FP.num 1) (FP.num 2))
          (some (NDArray.scalar (FP.num 0))) exPdm (some 2) i k =
        Pdm.taylorCoef env (FP.num 0) (k : ℤ) (FP.num 0) m (FP.num 1) (FP.num (16 * Real.pi : ℂ)) (some 2) := by
      rintro m rfl; rfl
    split_ifs with h
    · rw [this (FP.num 1) (by rw [pair_get, if_pos h]), pdm_coef_odd]
    · rw [this (FP.num 2) (by rw [pair_get, if_neg h]), pdm_coef_even]
  have hser0 : ∀ i : ℕ → ℕ, i 0 = 0 → IsSeries (Pdm.coefAt env (NDArray.scalar (FP.num 0))
      (pair (FP.num 1) (FP.num 2)) (some (NDArray.scalar (FP.num 0))) exPdm (some 2) i) 2 0 := by
    intro i hi
    exact ⟨by rw [degree_zero]; exact WithBot.bot_lt_coe 2, fun j _ => by rw [hcoef, if_pos hi]; simp⟩
  have hdegX : (X + C 1 : ℂ[X]).natDegree = 1 := natDegree_X_add_C 1
  have hser1 : ∀ i : ℕ → ℕ, i 0 ≠ 0 → IsSeries (Pdm.coefAt env (NDArray.scalar (FP.num 0))
      (pair (FP.num 1) (FP.num 2)) (some (NDArray.scalar (FP.num 0))) exPdm (some 2) i) 2 (X + C 1) := by
    intro i hi
    refine ⟨by rw [degree_X_add_C]; exact_mod_cast one_lt_two, fun j hj => ?_⟩
    rw [hcoef, if_neg hi]
    have : j = 0 ∨ j = 1 := by omega
    rcases this with rfl | rfl <;> simp [coeff_one]
  have hsh : Pdm.invShape (pair (FP.num 5) (FP.num 1)) (NDArray.scalar (FP.num 0))
      (pair (FP.num 1) (FP.num 2)) (some (NDArray.scalar (FP.num 0))) exPdm = some [2] := by
    rfl
  have hb : ∀ i : ℕ → ℕ, i 0 < 2 → InBounds [2] i := by
    intro i hi k hk
    cases k with
    | zero => exact hi
    | succ k => rw [dimAt_cons_succ, dimAt_nil] at hk; exact absurd rfl hk
  have hinv : Inverts (Pdm.invert env sv (pair (FP.num 5) (FP.num 1)) (NDArray.scalar (FP.num 0))
      (pair (FP.num 1) (FP.num 2)) (some (NDArray.scalar (FP.num 0))) exPdm (some 2) (some 2) v) sv
      (v.thr env) v.rejectNegativeEpsImag v.rejectSubvacuumEpsAbs (v.envEps env)
      (Pdm.invShape (pair (FP.num 5) (FP.num 1)) (NDArray.scalar (FP.num 0))
        (pair (FP.num 1) (FP.num 2)) (some (NDArray.scalar (FP.num 0))) exPdm)
      (Pdm.coefAt env (NDArray.scalar (FP.num 0)) (pair (FP.num 1) (FP.num 2))
        (some (NDArray.scalar (FP.num 0))) exPdm (some 2)) (pair (FP.num 5) (FP.num 1)) 2 := by
    rcases Pdm.inverts env sv (pair (FP.num 5) (FP.num 1)) (NDArray.scalar (FP.num 0))
      (pair (FP.num 1) (FP.num 2)) (some (NDArray.scalar (FP.num 0))) exPdm (some 2) (some 2) v with
      ⟨e, _, he⟩ | h
    · cases he fun _ => 0
    · exact h
  obtain ⟨M, hM⟩ := inverts_total hs hinv hsh (hb _ (by norm_num)) (by rfl) two_pos 0
    ⟨5, 0, rfl, hser0 _ rfl, natDegree_zero⟩ fun i _ => by
      by_cases hi : i 0 = 0
      · exact ⟨5, 0, by rw [pair_get, if_pos hi], hser0 i hi, .inl natDegree_zero⟩
      · exact ⟨1, _, by rw [pair_get, if_neg hi], hser1 i hi, .inr hdegX⟩
  obtain ⟨h1, h2⟩ := inverts_dropped hs hinv hM hsh (a := 5) (p := 0) rfl (hser0 _ rfl) natDegree_zero
  refine ⟨M, hM, h1, fun _ => 1, X + C 1, hb _ (by norm_num), hser1 _ one_ne_zero, ?_, rfl, by simp, ?_,
    by rw [h2]; simp⟩
  · intro h
    have := congrArg natDegree h
    rw [hdegX, natDegree_C] at this
    exact one_ne_zero this
  · exact accepts_one env _ (by simp)

/-- The same call: the result has no rows although one column has a valid solution. -/
theorem C52_false (env : Env) (sv : Solver) (hs : sv.Correct) : ∃ M : Masked,
    Pdm.invert env sv (pair (FP.num 5) (FP.num 1)) (NDArray.scalar (FP.num 0))
      (pair (FP.num 1) (FP.num 2)) (some (NDArray.scalar (FP.num 0))) exPdm (some 2) (some 2)
      { betaThreshold := some 1 } = .ok M ∧
    M.data.rshape = [2] ++ [0] ∧ ∃ i p, InBounds [2] i ∧
      IsSeries (Pdm.coefAt env (NDArray.scalar (FP.num 0)) (pair (FP.num 1) (FP.num 2))
        (some (NDArray.scalar (FP.num 0))) exPdm (some 2) i) 2 p ∧
      ∃ β, (pair (FP.num (5 : ℂ)) (FP.num 1)).get i = FP.num (p.eval β) ∧
        InvArgs.Accepts { betaThreshold := some 1 } env i β := by
  obtain ⟨M, h1, h2, i, p, h3, h4, _, h6, h7, h8, _⟩ := C51_false env sv hs
  exact ⟨M, h1, h2, i, p, h3, h4, 0, by rw [h6, h7], h8⟩

/-! ## C53 The inversion undoes the Taylor model -/

theorem eval_series {J : ℕ} {p : ℂ[X]} (h : p.degree < J) (β : ℂ) :
    p.eval β = ∑ j ∈ Finset.range J, p.coeff j * β ^ j := by
  by_cases h0 : p = 0
  · simp [h0]
  · exact eval_eq_sum_range' ((natDegree_lt_iff_degree_lt h0).2 h) β

section

variable {env : Env} {aTip n : NDArray (FP ℝ)} {z : Option (NDArray (FP ℝ))} {a : Fdm.Args}
  {nTrapz nTayl : Option ℕ} {i : ℕ → ℕ} {p : ℂ[X]}

theorem fdm_series {s : Stack (FP ℝ) (FP ℂ)} (hb : s.eps.length ≤ 2) {m : Option String}
    (hm : m = none ∨ m = some "bulk") (nLag : Option ℕ) {β : ℂ} (hβ : s.reflCoefQs = .ok (FP.num β))
    (hp : IsSeries (Fdm.coefAt env aTip n z a nTrapz i) (nTayl.getD env.defaults.nTayl) p) :
    Fdm.effPolNTaylor env s (aTip.get i) (n.get i) (z.map (·.get i)) (Fdm.argsAt a i) nLag m nTrapz
      nTayl = .ok (FP.num (p.eval β)) := by
  have hml : s.multilayer = false := by
    unfold Stack.multilayer Stack.nLayers
    simpa using hb
  have hB : ∀ zz q, Fdm.taylorBeta env s zz q nLag m = .ok (FP.num β) := by
    intro zz q
    unfold Fdm.taylorBeta
    rcases hm with rfl | rfl <;> simp [hml, hβ]
  unfold Fdm.effPolNTaylor
  simp only [hB, PyM.ok_bind]
  rw [eval_series hp.1]
  refine series0_num _ _ _ _ fun j hj => ?_
  have := hp.2 j hj
  unfold Fdm.coefAt at this
  simp only at this
  rw [this, PyM.ok_bind, sjpow_nat, FP.num_mul]
  rfl

/-- C53, second half: feeding an unmasked solution back returns the entry of `alpha_eff_n` it came from. -/
theorem C53_fdm_back {sv : Solver} (hs : sv.Correct) {α : NDArray (FP ℂ)} {v : InvArgs} {M : Masked}
    (hM : Fdm.invert env sv α aTip n z a nTrapz nTayl v = .ok M) {s : List ℕ}
    (hsh : Fdm.invShape α aTip n z a = some s) (hi : InBounds s i) {β : ℂ}
    (hx : FP.num β ∈ M.unmasked i) {S : Stack (FP ℝ) (FP ℂ)} (hb : S.eps.length ≤ 2)
    {m : Option String} (hm : m = none ∨ m = some "bulk") (nLag : Option ℕ)
    (hβ : S.reflCoefQs = .ok (FP.num β)) :
    Fdm.effPolNTaylor env S (aTip.get i) (n.get i) (z.map (·.get i)) (Fdm.argsAt a i) nLag m nTrapz
      nTayl = .ok (α.get i) := by
  obtain ⟨β', c, p, h1, h2, h3, h4, _⟩ :=
    inverts_sound hs (Fdm.inverts env sv α aTip n z a nTrapz nTayl v) hM hsh hi hx
  rw [FP.num_inj] at h1
  subst h1
  rw [fdm_series hb hm nLag hβ h3, h4, h2]

/-- C53, first half, when the series depends on `β` and under the conditions of C51. -/
theorem C53_fdm_partial {sv : Solver} (hs : sv.Correct) {α : NDArray (FP ℂ)} {v : InvArgs} {M : Masked}
    (S : ArrSample) (hS : S.t = []) (snu : Option RArr) {m : Option String}
    (hm : m = none ∨ m = some "bulk") (nLag : Option ℕ)
    (hfwd : Fdm.effPolNTaylor env (S.stack snu) (.ok aTip) (.ok n) (z.map .ok) (Fdm.argsArr a) nLag m
      nTrapz nTayl = .ok (.ok α))
    (hM : Fdm.invert env sv α aTip n z a nTrapz nTayl v = .ok M) {s : List ℕ}
    (hsh : Fdm.invShape α aTip n z a = some s) (hi : InBounds s i)
    (henv : dimAt (v.envEps env).rshape s.length = 1) {β : ℂ}
    (hβ : (S.at_ i).reflCoefQs = .ok (FP.num β)) (hacc : v.Accepts env i β)
    (hp : IsSeries (Fdm.coefAt env aTip n z a nTrapz i) (nTayl.getD env.defaults.nTayl) p)
    (hpos : p.natDegree ≠ 0)
    (hdeg : p.natDegree = 1 → ∃ c₀ p₀, α.get (fun _ => 0) = FP.num c₀ ∧
      IsSeries (Fdm.coefAt env aTip n z a nTrapz fun _ => 0) (nTayl.getD env.defaults.nTayl) p₀ ∧
      p₀.natDegree = 1) : FP.num β ∈ M.unmasked i := by
  have hlen : (S.at_ i).eps.length ≤ 2 := by
    have := S.layers
    rw [hS] at this
    simp [ArrSample.at_, this]
  have hα : α.get i = FP.num (p.eval β) := by
    have hd := Fdm.effPolNTaylor_den env S a nLag m snu nTrapz nTayl
      (Fdm.getD_lit_den z env.defaults.zTip) (Den.leaf aTip) (Den.leaf n)
    have hx : Fdm.effPolNTaylor env (S.stack snu) (.ok aTip) (.ok n)
        (some ((z.map .ok).getD (lit env.defaults.zTip))) (Fdm.argsArr a) nLag m nTrapz nTayl =
        .ok (.ok α) := hfwd
    rw [hx] at hd
    have key : ∃ g : (ℕ → ℕ) → FP ℂ, ∀ i, Fdm.effPolNTaylor env (S.at_ i none) (aTip.get i) (n.get i)
        (some ((z.map (·.get i)).getD (lit env.defaults.zTip))) (Fdm.argsAt a i) nLag m nTrapz nTayl =
        .ok (g i) ∧ α.get i = g i := by
      unfold DenM at hd
      split at hd
      · obtain ⟨e, he⟩ := hd; cases he
      · rcases hd with ⟨e, he, _⟩ | ⟨A, g, hA, _, hg⟩
        · cases he
        · cases hA
          exact ⟨g, hg⟩
    obtain ⟨g, hg⟩ := key
    have h1 := fdm_series hlen hm nLag hβ hp
    have h2 : Fdm.effPolNTaylor env (S.at_ i none) (aTip.get i) (n.get i) (z.map (·.get i))
      (Fdm.argsAt a i) nLag m nTrapz nTayl = .ok (g i) := (hg i).1
    rw [h1, Except.ok.injEq] at h2
    rw [(hg i).2, h2]
  refine (C51_fdm_partial hs hM hsh hi henv hα hp ?_ hdeg β).1 rfl hacc
  intro h
  rw [h, natDegree_C] at hpos
  exact hpos rfl

end

section

variable {env : Env} {aTip n : NDArray (FP ℝ)} {z : Option (NDArray (FP ℝ))} {a : Pdm.Args}
  {nTrapz nTayl : Option ℕ} {i : ℕ → ℕ} {p : ℂ[X]}

theorem pdm_series (hJ : 0 < nTayl.getD env.defaults.nTayl) {s : Stack (FP ℝ) (FP ℂ)} {β : ℂ}
    (hβ : s.reflCoefQs = .ok (FP.num β))
    (hp : IsSeries (Pdm.coefAt env aTip n z a nTrapz i) (nTayl.getD env.defaults.nTayl) p) :
    Pdm.effPolNTaylor env s (aTip.get i) (n.get i) (z.map (·.get i)) (Pdm.argsAt a i) nTrapz
      nTayl = .ok (FP.num (p.eval β)) := by
  unfold Pdm.effPolNTaylor
  cases ht : env.defaults.pdm (Pdm.argsAt a i) with
  | error e =>
    have := hp.2 0 hJ
    unfold Pdm.coefAt at this
    rw [ht] at this
    cases this
  | ok q =>
    simp only [hβ, PyM.ok_bind]
    rw [eval_series hp.1]
    refine series0_num _ _ _ _ fun j hj => ?_
    have := hp.2 j hj
    unfold Pdm.coefAt at this
    rw [ht, PyM.ok_bind] at this
    rw [this, PyM.ok_bind, sjpow_nat, FP.num_mul]
    rfl

theorem pdm_nTayl_pos {sv : Solver} {α : NDArray (FP ℂ)} {v : InvArgs} {M : Masked}
    (hM : Pdm.invert env sv α aTip n z a nTrapz nTayl v = .ok M) : 0 < nTayl.getD env.defaults.nTayl := by
  have h := pdm_inverts hM
  obtain ⟨s, hsh⟩ := inverts_shape h hM
  obtain ⟨offset, c, hoff, hc, hcall⟩ := h.2 s hsh
  rw [hcall] at hM
  obtain ⟨h0, roots, valid, r₀, rfl, hr0, _⟩ := solveOffset_ok hoff hM
  rcases Nat.eq_zero_or_pos (nTayl.getD env.defaults.nTayl) with hJ | hJ
  · rw [NDArray.column_eq hoff, hJ] at hr0
    simp [polyRoots] at hr0
  · exact hJ

/-- C53, second half. -/
theorem C53_pdm_back {sv : Solver} (hs : sv.Correct) {α : NDArray (FP ℂ)} {v : InvArgs} {M : Masked}
    (hM : Pdm.invert env sv α aTip n z a nTrapz nTayl v = .ok M) {s : List ℕ}
    (hsh : Pdm.invShape α aTip n z a = some s) (hi : InBounds s i) {β : ℂ}
    (hx : FP.num β ∈ M.unmasked i) {S : Stack (FP ℝ) (FP ℂ)} (hβ : S.reflCoefQs = .ok (FP.num β)) :
    Pdm.effPolNTaylor env S (aTip.get i) (n.get i) (z.map (·.get i)) (Pdm.argsAt a i) nTrapz nTayl =
      .ok (α.get i) := by
  obtain ⟨β', c, p, h1, h2, h3, h4, _⟩ := inverts_sound hs (pdm_inverts hM) hM hsh hi hx
  rw [FP.num_inj] at h1
  subst h1
  rw [pdm_series (pdm_nTayl_pos hM) hβ h3, h4, h2]

/-- C53, first half, when the series depends on `β` and under the conditions of C51. -/
theorem C53_pdm_partial {sv : Solver} (hs : sv.Correct) {α : NDArray (FP ℂ)} {v : InvArgs} {M : Masked}
    (S : ArrSample) (snu : Option RArr)
    (hfwd : Pdm.effPolNTaylor env (S.stack snu) (.ok aTip) (.ok n) (z.map .ok) (Pdm.argsArr a)
      nTrapz nTayl = .ok (.ok α))
    (hM : Pdm.invert env sv α aTip n z a nTrapz nTayl v = .ok M) {s : List ℕ}
    (hsh : Pdm.invShape α aTip n z a = some s) (hi : InBounds s i)
    (henv : dimAt (v.envEps env).rshape s.length = 1) {β : ℂ}
    (hβ : (S.at_ i).reflCoefQs = .ok (FP.num β)) (hacc : v.Accepts env i β)
    (hp : IsSeries (Pdm.coefAt env aTip n z a nTrapz i) (nTayl.getD env.defaults.nTayl) p)
    (hpos : p.natDegree ≠ 0)
    (hdeg : p.natDegree = 1 → ∃ c₀ p₀, α.get (fun _ => 0) = FP.num c₀ ∧
      IsSeries (Pdm.coefAt env aTip n z a nTrapz fun _ => 0) (nTayl.getD env.defaults.nTayl) p₀ ∧
      p₀.natDegree = 1) : FP.num β ∈ M.unmasked i := by
  have hα : α.get i = FP.num (p.eval β) := by
    have hd := Pdm.effPolNTaylor_den env S a snu nTrapz nTayl
      (Fdm.getD_lit_den z env.defaults.zTip) (Den.leaf aTip) (Den.leaf n)
    have hx : Pdm.effPolNTaylor env (S.stack snu) (.ok aTip) (.ok n)
        (some ((z.map .ok).getD (lit env.defaults.zTip))) (Pdm.argsArr a) nTrapz nTayl =
        .ok (.ok α) := hfwd
    rw [hx] at hd
    have key : ∃ g : (ℕ → ℕ) → FP ℂ, ∀ i, Pdm.effPolNTaylor env (S.at_ i none) (aTip.get i) (n.get i)
        (some ((z.map (·.get i)).getD (lit env.defaults.zTip))) (Pdm.argsAt a i) nTrapz nTayl =
        .ok (g i) ∧ α.get i = g i := by
      unfold DenM at hd
      split at hd
      · obtain ⟨e, he⟩ := hd; cases he
      · rcases hd with ⟨e, he, _⟩ | ⟨A, g, hA, _, hg⟩
        · cases he
        · cases hA
          exact ⟨g, hg⟩
    obtain ⟨g, hg⟩ := key
    have h1 := pdm_series (pdm_nTayl_pos hM) hβ hp
    have h2 : Pdm.effPolNTaylor env (S.at_ i none) (aTip.get i) (n.get i) (z.map (·.get i))
      (Pdm.argsAt a i) nTrapz nTayl = .ok (g i) := (hg i).1
    rw [h1, Except.ok.injEq] at h2
    rw [(hg i).2, h2]
  refine (C51_pdm_partial hs hM hsh hi henv hα hp ?_ hdeg β).1 rfl hacc
  intro h
  rw [h, natDegree_C] at hpos
  exact hpos rfl

end

/-! ### Examples, and the failure of C53 -/

/-- A bulk sample of scalars with permittivity 2 in vacuum. -/
noncomputable def exSample : ArrSample where
  eps := [NDArray.scalar (FP.num 1), NDArray.scalar (FP.num 2)]
  t := []
  epsShape := []
  tShape := []
  eps_shape := by simp [NDArray.scalar]
  t_shape := by simp
  t_nil _ := rfl
  layers := rfl

theorem exSample_refl (i : ℕ → ℕ) : (exSample.at_ i).reflCoefQs = .ok (FP.num (1 / 3)) := by
  have h : exSample.at_ i = bulk 1 2 := rfl
  rw [h, C09_refl 1 2 none _ two_ne_zero (by norm_num)]
  norm_num

/-- Forward calls on scalars. -/
theorem exists_fwd_pdm (env : Env) (nn : ℝ) {p : ℂ[X]}
    (hp : ∀ i, IsSeries (Pdm.coefAt env (NDArray.scalar (FP.num 0)) (NDArray.scalar (FP.num nn))
      (some (NDArray.scalar (FP.num 0))) exPdm (some 2) i) 2 p) : ∃ α : NDArray (FP ℂ),
    Pdm.effPolNTaylor env exSample.stack (.ok (NDArray.scalar (FP.num 0)))
      (.ok (NDArray.scalar (FP.num nn))) ((some (NDArray.scalar (FP.num 0))).map .ok)
      (Pdm.argsArr exPdm) (some 2) (some 2) = .ok (.ok α) ∧ α.rshape = [] ∧
      ∀ i, α.get i = FP.num (p.eval (1 / 3)) := by
  have hd := Pdm.effPolNTaylor_den env exSample exPdm none (some 2) (some 2)
    (Fdm.getD_lit_den (some (NDArray.scalar (FP.num 0))) env.defaults.zTip)
    (Den.leaf (NDArray.scalar (FP.num 0))) (Den.leaf (NDArray.scalar (FP.num nn)))
  have hval := fun i => pdm_series (env := env) (nTayl := some 2) two_pos (exSample_refl i) (hp i)
  rcases hd with ⟨e, _, he⟩ | ⟨A, g, hA, hAs, hg⟩
  · have := (he fun _ => 0).symm.trans (hval fun _ => 0)
    cases this
  · refine ⟨A, hA, hAs, fun i => ?_⟩
    have := (hg i).1.symm.trans (hval i)
    rw [(hg i).2, Except.ok.inj this]

theorem exists_fwd_fdm (env : Env) {p : ℂ[X]}
    (hp : ∀ i, IsSeries (Fdm.coefAt env (NDArray.scalar (FP.num 0)) (NDArray.scalar (FP.num 2))
      (some (NDArray.scalar (FP.num 0))) exFdm (some 2) i) 2 p) : ∃ α : NDArray (FP ℂ),
    Fdm.effPolNTaylor env exSample.stack (.ok (NDArray.scalar (FP.num 0)))
      (.ok (NDArray.scalar (FP.num 2))) ((some (NDArray.scalar (FP.num 0))).map .ok)
      (Fdm.argsArr exFdm) none none (some 2) (some 2) = .ok (.ok α) ∧ α.rshape = [] ∧
      ∀ i, α.get i = FP.num (p.eval (1 / 3)) := by
  have hd := Fdm.effPolNTaylor_den env exSample exFdm none none none (some 2) (some 2)
    (Fdm.getD_lit_den (some (NDArray.scalar (FP.num 0))) env.defaults.zTip)
    (Den.leaf (NDArray.scalar (FP.num 0))) (Den.leaf (NDArray.scalar (FP.num 2)))
  have hval := fun i => fdm_series (env := env) (nTayl := some 2)
    (show (exSample.at_ i).eps.length ≤ 2 from le_refl 2) (.inl rfl) none (exSample_refl i) (hp i)
  rcases hd with ⟨e, _, he⟩ | ⟨A, g, hA, hAs, hg⟩
  · have := (he fun _ => 0).symm.trans (hval fun _ => 0)
    cases this
  · refine ⟨A, hA, hAs, fun i => ?_⟩
    have := (hg i).1.symm.trans (hval i)
    rw [(hg i).2, Except.ok.inj this]

theorem invShape_scalar {α : NDArray (FP ℂ)} (h : α.rshape = []) (nn : ℝ) :
    Pdm.invShape α (NDArray.scalar (FP.num 0)) (NDArray.scalar (FP.num nn))
      (some (NDArray.scalar (FP.num 0))) exPdm = some [] := by
  unfold Pdm.invShape
  rw [h]
  rfl

/-- C53 as stated is false: without tapping the odd harmonics vanish whatever `β` is, and no solution is
returned. -/
theorem C53_false (env : Env) (sv : Solver) (hs : sv.Correct) : ∃ (α : NDArray (FP ℂ)) (M : Masked),
    Pdm.effPolNTaylor env exSample.stack (.ok (NDArray.scalar (FP.num 0)))
      (.ok (NDArray.scalar (FP.num 1))) ((some (NDArray.scalar (FP.num 0))).map .ok)
      (Pdm.argsArr exPdm) (some 2) (some 2) = .ok (.ok α) ∧
    Pdm.invert env sv α (NDArray.scalar (FP.num 0)) (NDArray.scalar (FP.num 1))
      (some (NDArray.scalar (FP.num 0))) exPdm (some 2) (some 2) { betaThreshold := some 1 } = .ok M ∧
    (exSample.at_ fun _ => 0).reflCoefQs = .ok (FP.num (1 / 3)) ∧ ‖(1 / 3 : ℂ)‖ ≤ 1 ∧
    FP.num (1 / 3) ∉ M.unmasked fun _ => 0 := by
  have hp : ∀ i, IsSeries (Pdm.coefAt env (NDArray.scalar (FP.num 0)) (NDArray.scalar (FP.num 1))
      (some (NDArray.scalar (FP.num 0))) exPdm (some 2) i) 2 0 := fun i =>
    ⟨by rw [degree_zero]; exact WithBot.bot_lt_coe 2, fun j _ => (pdm_coef_odd env j).trans (by simp)⟩
  obtain ⟨α, h1, h2, h3⟩ := exists_fwd_pdm env 1 hp
  obtain ⟨M, hM⟩ := C51_pdm_ok (env := env) hs (α := α) (aTip := NDArray.scalar (FP.num 0))
    (n := NDArray.scalar (FP.num 1)) (z := some (NDArray.scalar (FP.num 0))) (a := exPdm)
    (nTrapz := some 2) (nTayl := some 2) (v := { betaThreshold := some 1 }) (invShape_scalar h2 1)
    (inBounds_nil _) rfl 0 two_pos fun i _ => ⟨_, 0, h3 i, hp i, natDegree_zero⟩
  refine ⟨α, M, h1, hM, exSample_refl _, by norm_num, ?_⟩
  rw [(C51_pdm_dropped hs hM (invShape_scalar h2 1) (h3 _) (hp _) natDegree_zero).2]
  simp

/-- All hypotheses of `C51_pdm_partial`, `C52_pdm_partial` and `C53_pdm_partial` together (even harmonic). -/
theorem example_C53_pdm (env : Env) : ∃ (α : NDArray (FP ℂ)) (M : Masked),
    Pdm.effPolNTaylor env exSample.stack (.ok (NDArray.scalar (FP.num 0)))
      (.ok (NDArray.scalar (FP.num 2))) ((some (NDArray.scalar (FP.num 0))).map .ok)
      (Pdm.argsArr exPdm) (some 2) (some 2) = .ok (.ok α) ∧
    Pdm.invert env exactSolver α (NDArray.scalar (FP.num 0)) (NDArray.scalar (FP.num 2))
      (some (NDArray.scalar (FP.num 0))) exPdm (some 2) (some 2) { betaThreshold := some 1 } = .ok M ∧
    FP.num (1 / 3) ∈ M.unmasked fun _ => 0 := by
  have hdegX : (X + C 1 : ℂ[X]).natDegree = 1 := natDegree_X_add_C 1
  have hp : ∀ i, IsSeries (Pdm.coefAt env (NDArray.scalar (FP.num 0)) (NDArray.scalar (FP.num 2))
      (some (NDArray.scalar (FP.num 0))) exPdm (some 2) i) 2 (X + C 1) := fun i => by
    refine ⟨by rw [degree_X_add_C]; exact_mod_cast one_lt_two, fun j hj => ?_⟩
    refine (pdm_coef_even env j).trans ?_
    have : j = 0 ∨ j = 1 := by omega
    rcases this with rfl | rfl <;> simp [coeff_one]
  obtain ⟨α, h1, h2, h3⟩ := exists_fwd_pdm env 2 hp
  obtain ⟨M, hM⟩ := C51_pdm_ok (env := env) exactSolver_correct (α := α)
    (aTip := NDArray.scalar (FP.num 0)) (n := NDArray.scalar (FP.num 2))
    (z := some (NDArray.scalar (FP.num 0))) (a := exPdm) (nTrapz := some 2) (nTayl := some 2)
    (v := { betaThreshold := some 1 }) (invShape_scalar h2 2) (inBounds_nil _) rfl 1 two_pos
    fun i _ => ⟨_, _, h3 i, hp i, hdegX⟩
  exact ⟨α, M, h1, hM, C53_pdm_partial exactSolver_correct exSample none h1 hM (invShape_scalar h2 2)
    (inBounds_nil _) rfl (exSample_refl _) (accepts_one env _ (by norm_num)) (hp _) (by rw [hdegX]; simp)
    fun _ => ⟨_, _, h3 _, hp _, hdegX⟩⟩

/-- All hypotheses of `C51_fdm_partial`, `C52_fdm_partial` and `C53_fdm_partial` together. -/
theorem example_C53_fdm (env : Env) : ∃ (α : NDArray (FP ℂ)) (M : Masked),
    Fdm.effPolNTaylor env exSample.stack (.ok (NDArray.scalar (FP.num 0)))
      (.ok (NDArray.scalar (FP.num 2))) ((some (NDArray.scalar (FP.num 0))).map .ok)
      (Fdm.argsArr exFdm) none none (some 2) (some 2) = .ok (.ok α) ∧
    Fdm.invert env exactSolver α (NDArray.scalar (FP.num 0)) (NDArray.scalar (FP.num 2))
      (some (NDArray.scalar (FP.num 0))) exFdm (some 2) (some 2) { betaThreshold := some 1 } = .ok M ∧
    FP.num (1 / 3) ∈ M.unmasked fun _ => 0 := by
  set c := Fdm.geom 0 1 1 300 Complex.I / 2 with hc
  have hc0 : c ≠ 0 := div_ne_zero example_geom_ne two_ne_zero
  have hdegX : (C c * X : ℂ[X]).natDegree = 1 := natDegree_C_mul_X c hc0
  have hp : ∀ i, IsSeries (Fdm.coefAt env (NDArray.scalar (FP.num 0)) (NDArray.scalar (FP.num 2))
      (some (NDArray.scalar (FP.num 0))) exFdm (some 2) i) 2 (C c * X) := fun i => by
    refine ⟨by rw [degree_C_mul_X hc0]; exact_mod_cast one_lt_two, fun j hj => ?_⟩
    refine (Fdm.taylorCoef_num env example_geomOk.1 example_geomOk.2 Complex.I j le_rfl 2
      two_ne_zero).trans ?_
    have : j = 0 ∨ j = 1 := by omega
    rcases this with rfl | rfl
    · simp [Fdm.coef]
    · have h1 : demodSum (fun x => Fdm.geom x 1 1 300 Complex.I *
          Fdm.geom x (1 / 2) 1 300 Complex.I ^ (1 - 1)) (0 + 0) 0 2 2 =
          Fdm.geom 0 1 1 300 Complex.I := by
        have h2 := demodSum_const_alias (0 + 0) 0 2 (N := 2) two_ne_zero (by decide)
        simp only [Int.cast_ofNat] at h2
        rw [demodSum_congr (g' := fun _ => Fdm.geom 0 1 1 300 Complex.I * 1) le_rfl 2 2
          fun x h1 h2 => by
            have hx : x = 0 := by linarith
            simp [hx], demodSum_mul, h2]
        norm_num
      simp only [Fdm.coef, one_ne_zero, if_false, h1, coeff_C_mul, coeff_X_one, mul_one, hc]
  obtain ⟨α, h1, h2, h3⟩ := exists_fwd_fdm env hp
  have hsh : Fdm.invShape α (NDArray.scalar (FP.num 0)) (NDArray.scalar (FP.num 2))
      (some (NDArray.scalar (FP.num 0))) exFdm = some [] := by
    unfold Fdm.invShape
    rw [h2]
    rfl
  obtain ⟨M, hM⟩ := C51_fdm_ok (env := env) exactSolver_correct (α := α)
    (aTip := NDArray.scalar (FP.num 0)) (n := NDArray.scalar (FP.num 2))
    (z := some (NDArray.scalar (FP.num 0))) (a := exFdm) (nTrapz := some 2) (nTayl := some 2)
    (v := { betaThreshold := some 1 }) hsh (inBounds_nil _) rfl 1 two_pos
    fun i _ => ⟨_, _, h3 i, hp i, hdegX⟩
  exact ⟨α, M, h1, hM, C53_fdm_partial exactSolver_correct exSample rfl none (.inl rfl) none h1 hM hsh
    (inBounds_nil _) rfl (exSample_refl _) (accepts_one env _ (by norm_num)) (hp _) (by rw [hdegX]; simp)
    fun _ => ⟨_, _, h3 _, hp _, hdegX⟩⟩

/-- The hypotheses of `C50_fdm` and `C52_fdm`. -/
example (env : Env) : ∃ M s K, Fdm.invert env exactSolver (NDArray.scalar (FP.num 1))
    (NDArray.scalar (FP.num 2)) (NDArray.scalar (FP.num 3)) (some (NDArray.scalar (FP.num 0))) exFdm
    (some 8) (some 5) {} = .ok M ∧ M.data.rshape = s ++ [K] := by
  obtain ⟨M, p, hM, _⟩ := example_fdm env 1 {} rfl
  obtain ⟨s, K, _, h, _⟩ := C50_fdm exactSolver_correct hM
  exact ⟨M, s, K, hM, h⟩

/-- The hypotheses of `C50_pdm` and `C52_pdm`. -/
example (env : Env) : ∃ M s K, Pdm.invert env exactSolver (NDArray.scalar (FP.num 1))
    (NDArray.scalar (FP.num 2)) (NDArray.scalar (FP.num 3)) (some (NDArray.scalar (FP.num 0))) exPdm
    (some 8) (some 5) {} = .ok M ∧ M.data.rshape = s ++ [K] := by
  obtain ⟨M, p, hM, _⟩ := example_pdm env 1 {} rfl
  obtain ⟨s, K, _, h, _⟩ := C50_pdm exactSolver_correct hM
  exact ⟨M, s, K, hM, h⟩

end Snompy.Props
