import Verif.Lemmas.Examples
import Verif.Props.Identify
import Verif.Props.BulkSample

/-!
# C105: the search for a permittivity in `docs/examples/scripts/inversion.py`
-/

namespace Snompy.Props

open Snompy Examples

/-! ## The loop -/

/-- The loop visits every position exactly once, rows one after the other. -/
theorem C105_order (s : List ℕ) :
    (∀ i, i ∈ ndindex s ↔ Inside s i) ∧ (ndindex s).Nodup ∧ (ndindex s).map (flat s) = List.range s.prod :=
  ⟨mem_ndindex s, ndindex_nodup s, flat_ndindex s⟩

private theorem pair_num (a b : ℝ) : epsOfPair (FP.num a, FP.num b) = FP.num (passive a b) := by
  unfold epsOfPair passive
  change FP.num (((a : ℝ) : ℂ) + Complex.I * ((|b| : ℝ) : ℂ)) = _
  congr 1
  apply Complex.ext <;> simp

private theorem search_eq (env : Env) (m : Minimizer) (α g : NDArray (FP ℂ)) (hg : g.rshape = α.rshape) (p : FdmParams) (i : ℕ → ℕ)
    (hi : Inside α.rshape i) : searchAt env m α g p i =
      (m (fun x => minimizationFunction env x (α.get i) p) (reIm (g.get i))).map epsOfPair := by
  unfold searchAt NDArray.ndim
  rw [item_ok α hi, ← hg, item_ok g (by rw [hg]; exact hi), ← get_inside α hi, ← get_inside g (by rw [hg]; exact hi)]
  simp only [PyM.ok_bind]
  cases m (fun x => minimizationFunction env x (α.get i) p) (reIm (g.get i)) <;> rfl

/-- If the search succeeds everywhere, the result has the shape of the signals, and each entry is the outcome of its own search:
started at the guess of that entry, for the signal of that entry. -/
theorem C105_loop (env : Env) (m : Minimizer) (α g : NDArray (FP ℂ)) (hg : g.rshape = α.rshape) (p : FdmParams)
    (h : ∀ i, Inside α.rshape i → ∃ x, m (fun x => minimizationFunction env x (α.get i) p) (reIm (g.get i)) = .ok x) :
    ∃ E, invertByMinimization env m α g p = .ok E ∧ E.rshape = α.rshape ∧ ∀ i, Inside α.rshape i →
      ∃ x, m (fun x => minimizationFunction env x (α.get i) p) (reIm (g.get i)) = .ok x ∧
        (∀ a b, x = (FP.num a, FP.num b) → E.get i = FP.num (passive a b)) ∧
        (x.1 = FP.nan ∨ x.2 = FP.nan → E.get i = FP.nan) := by
  obtain ⟨E, h1, h2, h3, -⟩ := fold_ok (searchAt env m α g p) (ndindex α.rshape) (α.map fun _ => FP.num 0) (ndindex_nodup _)
    fun i hi => by
      rw [mem_ndindex] at hi
      obtain ⟨x, hx⟩ := h i hi
      exact ⟨_, by rw [search_eq env m α g hg p i hi, hx]; rfl⟩
  refine ⟨E, h1, h2, fun i hi => ?_⟩
  obtain ⟨x, hx⟩ := h i hi
  have hE := h3 i ((mem_ndindex _ _).2 hi)
  rw [search_eq env m α g hg p i hi, hx] at hE
  injection hE with hE
  refine ⟨x, hx, fun a b e => ?_, fun e => ?_⟩ <;> rw [get_inside E (by rw [h2]; exact hi), ← hE]
  · rw [e, pair_num]
  · obtain ⟨x, y⟩ := x
    rcases e with rfl | rfl
    · rfl
    · cases x <;> rfl

/-- Otherwise the exception of the first position where the search raises is raised. -/
theorem C105_raises (env : Env) (m : Minimizer) (α g : NDArray (FP ℂ)) (hg : g.rshape = α.rshape) (p : FdmParams) (i : ℕ → ℕ)
    (hi : Inside α.rshape i) (e : PyErr)
    (he : m (fun x => minimizationFunction env x (α.get i) p) (reIm (g.get i)) = .error e)
    (h : ∀ j, Inside α.rshape j → flat α.rshape j < flat α.rshape i →
      ∃ x, m (fun x => minimizationFunction env x (α.get j) p) (reIm (g.get j)) = .ok x) :
    invertByMinimization env m α g p = .error e := by
  obtain ⟨l₁, l₂, e', h'⟩ := ndindex_split hi
  unfold invertByMinimization
  rw [e']
  refine fold_error (searchAt env m α g p) i e ?_ l₂ l₁ _ fun j hj => ?_
  · rw [search_eq env m α g hg p i hi, he]
    rfl
  · obtain ⟨hj1, hj2⟩ := h' j hj
    obtain ⟨x, hx⟩ := h j hj1 hj2
    exact ⟨_, by rw [search_eq env m α g hg p j hj1, hx]; rfl⟩

/-- A guess with too few axes is an `IndexError`, unless there is nothing to do. -/
theorem C105_guess (env : Env) (m : Minimizer) (α g : NDArray (FP ℂ)) (hg : g.ndim < α.ndim) (p : FdmParams)
    (h0 : 0 ∉ α.rshape) : invertByMinimization env m α g p = .error .indexError := by
  have hi : Inside α.rshape fun _ => 0 := by
    refine ⟨fun k hk => Nat.pos_of_ne_zero fun h => h0 ?_, fun _ _ => rfl⟩
    rw [List.getD_eq_getElem?_getD, List.getElem?_eq_getElem hk, Option.getD_some] at h
    rw [← h]
    exact List.getElem_mem hk
  obtain ⟨l₁, l₂, e', h'⟩ := ndindex_split hi
  have hf : ∀ i, searchAt env m α g p i = .error .indexError := fun i => by
    unfold searchAt item
    rw [if_pos (by exact hg)]
    rfl
  unfold invertByMinimization
  cases hs : ndindex α.rshape with
  | nil => rw [hs] at e'; simp at e'
  | cons i l => rw [← List.nil_append (i :: l)]; exact fold_error _ i _ (hf i) l [] _ (by simp)

open Classical in
/-- A search that raises when it starts at 1. -/
private noncomputable def picky : Minimizer := fun _ x => if x.1 = FP.num 1 then .error (.valueError "no") else .ok x

example (env : Env) (p : FdmParams) := C105_loop env (fun _ x => .ok x) ⟨[2, 3], fun _ => FP.num 1⟩ ⟨[2, 3], fun _ => FP.num 2⟩ rfl p
  fun _ _ => ⟨_, rfl⟩

example (env : Env) (p : FdmParams) := C105_raises env picky ⟨[3], fun _ => FP.num 1⟩ ⟨[3], fun i => FP.num (i 0 : ℂ)⟩ rfl p
  (fun k => if k = 0 then 1 else 0) ⟨by simp, by simp; omega⟩ (.valueError "no") (by simp [picky, reIm, NDArray.get, canon, dimAt])
  fun j hj hlt => by
    have h0 : j 0 = 0 := by simpa [flat] using hlt
    simp [picky, reIm, NDArray.get, canon, dimAt, h0]

example (env : Env) (p : FdmParams) := C105_guess env (fun _ x => .ok x) ⟨[2, 3], fun _ => FP.num 1⟩ ⟨[2], fun _ => FP.num 2⟩
  (by decide) p (by decide)

/-! ## What is minimised -/

/-- The objective at a pair is the distance of the signals, and the signal is that of the passive permittivity which is returned
in the end: the sign of the second number has no effect. -/
theorem C105_objective (env : Env) (p : FdmParams) (a b : ℝ) (α v : ℂ)
    (hv : Fdm.effPolN env (bulk env.defaults.epsEnv (passive a b)) p.aTip p.n p.zTip p.nTrapz p.args p.nLag p.method =
      .ok (FP.num v)) :
    minimizationFunction env (FP.num a, FP.num b) (FP.num α) p = .ok (FP.num ‖α - v‖) ∧
    minimizationFunction env (FP.num a, FP.num (-b)) (FP.num α) p = .ok (FP.num ‖α - v‖) := by
  have key : ∀ c, passive a c = passive a b → minimizationFunction env (FP.num a, FP.num c) (FP.num α) p = .ok (FP.num ‖α - v‖) :=
    fun c hc => by
    unfold minimizationFunction
    rw [pair_num, hc]
    have : bulkOf env (FP.num (passive a b)) = bulk env.defaults.epsEnv (passive a b) := rfl
    simp only [this, hv, PyM.ok_bind]
    rfl
  exact ⟨key b rfl, key (-b) (by unfold passive; rw [abs_neg])⟩

private theorem example_signal (env : Env) (he : env.defaults.epsEnv = 1) (ε : ℝ) (h : 1 ≤ ε) (h' : ε ≤ 5 / 4) :
    ‖reflOf env.defaults.epsEnv ε‖ ≤ 1 / 8 ∧ (ε : ℂ) ≠ 0 ∧ (ε : ℂ) + env.defaults.epsEnv ≠ 0 := by
  have e : reflOf env.defaults.epsEnv ε = (((ε - 1) / (ε + 1) : ℝ) : ℂ) := by
    unfold reflOf
    rw [he]
    push_cast
    rfl
  refine ⟨?_, by exact_mod_cast (by linarith : ε ≠ 0), by rw [he]; exact_mod_cast (by linarith : ε + 1 ≠ 0)⟩
  rw [e, Complex.norm_real, Real.norm_eq_abs, abs_of_nonneg (div_nonneg (by linarith) (by linarith)), div_le_iff₀ (by linarith)]
  linarith

/-! ## Simulate, then search -/

private theorem recover_core (env : Env) (m : Minimizer) (S g : NDArray (FP ℂ)) (hg : g.rshape = S.rshape)
    (z r l A n ρ F₀ F₁ : ℝ) (gf : ℂ) (d0 d1 dA : ℝ) (nLag : Option ℕ) (N : ℕ) (g0 : Fdm.GeomOk z d0 r l)
    (g1 : Fdm.GeomOk z d1 r l) (hA : 0 ≤ A) (hN : N ≠ 0)
    (f0 : ∀ x, z ≤ x → x ≤ z + 2 * A → ‖Fdm.geom x d0 r l gf‖ ≤ F₀)
    (f1 : ∀ x, z ≤ x → x ≤ z + 2 * A → ‖Fdm.geom x d1 r l gf‖ ≤ F₁) (hρ : ρ * F₁ < 1) (cₙ : ℂ)
    (hn : Fdm.taylorCoef env (FP.num z) 1 (FP.num A) (FP.num n) (FP.num r) (FP.num l) (FP.num gf) (FP.num d0) (FP.num d1)
      (some N) = .ok (FP.num cₙ))
    (hS : ∀ i, ∃ ε, S.get i = FP.num ε ∧ ε ≠ 0 ∧ ε + env.defaults.epsEnv ≠ 0 ∧ ‖reflOf env.defaults.epsEnv ε‖ ≤ ρ)
    (P : ℝ → ℝ → ℝ → Prop)
    (hm : ∀ ε α : ℂ, (∃ i, Inside S.rshape i ∧ S.get i = FP.num ε) →
      Fdm.effPolN env (bulk env.defaults.epsEnv ε) (FP.num A) (FP.num n) (some (FP.num z)) (some N) (fdmTip r l gf d0 d1 dA) nLag
        (some "bulk") = .ok (FP.num α) → ∀ x₀ : FP ℝ × FP ℝ, ∃ a b d : ℝ, P a b d ∧
      m (fun x => minimizationFunction env x (FP.num α)
        ⟨FP.num A, FP.num n, some (FP.num z), some N, fdmTip r l gf d0 d1 dA, nLag, some "bulk"⟩) x₀ = .ok (FP.num a, FP.num b) ∧
      minimizationFunction env (FP.num a, FP.num b) (FP.num α)
        ⟨FP.num A, FP.num n, some (FP.num z), some N, fdmTip r l gf d0 d1 dA, nLag, some "bulk"⟩ = .ok (FP.num d)) :
    ∃ o α E, SampleObj.bulk env.defaults (some S) none = .ok o ∧
      Fdm.effPolN env o.stack (.ok (NDArray.scalar (FP.num A))) (.ok (NDArray.scalar (FP.num n)))
        (some (.ok (NDArray.scalar (FP.num z)))) (some N)
        (Fdm.argsArr ⟨some (NDArray.scalar (FP.num r)), some (NDArray.scalar (FP.num l)), some (NDArray.scalar (FP.num gf)),
          some (NDArray.scalar (FP.num d0)), some (NDArray.scalar (FP.num d1)), some (NDArray.scalar (FP.num dA))⟩) nLag
        (some "bulk") = .ok (.ok α) ∧
      invertByMinimization env m α g
        ⟨FP.num A, FP.num n, some (FP.num z), some N, fdmTip r l gf d0 d1 dA, nLag, some "bulk"⟩ = .ok E ∧
      E.rshape = S.rshape ∧ ∀ i, Inside S.rshape i → ∃ ε a b d, S.get i = FP.num ε ∧ ε + env.defaults.epsEnv ≠ 0 ∧
        E.get i = FP.num (passive a b) ∧ P a b d ∧
        (passive a b ≠ 0 → passive a b + env.defaults.epsEnv ≠ 0 → ‖reflOf env.defaults.epsEnv (passive a b)‖ ≤ ρ →
          (‖cₙ‖ - (((1 - ρ * F₁) ^ 2)⁻¹ - 1) * (F₀ / 2)) *
            ‖reflOf env.defaults.epsEnv ε - reflOf env.defaults.epsEnv (passive a b)‖ ≤ d) := by
  have hsh : bshape (Option.getD none (NDArray.scalar (FP.num env.defaults.epsEnv))).rshape S.rshape = some S.rshape := by
    simp [NDArray.scalar]
  have hb := C91_eps env.defaults S none none
  rw [hsh] at hb
  obtain ⟨o, B, C, ho, o1, o2, o3, hB, hC, hCi, hBi⟩ := hb
  simp only at hBi
  let T : ArrSample := ⟨[B, C], [], S.rshape, [], by simp [hB, hC], by simp, fun _ => rfl, rfl⟩
  have hT : o.stack = T.stack none := by
    unfold SampleObj.stack ArrSample.stack
    rw [o1, o2, o3]
    rfl
  have hat : ∀ i ε, S.get i = FP.num ε → T.at_ i = bulk env.defaults.epsEnv ε := fun i ε hε => by
    simp [T, ArrSample.at_, bulk, layered, hBi, hCi, hε]
  have hval : ∀ ε, ε ≠ 0 → ε + env.defaults.epsEnv ≠ 0 → ‖reflOf env.defaults.epsEnv ε‖ ≤ ρ → ∀ ε', ε' ≠ 0 →
      ε' + env.defaults.epsEnv ≠ 0 → ‖reflOf env.defaults.epsEnv ε'‖ ≤ ρ → _ := fun ε h1 h2 h3 ε' h1' h2' h3' =>
    C104_fdm env (bulk env.defaults.epsEnv ε) (bulk env.defaults.epsEnv ε') rfl rfl _ _ (C09_refl _ _ none _ h1 h2)
      (C09_refl _ _ none _ h1' h2') z r l A n ρ F₀ F₁ gf d0 d1 dA nLag N g0 g1 hA hN f0 f1 h3 h3' hρ cₙ hn
  have hden := C61_fdm_eff_pol_n env T ⟨some (NDArray.scalar (FP.num r)), some (NDArray.scalar (FP.num l)),
    some (NDArray.scalar (FP.num gf)), some (NDArray.scalar (FP.num d0)), some (NDArray.scalar (FP.num d1)),
    some (NDArray.scalar (FP.num dA))⟩ nLag (some "bulk") none (some (NDArray.scalar (FP.num z))) (NDArray.scalar (FP.num A))
    (NDArray.scalar (FP.num n)) (some N)
  have hjoin : joinAll [optShape (some (NDArray.scalar (FP.num z))), some (NDArray.scalar (FP.num A)).rshape,
      some (NDArray.scalar (FP.num n)).rshape, optShape (some (NDArray.scalar (FP.num r))), optShape (some (NDArray.scalar (FP.num l))),
      optShape (some (NDArray.scalar (FP.num gf))), optShape (some (NDArray.scalar (FP.num d0))),
      optShape (some (NDArray.scalar (FP.num d1))),
      if some "bulk" = some "Q_ave" then optShape (some (NDArray.scalar (FP.num dA))) else some [], some T.epsShape, some T.tShape] =
      some S.rshape := by
    simp [joinAll, optShape, NDArray.scalar, T]
  rw [hjoin] at hden
  set p : FdmParams := ⟨FP.num A, FP.num n, some (FP.num z), some N, fdmTip r l gf d0 d1 dA, nLag, some "bulk"⟩ with hp
  have hsig : ∀ i ε, S.get i = FP.num ε → Fdm.effPolN env (T.at_ i) ((NDArray.scalar (FP.num A)).get i)
      ((NDArray.scalar (FP.num n)).get i) ((some (NDArray.scalar (FP.num z))).map (·.get i)) (some N)
      (Fdm.argsAt ⟨some (NDArray.scalar (FP.num r)), some (NDArray.scalar (FP.num l)),
        some (NDArray.scalar (FP.num gf)), some (NDArray.scalar (FP.num d0)), some (NDArray.scalar (FP.num d1)),
        some (NDArray.scalar (FP.num dA))⟩ i) nLag (some "bulk") =
      Fdm.effPolN env (bulk env.defaults.epsEnv ε) (FP.num A) (FP.num n) (some (FP.num z)) (some N) (fdmTip r l gf d0 d1 dA) nLag
        (some "bulk") := fun i ε hε => by rw [hat i ε hε]; rfl
  rcases hden with ⟨e, -, he⟩ | ⟨α, f, hα, hsα, hf⟩
  · obtain ⟨ε, hε, h1, h2, h3⟩ := hS fun _ => 0
    obtain ⟨v₁, v₂, q, -⟩ := hval ε h1 h2 h3 ε h1 h2 h3
    have := (hsig _ ε hε).symm.trans (he fun _ => 0)
    rw [q] at this
    cases this
  have hαi : ∀ i, ∃ ε v, S.get i = FP.num ε ∧ ε ≠ 0 ∧ ε + env.defaults.epsEnv ≠ 0 ∧ ‖reflOf env.defaults.epsEnv ε‖ ≤ ρ ∧
      α.get i = FP.num v ∧ Fdm.effPolN env (bulk env.defaults.epsEnv ε) (FP.num A) (FP.num n) (some (FP.num z)) (some N)
        (fdmTip r l gf d0 d1 dA) nLag (some "bulk") = .ok (FP.num v) := fun i => by
    obtain ⟨ε, hε, h1, h2, h3⟩ := hS i
    obtain ⟨v, v₂, q, -⟩ := hval ε h1 h2 h3 ε h1 h2 h3
    obtain ⟨k1, k2⟩ := hf i
    have k1 := (hsig i ε hε).symm.trans k1
    rw [q] at k1
    injection k1 with k1
    exact ⟨ε, v, hε, h1, h2, h3, by rw [k2, k1], q⟩
  have hmin : ∀ i, Inside α.rshape i → ∃ a b d ε v : _, S.get i = FP.num ε ∧ ε ≠ 0 ∧ ε + env.defaults.epsEnv ≠ 0 ∧
      ‖reflOf env.defaults.epsEnv ε‖ ≤ ρ ∧ Fdm.effPolN env (bulk env.defaults.epsEnv ε) (FP.num A) (FP.num n) (some (FP.num z)) (some N)
        (fdmTip r l gf d0 d1 dA) nLag (some "bulk") = .ok (FP.num v) ∧ P a b d ∧
      m (fun x => minimizationFunction env x (α.get i) p) (reIm (g.get i)) = .ok (FP.num a, FP.num b) ∧
      minimizationFunction env (FP.num a, FP.num b) (FP.num v) p = .ok (FP.num d) := fun i hi => by
    obtain ⟨ε, v, hε, h1, h2, h3, k, q⟩ := hαi i
    obtain ⟨a, b, d, hd, hm1, hm2⟩ := hm ε v ⟨i, by rw [← hsα]; exact hi, hε⟩ q (reIm (g.get i))
    exact ⟨a, b, d, ε, v, hε, h1, h2, h3, q, hd, by rw [k]; exact hm1, hm2⟩
  obtain ⟨E, e1, e2, e3⟩ := C105_loop env m α g (by rw [hg, hsα]) p fun i hi => by
    obtain ⟨a, b, d, ε, v, -, -, -, -, -, -, h, -⟩ := hmin i hi
    exact ⟨_, h⟩
  refine ⟨o, α, E, ho, ?_, e1, by rw [e2, hsα], fun i hi => ?_⟩
  · rw [hT]
    exact hα
  · rw [← hsα] at hi
    obtain ⟨a, b, d, ε, v, hε, h1, h2, h3, q, hd, hx, hobj⟩ := hmin i hi
    obtain ⟨x, hx', hE, -⟩ := e3 i hi
    rw [hx] at hx'
    injection hx' with hx'
    refine ⟨ε, a, b, d, hε, h2, hE a b hx'.symm, hd, fun h1' h2' h3' => ?_⟩
    obtain ⟨v₁, v₂, q₁, q₂, hle⟩ := hval ε h1 h2 h3 _ h1' h2' h3'
    rw [q] at q₁
    injection q₁ with q₁
    injection q₁ with q₁
    rw [(C105_objective env p a b v v₂ q₂).1] at hobj
    injection hobj with hobj
    injection hobj with hobj
    refine hle.trans ?_
    rw [← q₁, hobj]

/-- Simulate the signals of an array of permittivities, search for permittivities with a routine that leaves a residual of at most
`δ`: where the reflection coefficient found is not larger than `ρ`, its error is at most `δ` divided by the factor of C104. -/
theorem C105_recover (env : Env) (m : Minimizer) (S g : NDArray (FP ℂ)) (hg : g.rshape = S.rshape)
    (z r l A n ρ F₀ F₁ δ : ℝ) (gf : ℂ) (d0 d1 dA : ℝ) (nLag : Option ℕ) (N : ℕ) (g0 : Fdm.GeomOk z d0 r l)
    (g1 : Fdm.GeomOk z d1 r l) (hA : 0 ≤ A) (hN : N ≠ 0)
    (f0 : ∀ x, z ≤ x → x ≤ z + 2 * A → ‖Fdm.geom x d0 r l gf‖ ≤ F₀)
    (f1 : ∀ x, z ≤ x → x ≤ z + 2 * A → ‖Fdm.geom x d1 r l gf‖ ≤ F₁) (hρ : ρ * F₁ < 1) (cₙ : ℂ)
    (hn : Fdm.taylorCoef env (FP.num z) 1 (FP.num A) (FP.num n) (FP.num r) (FP.num l) (FP.num gf) (FP.num d0) (FP.num d1)
      (some N) = .ok (FP.num cₙ))
    -- the permittivities: finite, and weakly reflecting
    (hS : ∀ i, ∃ ε, S.get i = FP.num ε ∧ ε ≠ 0 ∧ ε + env.defaults.epsEnv ≠ 0 ∧ ‖reflOf env.defaults.epsEnv ε‖ ≤ ρ)
    -- the search ends with a small residual
    (hm : ∀ ε α : ℂ, (∃ i, Inside S.rshape i ∧ S.get i = FP.num ε) →
      Fdm.effPolN env (bulk env.defaults.epsEnv ε) (FP.num A) (FP.num n) (some (FP.num z)) (some N) (fdmTip r l gf d0 d1 dA) nLag
        (some "bulk") = .ok (FP.num α) → ∀ x₀ : FP ℝ × FP ℝ, ∃ a b d : ℝ, d ≤ δ ∧
      m (fun x => minimizationFunction env x (FP.num α)
        ⟨FP.num A, FP.num n, some (FP.num z), some N, fdmTip r l gf d0 d1 dA, nLag, some "bulk"⟩) x₀ = .ok (FP.num a, FP.num b) ∧
      minimizationFunction env (FP.num a, FP.num b) (FP.num α)
        ⟨FP.num A, FP.num n, some (FP.num z), some N, fdmTip r l gf d0 d1 dA, nLag, some "bulk"⟩ = .ok (FP.num d)) :
    ∃ o α E, SampleObj.bulk env.defaults (some S) none = .ok o ∧
      Fdm.effPolN env o.stack (.ok (NDArray.scalar (FP.num A))) (.ok (NDArray.scalar (FP.num n)))
        (some (.ok (NDArray.scalar (FP.num z)))) (some N)
        (Fdm.argsArr ⟨some (NDArray.scalar (FP.num r)), some (NDArray.scalar (FP.num l)), some (NDArray.scalar (FP.num gf)),
          some (NDArray.scalar (FP.num d0)), some (NDArray.scalar (FP.num d1)), some (NDArray.scalar (FP.num dA))⟩) nLag
        (some "bulk") = .ok (.ok α) ∧
      invertByMinimization env m α g
        ⟨FP.num A, FP.num n, some (FP.num z), some N, fdmTip r l gf d0 d1 dA, nLag, some "bulk"⟩ = .ok E ∧
      E.rshape = S.rshape ∧ ∀ i, Inside S.rshape i → ∃ ε ε', S.get i = FP.num ε ∧ E.get i = FP.num ε' ∧ 0 ≤ ε'.im ∧
        (ε' ≠ 0 → ε' + env.defaults.epsEnv ≠ 0 → ‖reflOf env.defaults.epsEnv ε'‖ ≤ ρ →
          (‖cₙ‖ - (((1 - ρ * F₁) ^ 2)⁻¹ - 1) * (F₀ / 2)) * ‖reflOf env.defaults.epsEnv ε - reflOf env.defaults.epsEnv ε'‖ ≤ δ) := by
  obtain ⟨o, α, E, h1, h2, h3, h4, h5⟩ := recover_core env m S g hg z r l A n ρ F₀ F₁ gf d0 d1 dA nLag N g0 g1 hA hN f0 f1 hρ cₙ hn hS
    (fun _ _ d => d ≤ δ) hm
  refine ⟨o, α, E, h1, h2, h3, h4, fun i hi => ?_⟩
  obtain ⟨ε, a, b, d, k1, -, k2, k3, k4⟩ := h5 i hi
  exact ⟨ε, _, k1, k2, abs_nonneg b, fun e1 e2 e3 => (k4 e1 e2 e3).trans k3⟩

/-- If the search ends at signals that agree exactly, and at weakly reflecting permittivities, it has found the permittivities. -/
theorem C105_exact (env : Env) (he : env.defaults.epsEnv ≠ 0) (m : Minimizer) (S g : NDArray (FP ℂ)) (hg : g.rshape = S.rshape)
    (z r l A n ρ F₀ F₁ : ℝ) (gf : ℂ) (d0 d1 dA : ℝ) (nLag : Option ℕ) (N : ℕ) (g0 : Fdm.GeomOk z d0 r l)
    (g1 : Fdm.GeomOk z d1 r l) (hA : 0 ≤ A) (hN : N ≠ 0)
    (f0 : ∀ x, z ≤ x → x ≤ z + 2 * A → ‖Fdm.geom x d0 r l gf‖ ≤ F₀)
    (f1 : ∀ x, z ≤ x → x ≤ z + 2 * A → ‖Fdm.geom x d1 r l gf‖ ≤ F₁) (hρ : ρ * F₁ < 1) (cₙ : ℂ)
    (hn : Fdm.taylorCoef env (FP.num z) 1 (FP.num A) (FP.num n) (FP.num r) (FP.num l) (FP.num gf) (FP.num d0) (FP.num d1)
      (some N) = .ok (FP.num cₙ))
    (hc : (((1 - ρ * F₁) ^ 2)⁻¹ - 1) * (F₀ / 2) < ‖cₙ‖)
    (hS : ∀ i, ∃ ε, S.get i = FP.num ε ∧ ε ≠ 0 ∧ ε + env.defaults.epsEnv ≠ 0 ∧ ‖reflOf env.defaults.epsEnv ε‖ ≤ ρ)
    (hm : ∀ ε α : ℂ, (∃ i, Inside S.rshape i ∧ S.get i = FP.num ε) →
      Fdm.effPolN env (bulk env.defaults.epsEnv ε) (FP.num A) (FP.num n) (some (FP.num z)) (some N) (fdmTip r l gf d0 d1 dA) nLag
        (some "bulk") = .ok (FP.num α) → ∀ x₀ : FP ℝ × FP ℝ, ∃ a b : ℝ, passive a b ≠ 0 ∧ passive a b + env.defaults.epsEnv ≠ 0 ∧
      ‖reflOf env.defaults.epsEnv (passive a b)‖ ≤ ρ ∧
      m (fun x => minimizationFunction env x (FP.num α)
        ⟨FP.num A, FP.num n, some (FP.num z), some N, fdmTip r l gf d0 d1 dA, nLag, some "bulk"⟩) x₀ = .ok (FP.num a, FP.num b) ∧
      minimizationFunction env (FP.num a, FP.num b) (FP.num α)
        ⟨FP.num A, FP.num n, some (FP.num z), some N, fdmTip r l gf d0 d1 dA, nLag, some "bulk"⟩ = .ok (FP.num 0)) :
    ∃ o α E, SampleObj.bulk env.defaults (some S) none = .ok o ∧
      Fdm.effPolN env o.stack (.ok (NDArray.scalar (FP.num A))) (.ok (NDArray.scalar (FP.num n)))
        (some (.ok (NDArray.scalar (FP.num z)))) (some N)
        (Fdm.argsArr ⟨some (NDArray.scalar (FP.num r)), some (NDArray.scalar (FP.num l)), some (NDArray.scalar (FP.num gf)),
          some (NDArray.scalar (FP.num d0)), some (NDArray.scalar (FP.num d1)), some (NDArray.scalar (FP.num dA))⟩) nLag
        (some "bulk") = .ok (.ok α) ∧
      invertByMinimization env m α g
        ⟨FP.num A, FP.num n, some (FP.num z), some N, fdmTip r l gf d0 d1 dA, nLag, some "bulk"⟩ = .ok E ∧
      E.rshape = S.rshape ∧ ∀ i, Inside S.rshape i → E.get i = S.get i := by
  obtain ⟨o, α, E, h1, h2, h3, h4, h5⟩ := recover_core env m S g hg z r l A n ρ F₀ F₁ gf d0 d1 dA nLag N g0 g1 hA hN f0 f1 hρ cₙ hn hS
    (fun a b d => passive a b ≠ 0 ∧ passive a b + env.defaults.epsEnv ≠ 0 ∧ ‖reflOf env.defaults.epsEnv (passive a b)‖ ≤ ρ ∧ d = 0)
    fun ε α h h' x₀ => by
      obtain ⟨a, b, q1, q2, q3, q4, q5⟩ := hm ε α h h' x₀
      exact ⟨a, b, 0, ⟨q1, q2, q3, rfl⟩, q4, q5⟩
  refine ⟨o, α, E, h1, h2, h3, h4, fun i hi => ?_⟩
  obtain ⟨ε, a, b, d, k1, k0, k2, ⟨p1, p2, p3, rfl⟩, k4⟩ := h5 i hi
  rw [k1, k2]
  congr 1
  have h := k4 p1 p2 p3
  have h0 : reflOf env.defaults.epsEnv ε - reflOf env.defaults.epsEnv (passive a b) = 0 := by
    by_contra hne
    have := mul_pos (sub_pos.2 hc) (norm_pos_iff.2 hne)
    linarith
  unfold reflOf at h0
  rw [sub_eq_zero, div_eq_div_iff k0 p2] at h0
  have : 2 * env.defaults.epsEnv * (passive a b - ε) = 0 := by linear_combination -h0
  rcases mul_eq_zero.1 this with h | h
  · exact absurd h (mul_ne_zero two_ne_zero he)
  · exact sub_eq_zero.1 h

private theorem example_min (env : Env) (p : FdmParams) (ε : ℂ) (α : ℂ)
    (h : ∃ i, Inside [3] i ∧ (⟨[3], fun _ => FP.num ((5 / 4 : ℝ) : ℂ)⟩ : NDArray (FP ℂ)).get i = FP.num ε)
    (hα : Fdm.effPolN env (bulk env.defaults.epsEnv ε) p.aTip p.n p.zTip p.nTrapz p.args p.nLag p.method = .ok (FP.num α)) :
    minimizationFunction env (FP.num (5 / 4), FP.num 0) (FP.num α) p = .ok (FP.num 0) := by
  obtain ⟨i, -, h⟩ := h
  have h : FP.num ((5 / 4 : ℝ) : ℂ) = FP.num ε := h
  injection h with h
  have e : passive (5 / 4) 0 = ((5 / 4 : ℝ) : ℂ) := by
    unfold passive
    rw [abs_zero]
    rfl
  rw [← h, ← e] at hα
  rw [(C105_objective env p (5 / 4) 0 α α hα).1, sub_self, norm_zero]

example (env : Env) (he : env.defaults.epsEnv = 1) (dA : ℝ) :=
  C105_recover env (fun _ _ => .ok (FP.num (5 / 4), FP.num 0)) ⟨[3], fun _ => FP.num ((5 / 4 : ℝ) : ℂ)⟩ ⟨[3], fun _ => FP.num 1⟩ rfl
    0 1 4 (1 / 4) 1 (1 / 8) (39 / 64) (39 / 64) 0 ((1 : ℝ) : ℂ) (1 / 2) (1 / 2) dA none 2 identify_geomOk identify_geomOk (by norm_num)
    two_ne_zero identify_sup identify_sup (by norm_num) _ (identify_coef env)
    (fun _ => ⟨_, rfl, (example_signal env he (5 / 4) (by norm_num) le_rfl).2.1, (example_signal env he (5 / 4) (by norm_num) le_rfl).2.2,
      (example_signal env he (5 / 4) (by norm_num) le_rfl).1⟩)
    fun ε α h hα _ => ⟨_, _, 0, le_rfl, rfl, example_min env _ ε α h hα⟩

private theorem example_passive : passive (5 / 4) 0 = ((5 / 4 : ℝ) : ℂ) := by
  unfold passive
  rw [abs_zero]
  rfl

example (env : Env) (he : env.defaults.epsEnv = 1) (dA : ℝ) :=
  C105_exact env (by rw [he]; exact one_ne_zero) (fun _ _ => .ok (FP.num (5 / 4), FP.num 0))
    ⟨[3], fun _ => FP.num ((5 / 4 : ℝ) : ℂ)⟩ ⟨[3], fun _ => FP.num 1⟩ rfl
    0 1 4 (1 / 4) 1 (1 / 8) (39 / 64) (39 / 64) ((1 : ℝ) : ℂ) (1 / 2) (1 / 2) dA none 2 identify_geomOk identify_geomOk (by norm_num)
    two_ne_zero identify_sup identify_sup (by norm_num) _ (identify_coef env) (by rw [Complex.norm_real]; norm_num)
    (fun _ => ⟨_, rfl, (example_signal env he (5 / 4) (by norm_num) le_rfl).2.1, (example_signal env he (5 / 4) (by norm_num) le_rfl).2.2,
      (example_signal env he (5 / 4) (by norm_num) le_rfl).1⟩)
    fun ε α h hα _ => ⟨5 / 4, 0, by rw [example_passive]; exact (example_signal env he (5 / 4) (by norm_num) le_rfl).2.1,
      by rw [example_passive]; exact (example_signal env he (5 / 4) (by norm_num) le_rfl).2.2,
      by rw [example_passive]; exact (example_signal env he (5 / 4) (by norm_num) le_rfl).1, rfl, example_min env _ ε α h hα⟩

end Snompy.Props
