import Verif.Model.ExampleSpectra
import Verif.Props.ApproachCurve
import Verif.Props.Resonance
import Verif.Props.Whole
import Verif.Props.FarPassive
import Verif.Props.Perm

/-!
# C109: the spectra of `docs/examples/scripts/t_dependent_spectra.py`
-/

namespace Snompy.Props

open Snompy Examples

/-- What the script does with a sample, it does at each position of the arrays. -/
theorem scattered_den (env : Env) (x : Experiment) (S : ArrSample) (nu : NDArray (FP ℝ)) :
    DenM (scattered env x (S.stack (some (.ok nu)))) (joinAll [some nu.rshape, some S.epsShape, some S.tShape])
      fun i => scattered env x (S.at_ i (some (nu.get i))) := by
  have h1 := C61_fdm_eff_pol_n env S ⟨some (NDArray.scalar (FP.num x.rTip)), some (NDArray.scalar (FP.num x.lTip)), none, none, none, none⟩
    none (some "Q_ave") (some (.ok nu)) none (NDArray.scalar (FP.num x.aTip)) (NDArray.scalar (FP.num x.n)) none
  have h2 := C60_refl_coef S (some nu) none (some (NDArray.scalar (FP.num x.thetaIn))) none "p"
  unfold scattered
  refine DenM.seq (s := joinAll [some S.epsShape, some S.tShape]) (h1.congr ?_ fun _ => rfl) ?_ fun a fa ha =>
    DenM.seq (s := joinAll [some nu.rshape, some S.epsShape, some S.tShape]) (h2.congr ?_ fun _ => rfl) (Shape.le_refl _)
      fun b fb hb => DenM.ok (Den.congr (Den.cmul (Den.cpow 2 (Den.cadd (Den.clit 1) (Den.cmul (Den.ofR (Den.lit x.cR)) hb))) ha) ?_
        fun _ => rfl)
  · simp [joinAll, optShape, NDArray.scalar]
  · exact Shape.le_join_right _ _
  · simp [joinAll, optShape, NDArray.scalar, farNuShape]
  · simp only [Shape.unit_join]
    rw [Shape.join_comm]
    exact Shape.le_join_right _ _

/-- The conditions on the experiment: a grazing angle at most, a weighting factor below one, and a tip that stays close enough to the
surface and has `Im g > 0`. -/
structure ExperimentOk (env : Env) (x : Experiment) (e : ℝ) : Prop where
  angle : Real.sin x.thetaIn ^ 2 < e
  weight : |x.cR| < 1
  amp : 0 ≤ x.aTip
  radius : 0 < x.rTip
  height : 0 ≤ env.defaults.zTip
  charge1 : 0 ≤ env.defaults.dQ1
  chargeA : 0 < env.defaults.dQa
  near : x.rTip + 4 * (env.defaults.zTip + 2 * x.aTip) + 2 * env.defaults.dQ1 * x.rTip < 4 * x.lTip
  gain : 0 < env.defaults.gFactor.im
  trapz : env.defaults.nTrapz ≠ 0
  rule : env.RuleOk none

/-- One sample under the experiment. -/
theorem scattered_num (env : Env) (x : Experiment) (e : ℝ) (hx : ExperimentOk env x e) (L : List (ℂ × ℝ)) (sub : ℂ) (nu : ℝ) (hnu : 0 < nu)
    (hL : ∀ l ∈ L, 0 < l.1.im ∧ 0 ≤ l.2) (hs : Passive sub) :
    ∃ α r : ℂ,
      Fdm.effPolN env (layered e L sub) (FP.num x.aTip) (FP.num x.n) none none
        { rTip := some (FP.num x.rTip), lTip := some (FP.num x.lTip) } none (some "Q_ave") = .ok (FP.num α) ∧
      (layered e L sub).reflCoef (atAngle x.thetaIn nu "p") = .ok (FP.num r) ∧ ‖r‖ ≤ 1 ∧ 1 + x.cR * r ≠ 0 ∧
      scattered env x (layered e L sub (some nu)) = .ok (FP.num ((1 + x.cR * r) ^ 2 * α)) := by
  obtain ⟨h1, h2, h3, h4, h5, h6, h7, h8, h9, h10, h11⟩ := hx
  have hl0 : 0 < x.lTip := by
    have : 0 ≤ 2 * env.defaults.dQ1 * x.rTip := by positivity
    linarith
  have he : 0 < e := lt_of_le_of_lt (sq_nonneg _) h1
  set d0 : ℝ := 1.31 * x.lTip / (x.lTip + 2 * x.rTip) with hd0
  have hd0' : 0 < d0 := by positivity
  have k0 : Fdm.GeomOk env.defaults.zTip d0 x.rTip x.lTip := ⟨h4, hl0, by
    have : 0 ≤ 2 * env.defaults.dQ1 * x.rTip := by positivity
    linarith, by positivity⟩
  have k1 : Fdm.GeomOk env.defaults.zTip env.defaults.dQ1 x.rTip x.lTip := ⟨h4, hl0, k0.ne, by positivity⟩
  have hP : ∀ l ∈ L, Passive l.1 ∧ 0 ≤ l.2 := fun l hl => ⟨.inl (hL l hl).1, (hL l hl).2⟩
  obtain ⟨B, -, hα⟩ := C108_layered env e L sub none he hP hs none h11 env.defaults.zTip x.rTip x.lTip env.defaults.gFactor d0
    env.defaults.dQ1 env.defaults.dQa x.aTip h9 k0 k1 (by
      have : 0 ≤ 2 * env.defaults.dQ1 * x.rTip := by positivity
      linarith) h3 h8 (by positivity) x.n env.defaults.nTrapz h10
  obtain ⟨α, hα⟩ : ∃ α, _ = Except.ok (FP.num α) := ⟨_, hα⟩
  obtain ⟨r, hr, hr1⟩ := C65_angle e L sub none nu x.thetaIn "p" (.inl rfl) hnu.ne' h1 (fun l hl => ⟨.inl (hL l hl).1, (hL l hl).2,
    fun h => by
      have := congrArg Complex.im h
      rw [← Complex.ofReal_pow, Complex.ofReal_im] at this
      exact (hL l hl).1.ne' this⟩) hs
  have hne : 1 + x.cR * r ≠ 0 := fun h => by
    have h1 : ‖(x.cR : ℂ) * r‖ = 1 := by
      rw [eq_neg_of_add_eq_zero_right h, norm_neg, norm_one]
    rw [norm_mul, Complex.norm_real, Real.norm_eq_abs] at h1
    nlinarith [norm_nonneg r, abs_nonneg x.cR]
  have hα' : Fdm.effPolN env (layered e L sub) (FP.num x.aTip) (FP.num x.n) none none
        { rTip := some (FP.num x.rTip), lTip := some (FP.num x.lTip) } none (some "Q_ave") = .ok (FP.num α) := by
    refine Eq.trans ?_ hα
    have : env.defaults.fdm (⟨some (FP.num x.rTip), some (FP.num x.lTip), none, none, none, none⟩ : FdmArgs (FP ℝ) (FP ℂ)) =
        env.defaults.fdm (fdmTip x.rTip x.lTip env.defaults.gFactor d0 env.defaults.dQ1 env.defaults.dQa) := by
      have h : x.lTip + 2 * x.rTip ≠ 0 := by positivity
      rw [fdm_fdmTip]
      unfold Defaults.fdm
      simp only [Option.getD_none, Option.getD_some, slit, sclit, FP.num_add, FP.num_mul, FP.num_div _ h]
      rfl
    unfold Fdm.effPolN Fdm.effPol
    rw [this]
    rfl
  refine ⟨α, r, hα', hr, hr1, hne, ?_⟩
  unfold scattered
  have e1 : Fdm.effPolN env (layered e L sub (some nu)) (lit x.aTip) (lit x.n) none none
      { rTip := some (lit x.rTip), lTip := some (lit x.lTip) } none (some "Q_ave") = _ := hα'
  have e2 : (layered e L sub (some nu)).reflCoef { thetaIn := some (lit x.thetaIn) } = _ := hr
  rw [e1, PyM.ok_bind, e2, PyM.ok_bind]
  rfl

private theorem axis0_get (l : List ℝ) (k h : ℕ) (hh : h < l.length) : (axis0 l).get (at2 k h) = FP.num l[h] := by
  have := padFront_get (l.map FP.num) 0 (FP.nan : FP ℝ) (at2 k h) h (by simpa using hh)
  rw [Function.update_eq_self_iff.2 (show h = at2 k h 0 from rfl)] at this
  rw [axis0, this, List.getD_eq_getElem?_getD, List.getElem?_map, List.getElem?_eq_getElem hh]
  rfl

private theorem axis1_get (l : List ℝ) (k h : ℕ) (hk : k < l.length) : (axis1 l).get (at2 k h) = FP.num l[k] := by
  have := padFront_get (l.map FP.num) 1 (FP.nan : FP ℝ) (at2 k h) k (by simpa using hk)
  rw [Function.update_eq_self_iff.2 (show k = at2 k h 1 from rfl)] at this
  rw [axis1, this, List.getD_eq_getElem?_getD, List.getElem?_map, List.getElem?_eq_getElem hk]
  rfl

/-- The arrays of permittivities have the shape of the wavenumbers, and its entries are the scalar formula. -/
private theorem lorentz_arr (nu : NDArray (FP ℝ)) (nuJ gamma A epsInf : ℝ) :
    ∃ E : NDArray (FP ℂ), lorentzPerm (C := CArr) (.ok nu) (lit nuJ) (lit gamma) (some (lit A)) none (epsInf := clit (epsInf : ℂ)) =
        .ok (.ok E) ∧ E.rshape = nu.rshape ∧
      ∀ i, (lorentzPerm (nu.get i) (FP.num nuJ) (FP.num gamma) (some (FP.num A)) none (FP.num 1) (FP.num (epsInf : ℂ)) : PyM (FP ℂ)) =
        .ok (E.get i) := by
  have h := Den.cadd (Den.clit (epsInf : ℂ)) (Den.cdiv (Den.ofR (Den.lit A)) (Den.csub
    (Den.ofR (Den.rsub (Den.npow 2 (Den.lit nuJ)) (Den.npow 2 (Den.leaf nu))))
    (Den.cmul (Den.cmul (Den.clit Complex.I) (Den.ofR (Den.lit gamma))) (Den.ofR (Den.leaf nu)))))
  have h' := h.congr (s' := some nu.rshape) (by simp only [Shape.unit_join, Shape.join_self]) fun _ => rfl
  obtain ⟨E, h1, h2, h3⟩ := h'
  refine ⟨E, ?_, h2, fun i => ?_⟩
  · rw [← h1]
    rfl
  · rw [h3]
    rfl

private theorem drude_arr (nu : NDArray (FP ℝ)) (nuP gamma : ℝ) :
    ∃ E : NDArray (FP ℂ), drudePerm (C := CArr) (.ok nu) (lit nuP) (lit gamma) = .ok (.ok E) ∧ E.rshape = nu.rshape ∧
      ∀ i, (drudePerm (nu.get i) (FP.num nuP) (FP.num gamma) (FP.num 1) : PyM (FP ℂ)) = .ok (E.get i) := by
  have h := Den.cadd (Den.clit 1) (Den.cdiv (Den.ofR (Den.rmul (Den.lit 1) (Den.npow 2 (Den.lit nuP)))) (Den.csub
    (Den.ofR (Den.rsub (Den.npow 2 (Den.lit 0)) (Den.npow 2 (Den.leaf nu))))
    (Den.cmul (Den.cmul (Den.clit Complex.I) (Den.ofR (Den.lit gamma))) (Den.ofR (Den.leaf nu)))))
  have h' := h.congr (s' := some nu.rshape) (by simp only [Shape.unit_join, Shape.join_self]) fun _ => rfl
  obtain ⟨E, h1, h2, h3⟩ := h'
  refine ⟨E, ?_, h2, fun i => ?_⟩
  · rw [← h1]
    rfl
  · rw [h3]
    rfl

private theorem den_value {X : PyM CArr} {s : List ℕ} {f : (ℕ → ℕ) → PyM (FP ℂ)} (h : DenM X (some s) f) (i₀ : ℕ → ℕ) (v : FP ℂ)
    (h0 : f i₀ = .ok v) : ∃ A, X = .ok (.ok A) ∧ A.rshape = s ∧ ∀ i, f i = .ok (A.get i) := by
  rcases h with ⟨e, -, h⟩ | ⟨A, g, hX, hs, h⟩
  · have := (h i₀).symm.trans h0
    cases this
  · exact ⟨A, hX, hs, fun i => by rw [(h i).2]; exact (h i).1⟩

/-- Thickness number `k`, wavenumber number `h`: the script gives an array with a row for each thickness and a column for each
wavenumber.  Its entries are the ratio of the scattered fields of the film and of gold, both calculated from numbers: the
permittivities at that wavenumber, the film of that thickness, the near field signal and the far field reflection.  All of them are
numbers, and the far field factors do not vanish. -/
theorem C109_spectra (env : Env) (x : Experiment) (m : Materials) (hx : ExperimentOk env x m.epsAir) (hSi : 0 < m.epsSi)
    (hgJ : 0 < m.gammaJ) (hA : 0 < m.aJ) (hP : 0 < m.nuPlasma) (hg : 0 < m.gamma) (nu t : List ℝ) (hnu : nu ≠ []) (ht : t ≠ [])
    (hnu0 : ∀ v ∈ nu, 0 < v) (ht0 : ∀ d ∈ t, 0 ≤ d) :
    ∃ E, spectra env x m nu t = .ok E ∧ E.rshape = [nu.length, t.length] ∧
      ∀ (k : ℕ) (hk : k < t.length) (h : ℕ) (hh : h < nu.length), ∃ εP εA α r α' r' : ℂ,
        (lorentzPerm (FP.num nu[h]) (FP.num m.nuJ) (FP.num m.gammaJ) (some (FP.num m.aJ)) none (FP.num 1) (FP.num (m.epsInf : ℂ)) :
          PyM (FP ℂ)) = .ok (FP.num εP) ∧
        (drudePerm (FP.num nu[h]) (FP.num m.nuPlasma) (FP.num m.gamma) (FP.num 1) : PyM (FP ℂ)) = .ok (FP.num εA) ∧
        Fdm.effPolN env (layered m.epsAir [(εP, t[k])] m.epsSi) (FP.num x.aTip) (FP.num x.n) none none
          { rTip := some (FP.num x.rTip), lTip := some (FP.num x.lTip) } none (some "Q_ave") = .ok (FP.num α) ∧
        (layered m.epsAir [(εP, t[k])] m.epsSi).reflCoef (atAngle x.thetaIn nu[h] "p") = .ok (FP.num r) ∧
        Fdm.effPolN env (bulk m.epsAir εA) (FP.num x.aTip) (FP.num x.n) none none
          { rTip := some (FP.num x.rTip), lTip := some (FP.num x.lTip) } none (some "Q_ave") = .ok (FP.num α') ∧
        (bulk m.epsAir εA).reflCoef (atAngle x.thetaIn nu[h] "p") = .ok (FP.num r') ∧
        1 + x.cR * r ≠ 0 ∧ 1 + x.cR * r' ≠ 0 ∧
        E.get (at2 k h) = FP.num ((1 + x.cR * r) ^ 2 * α) / FP.num ((1 + x.cR * r') ^ 2 * α') := by
  obtain ⟨EP, hEP, sEP, iEP⟩ := lorentz_arr (axis0 nu) m.nuJ m.gammaJ m.aJ m.epsInf
  obtain ⟨EA, hEA, sEA, iEA⟩ := drude_arr (axis0 nu) m.nuPlasma m.gamma
  have hn0 : nu.length ≠ 0 := by simpa using hnu
  have ht00 : t.length ≠ 0 := by simpa using ht
  have sn : (axis0 nu).rshape = [nu.length] := by simp [axis0, NDArray.padFront]
  have st : (axis1 t).rshape = [1, t.length] := by simp [axis1, NDArray.padFront]
  have hbd : bshape [nu.length] [1, t.length] = some [nu.length, t.length] := by
    simp only [bshape_cons, bshape_nil_left]
    unfold bdim
    split_ifs <;> simp_all
  -- the film
  rcases sampleOf_cases env.defaults [NDArray.scalar (FP.num (m.epsAir : ℂ)), EP, NDArray.scalar (FP.num (m.epsSi : ℂ))] [axis1 t]
    (some (axis0 nu)) rfl with ⟨-, hnone⟩ | ⟨o, S, ho, hS, sS, sT, iS⟩
  · simp [shapes, joinAll, sEP, sn, st, NDArray.scalar, hbd] at hnone
  have sS' : S.epsShape = [nu.length] := by
    simpa [shapes, joinAll, sEP, sn, NDArray.scalar] using sS
  have sT' : S.tShape = [1, t.length] := by
    simpa [shapes, joinAll, st] using sT
  have dP := scattered_den env x S (axis0 nu)
  have jP : joinAll [some (axis0 nu).rshape, some S.epsShape, some S.tShape] = some [nu.length, t.length] := by
    simp only [joinAll, sn, sS', sT', Shape.join_unit]
    rw [← Shape.join_assoc, Shape.join_self, Shape.some_join_some, hbd]
  rw [jP] at dP
  -- gold
  have hb := C91_eps env.defaults EA (some (NDArray.scalar (FP.num (m.epsAir : ℂ)))) (some (axis0 nu))
  have hsh : bshape (Option.getD (some (NDArray.scalar (FP.num (m.epsAir : ℂ)))) (NDArray.scalar (FP.num env.defaults.epsEnv))).rshape
      EA.rshape = some [nu.length] := by simp [NDArray.scalar, sEA, sn]
  rw [hsh] at hb
  obtain ⟨o', B, C, ho', o1, o2, o3, hB, hC, hCi, hBi⟩ := hb
  simp only at hBi
  let T : ArrSample := ⟨[B, C], [], [nu.length], [], by simp [hB, hC], by simp, fun _ => rfl, rfl⟩
  have hT : o'.stack = T.stack (some (.ok (axis0 nu))) := by
    unfold SampleObj.stack ArrSample.stack
    rw [o1, o2, o3]
    rfl
  have dA := scattered_den env x T (axis0 nu)
  have jA : joinAll [some (axis0 nu).rshape, some T.epsShape, some T.tShape] = some [nu.length] := by
    simp only [joinAll, sn, T, Shape.join_unit]
    exact Shape.join_self _
  rw [jA] at dA
  -- the numbers
  have film : ∀ (k : ℕ) (hk : k < t.length) (h : ℕ) (hh : h < nu.length), ∃ εP α r : ℂ,
      (lorentzPerm (FP.num nu[h]) (FP.num m.nuJ) (FP.num m.gammaJ) (some (FP.num m.aJ)) none (FP.num 1) (FP.num (m.epsInf : ℂ)) :
        PyM (FP ℂ)) = .ok (FP.num εP) ∧
      Fdm.effPolN env (layered m.epsAir [(εP, t[k])] m.epsSi) (FP.num x.aTip) (FP.num x.n) none none
        { rTip := some (FP.num x.rTip), lTip := some (FP.num x.lTip) } none (some "Q_ave") = .ok (FP.num α) ∧
      (layered m.epsAir [(εP, t[k])] m.epsSi).reflCoef (atAngle x.thetaIn nu[h] "p") = .ok (FP.num r) ∧
      1 + x.cR * r ≠ 0 ∧
      scattered env x (S.at_ (at2 k h) (some ((axis0 nu).get (at2 k h)))) = .ok (FP.num ((1 + x.cR * r) ^ 2 * α)) := by
    intro k hk h hh
    obtain ⟨εP, h1, h2⟩ := C54_lorentz nu[h] m.nuJ m.gammaJ 1 m.aJ m.epsInf (hnu0 _ (List.getElem_mem hh)) hgJ hA
    obtain ⟨α, r, a1, a2, -, a3, a4⟩ := scattered_num env x m.epsAir hx [(εP, t[k])] m.epsSi nu[h] (hnu0 _ (List.getElem_mem hh))
      (by simpa using ⟨h2, ht0 _ (List.getElem_mem hk)⟩) (.inr ⟨by simp, by simpa using hSi⟩)
    have hE : EP.get (at2 k h) = FP.num εP := by
      have := iEP (at2 k h)
      rw [axis0_get nu k h hh] at this
      exact (Except.ok.inj (this.symm.trans h1))
    refine ⟨εP, α, r, h1, a1, a2, a3, ?_⟩
    rw [← a4]
    have := iS (at2 k h)
    rw [Option.map_some] at this
    rw [this]
    simp only [scalarAt, layered, List.map_cons, List.map_nil, hE, axis1_get t k h hk, Option.map_some, axis0_get nu k h hh]
    rfl
  have gold : ∀ (k h : ℕ) (hh : h < nu.length), ∃ εA α r : ℂ,
      (drudePerm (FP.num nu[h]) (FP.num m.nuPlasma) (FP.num m.gamma) (FP.num 1) : PyM (FP ℂ)) = .ok (FP.num εA) ∧
      Fdm.effPolN env (bulk m.epsAir εA) (FP.num x.aTip) (FP.num x.n) none none
        { rTip := some (FP.num x.rTip), lTip := some (FP.num x.lTip) } none (some "Q_ave") = .ok (FP.num α) ∧
      (bulk m.epsAir εA).reflCoef (atAngle x.thetaIn nu[h] "p") = .ok (FP.num r) ∧
      1 + x.cR * r ≠ 0 ∧
      scattered env x (T.at_ (at2 k h) (some ((axis0 nu).get (at2 k h)))) = .ok (FP.num ((1 + x.cR * r) ^ 2 * α)) := by
    intro k h hh
    obtain ⟨εA, h1, h2⟩ := C54_drude nu[h] m.nuPlasma m.gamma 1 (hnu0 _ (List.getElem_mem hh)) hg hP
    obtain ⟨α, r, a1, a2, -, a3, a4⟩ := scattered_num env x m.epsAir hx [] εA nu[h] (hnu0 _ (List.getElem_mem hh))
      (by simp) (.inl h2)
    rw [Complex.ofReal_one] at h1
    have hE : EA.get (at2 k h) = FP.num εA := by
      have := iEA (at2 k h)
      rw [axis0_get nu k h hh] at this
      exact (Except.ok.inj (this.symm.trans h1))
    refine ⟨εA, α, r, h1, a1, a2, a3, ?_⟩
    rw [← a4, axis0_get nu k h hh]
    have : T.at_ (at2 k h) (some (FP.num nu[h])) = layered m.epsAir [] εA (some nu[h]) := by
      have e1 : (NDArray.scalar (FP.num (m.epsAir : ℂ))).get (at2 k h) = FP.num (m.epsAir : ℂ) := rfl
      simp [T, ArrSample.at_, layered, hBi, hCi, hE, e1]
    rw [this]
  obtain ⟨ε₀, α₀, r₀, -, -, -, -, f₀⟩ := film 0 (Nat.pos_of_ne_zero ht00) 0 (Nat.pos_of_ne_zero hn0)
  obtain ⟨SP, hSP, sSP, iSP⟩ := den_value dP _ _ f₀
  obtain ⟨ε₁, α₁, r₁, -, -, -, -, f₁⟩ := gold 0 0 (Nat.pos_of_ne_zero hn0)
  obtain ⟨SA, hSA, sSA, iSA⟩ := den_value dA _ _ f₁
  have dq := (Den.leaf SP).cdiv (Den.leaf SA)
  have hq : (some SP.rshape ⊔ᵇ some SA.rshape) = some [nu.length, t.length] := by
    simp only [sSP, sSA, Shape.some_join_some, bshape_cons, bshape_nil_right]
    simp [bdim]
  rw [hq] at dq
  obtain ⟨E, hE, sE, iE⟩ := dq
  refine ⟨E, ?_, sE, fun k hk h hh => ?_⟩
  · unfold spectra
    have hS' : o.stack = S.stack (some (.ok (axis0 nu))) := hS
    dsimp only
    unfold sampleOf at ho
    rw [hEP, PyM.ok_bind, PyM.ok_bind, ho, PyM.ok_bind, hEA, PyM.ok_bind, PyM.ok_bind, ho', PyM.ok_bind, hS', hSP, PyM.ok_bind, hT, hSA,
      PyM.ok_bind]
    exact hE
  · obtain ⟨εP, α, r, b1, b2, b3, b4, b5⟩ := film k hk h hh
    obtain ⟨εA, α', r', c1, c2, c3, c4, c5⟩ := gold k h hh
    refine ⟨εP, εA, α, r, α', r', b1, c1, b2, b3, c2, c3, b4, c4, ?_⟩
    refine (iE _).trans ?_
    dsimp only
    rw [Except.ok.inj ((iSP _).symm.trans b5), Except.ok.inj ((iSA _).symm.trans c5)]

private theorem gDefault_pos : 0 < gDefault.im := by
  have := gDefault_im 0
  rw [Complex.sub_im, Complex.ofReal_im, sub_zero] at this
  rw [this]
  exact mul_pos (by norm_num) (Real.sin_pos_of_pos_of_lt_pi (by norm_num) (by linarith [Real.pi_gt_three]))

/-- The script meets the conditions. -/
theorem script_ok (lag : ℕ → List (ℝ × ℝ)) (hlag : Env.RuleOk ⟨Defaults.initial, lag⟩ none) :
    ExperimentOk ⟨Defaults.initial, lag⟩ ⟨20e-9, 30e-9, 350e-9, 3, 60 * (Real.pi / 180), 0.3⟩ 1 where
  angle := by
    rw [show 60 * (Real.pi / 180) = Real.pi / 3 by ring, Real.sin_pi_div_three, div_pow, Real.sq_sqrt (by norm_num)]
    norm_num
  weight := by norm_num
  amp := by norm_num
  radius := by norm_num
  height := by norm_num [Defaults.initial]
  charge1 := by norm_num [Defaults.initial]
  chargeA := by norm_num [Defaults.initial]
  near := by norm_num [Defaults.initial]
  gain := gDefault_pos
  trapz := by norm_num [Defaults.initial]
  rule := hlag

example := C109_spectra ⟨Defaults.initial, Laguerre.rule⟩ _ ⟨1, 2, 3, 4, 5, 6, 7, 8⟩ (script_ok Laguerre.rule
  ⟨by norm_num [Defaults.initial], Laguerre.gaussLaguerre_rule (by norm_num [Defaults.initial])⟩) (by norm_num) (by norm_num) (by norm_num)
  (by norm_num) (by norm_num) [1, 2] [3] (by simp) (by simp) (by simp) (by simp)

/-- The script, with Gauss-Laguerre rules as they should be, gives 32 spectra of 128 wavenumbers from 1680 to 1800 per cm, for
thicknesses growing geometrically from 1 to 35 nm. -/
theorem C109_script (lag : ℕ → List (ℝ × ℝ)) (hlag : Env.RuleOk ⟨Defaults.initial, lag⟩ none) :
    ∃ E, tSpectra ⟨Defaults.initial, lag⟩ = .ok E ∧ E.rshape = [128, 32] ∧ ∀ k : ℕ, k < 32 → ∀ h : ℕ, h < 128 → ∀ nu t : ℝ,
      nu = (1680 + h * (120 / 127)) * 1e2 → t = 35 ^ ((k : ℝ) / 31) * 1e-9 → ∃ εP εA α r α' r' : ℂ,
        εP = 2 + 4.2e8 / ((1738e2 : ℂ) ^ 2 - nu ^ 2 - Complex.I * 20e2 * nu) ∧
        εA = 1 - (7.25e6 : ℂ) ^ 2 / ((nu : ℂ) ^ 2 + Complex.I * 2.16e4 * nu) ∧
        Fdm.effPolN ⟨Defaults.initial, lag⟩ (layered (1 : ℝ) [(εP, t)] (11.7 : ℝ)) (FP.num 20e-9) (FP.num 3) none none
          { rTip := some (FP.num 30e-9), lTip := some (FP.num 350e-9) } none (some "Q_ave") = .ok (FP.num α) ∧
        (layered (1 : ℝ) [(εP, t)] (11.7 : ℝ)).reflCoef (atAngle (Real.pi / 3) nu "p") = .ok (FP.num r) ∧
        Fdm.effPolN ⟨Defaults.initial, lag⟩ (bulk (1 : ℝ) εA) (FP.num 20e-9) (FP.num 3) none none
          { rTip := some (FP.num 30e-9), lTip := some (FP.num 350e-9) } none (some "Q_ave") = .ok (FP.num α') ∧
        (bulk (1 : ℝ) εA).reflCoef (atAngle (Real.pi / 3) nu "p") = .ok (FP.num r') ∧
        1 + (0.3 : ℝ) * r ≠ 0 ∧ 1 + (0.3 : ℝ) * r' ≠ 0 ∧
        E.get (at2 k h) = FP.num ((1 + (0.3 : ℝ) * r) ^ 2 * α) / FP.num ((1 + (0.3 : ℝ) * r') ^ 2 * α') := by
  obtain ⟨N, hN⟩ : ∃ N, N = (linspace 1680 1800 128).map (· * 1e2) := ⟨_, rfl⟩
  obtain ⟨T, hT⟩ : ∃ T, T = (geomspace 1 35 32).map (· * 1e-9) := ⟨_, rfl⟩
  have lN : N.length = 128 := by rw [hN]; simp [linspace]
  have lT : T.length = 32 := by rw [hT]; simp [geomspace]
  have gN : ∀ k (hk : k < N.length), N[k] = (1680 + k * (120 / 127)) * 1e2 := fun k hk => by
    simp only [hN, linspace, List.getElem_map, List.getElem_range]
    norm_num
  have gT : ∀ k (hk : k < T.length), T[k] = 35 ^ ((k : ℝ) / 31) * 1e-9 := fun k hk => by
    simp only [hT, geomspace, List.getElem_map, List.getElem_range]
    norm_num
  obtain ⟨E, h1, h2, h3⟩ := C109_spectra ⟨Defaults.initial, lag⟩ _ ⟨1, 11.7, 1738e2, 20e2, 4.2e8, 2, 7.25e6, 2.16e4⟩
    (script_ok lag hlag) (by norm_num) (by norm_num) (by norm_num) (by norm_num) (by norm_num) N T
    (List.ne_nil_of_length_pos (by omega)) (List.ne_nil_of_length_pos (by omega))
    (fun v hv => by
      obtain ⟨k, hk, rfl⟩ := List.getElem_of_mem hv
      rw [gN]
      positivity)
    (fun v hv => by
      obtain ⟨k, hk, rfl⟩ := List.getElem_of_mem hv
      rw [gT]
      positivity)
  rw [lN, lT] at h2
  refine ⟨E, ?_, h2, fun k hk h hh nu t hnu ht => ?_⟩
  · unfold tSpectra
    rw [← h1, ← hN, ← hT]
  · obtain ⟨εP, εA, α, r, α', r', b1, b2, b3, b4, b5, b6, b7, b8, b9⟩ := h3 k (by omega) h (by omega)
    rw [gN, ← hnu] at b1 b2 b4 b6
    rw [gT, ← ht] at b3 b4
    have n0 : 0 < nu := by rw [hnu]; positivity
    have e1 : ∀ γ J : ℝ, 0 < γ → (J : ℂ) ^ 2 - nu ^ 2 - Complex.I * γ * nu ≠ 0 := fun γ J hγ h => by
      have := congrArg Complex.im h
      simp [← Complex.ofReal_pow] at this
      rcases this with h | h <;> linarith
    rw [C55_lorentz _ _ _ _ _ _ (e1 _ _ (by norm_num))] at b1
    have e2 : ∀ γ : ℝ, 0 < γ → (nu : ℂ) ^ 2 + Complex.I * γ * nu ≠ 0 := fun γ hγ h => by
      have := congrArg Complex.im h
      simp [← Complex.ofReal_pow] at this
      rcases this with h | h <;> linarith
    dsimp only at b1 b2 b3 b4 b5 b6 b7 b8 b9
    rw [C55_drude _ _ _ _ (e2 _ (by norm_num))] at b2
    have hth : (60 * (Real.pi / 180) : ℝ) = Real.pi / 3 := by ring
    rw [hth] at b4 b6
    refine ⟨εP, εA, α, r, α', r', ?_, ?_, b3, b4, b5, b6, b7, b8, b9⟩
    · rw [← FP.num.inj (Except.ok.inj b1)]
      push_cast
      norm_num
    · rw [← FP.num.inj (Except.ok.inj b2)]
      push_cast
      norm_num

example := C109_script Laguerre.rule
  ⟨by norm_num [Defaults.initial], Laguerre.gaussLaguerre_rule (by norm_num [Defaults.initial])⟩

end Snompy.Props
