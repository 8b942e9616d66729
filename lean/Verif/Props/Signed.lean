import Verif.Lemmas.SignedFar
import Verif.Props.FarField
import Verif.Model.OfBeta
import Verif.Props.SampleObj

/-!
# C124: signed zeros

What the sign bit of a zero changes (`Verif/Signed.lean`).  A negative permittivity without losses has an imaginary part `+0` or `-0`.
If it is `-0` in the environment or in the substrate, `np.sqrt` returns the opposite wavevector, and light is reflected with the
reciprocal coefficient.
-/

namespace Snompy.Props

open Snompy

/-! ## Light -/

/-- The transfer matrix is the textbook one, with the opposite wavevector in the media whose permittivity is negative with imaginary
part `-0`. -/
theorem C124_media (env : SgEps) (L : List (SgEps × ℝ × Bool)) (sub : SgEps) (snu : Option SgR) (a : Stack.FarArgs SgR) (nu q : ℝ)
    (ha : a.Aims nu q) (hpol : a.polarization = "p" ∨ a.polarization = "s") (hn : nu ≠ 0)
    (he : env.eps ≠ 0 ∧ env.eps * (nu : ℂ) ^ 2 ≠ (q : ℂ) ^ 2) (hL : ∀ l ∈ L, l.1.eps ≠ 0 ∧ l.1.eps * (nu : ℂ) ^ 2 ≠ (q : ℂ) ^ 2)
    (hs : sub.eps ≠ 0) :
    ((signedLayers env L sub snu).transferMatrix a).map Mat2.unsigned =
      .ok (toFP (Medium.stackMatrix a.polarization (env.medium nu q) (L.map fun l => (l.1.medium nu q, l.2.1)) (sub.medium nu q))) := by
  have hk : ∀ x : SgEps, x.eps * (nu : ℂ) ^ 2 ≠ (q : ℂ) ^ 2 → (x.medium nu q).k ≠ 0 := fun x hx => by
    have : kz nu q x.eps ≠ 0 := by
      rw [Ne, kz_eq_zero, sub_eq_zero]
      exact hx
    unfold SgEps.medium
    dsimp only
    split_ifs
    · exact neg_ne_zero.mpr this
    · exact this
  exact transferMatrix_sg env L sub snu a nu q ha hpol hn he.1 (fun l h => (hL l h).1) hs (hk env he.2) fun l h => hk l.1 (hL l h).2

/-- Signs of zeros do not matter in the layers, nor in positive or lossy permittivities. -/
theorem C124_same (env : SgEps) (L : List (SgEps × ℝ × Bool)) (sub : SgEps) (snu : Option SgR) (a : Stack.FarArgs SgR) (nu q : ℝ)
    (ha : a.Aims nu q) (hpol : a.polarization = "p" ∨ a.polarization = "s") (hn : nu ≠ 0)
    (he : env.eps ≠ 0 ∧ env.eps * (nu : ℂ) ^ 2 ≠ (q : ℂ) ^ 2) (hL : ∀ l ∈ L, l.1.eps ≠ 0 ∧ l.1.eps * (nu : ℂ) ^ 2 ≠ (q : ℂ) ^ 2)
    (hs : sub.eps ≠ 0) (h0 : ¬ env.Below) (h1 : ¬ sub.Below) :
    unsigned ((signedLayers env L sub snu).reflCoef a) =
        (layered env.eps (L.map fun l => (l.1.eps, l.2.1)) sub.eps none).reflCoef (atQ q nu a.polarization) ∧
      unsigned ((signedLayers env L sub snu).transCoef a) =
        (layered env.eps (L.map fun l => (l.1.eps, l.2.1)) sub.eps none).transCoef (atQ q nu a.polarization) := by
  have h := C124_media env L sub snu a nu q ha hpol hn he hL hs
  obtain ⟨M, hM, hM'⟩ := C21_branch env.eps (L.map fun l => (l.1.medium nu q, l.2.1)) sub.eps none nu q a.polarization hpol he.2
    (fun l hl => by
      obtain ⟨l', h', rfl⟩ := List.mem_map.mp hl
      refine ⟨(hL l' h').1, (hL l' h').2, ?_⟩
      have := kz_sq nu q l'.1.eps
      unfold SgEps.medium
      dsimp only
      split_ifs
      · rw [neg_sq]
        exact this
      · exact this) hs
  rw [List.map_map] at hM
  have e0 : env.medium nu q = ⟨env.eps, Complex.sqrt (env.eps * (nu : ℂ) ^ 2 - (q : ℂ) ^ 2)⟩ := by
    unfold SgEps.medium
    rw [if_neg h0]
  have e1 : sub.medium nu q = ⟨sub.eps, Complex.sqrt (sub.eps * (nu : ℂ) ^ 2 - (q : ℂ) ^ 2)⟩ := by
    unfold SgEps.medium
    rw [if_neg h1]
  rw [e0, e1, ← hM'] at h
  have hv : View Mat2.unsigned ((signedLayers env L sub snu).transferMatrix a)
      ((layered env.eps (L.map fun l => (l.1.eps, l.2.1)) sub.eps none).transferMatrix (atQ q nu a.polarization)) :=
    h.trans hM.symm
  exact ⟨hv.bind fun _ _ => View.ok rfl, hv.bind fun _ _ => View.ok rfl⟩

/-- A silver-like layer with imaginary part `-0` on a positive substrate. -/
example : let L : List (SgEps × ℝ × Bool) := [(⟨-2, true, true⟩, 3, false)]
    unsigned ((signedLayers ⟨1, false, false⟩ L ⟨4, false, true⟩ none).reflCoef
        { q := some ⟨.num 0, true⟩, nuVac := some ⟨.num 1, false⟩, polarization := "s" }) =
      (layered 1 [(-2, 3)] 4 none).reflCoef (atQ 0 1 "s") := by
  have h := (C124_same ⟨1, false, false⟩ [(⟨-2, true, true⟩, 3, false)] ⟨4, false, true⟩ none
    { q := some ⟨.num 0, true⟩, nuVac := some ⟨.num 1, false⟩, polarization := "s" } 1 0
    ⟨⟨_, rfl, rfl⟩, .inl ⟨_, rfl, rfl, rfl⟩⟩ (.inr rfl) one_ne_zero (by norm_num) (by
      intro l hl
      obtain rfl := List.mem_singleton.mp hl
      norm_num) (by norm_num) (fun h => by simpa using h.2.2) (fun h => by have := h.1; norm_num at this)).1
  exact h

/-- The coefficient of an interface in terms of the wavevectors. -/
theorem signed_bulk (env sub : SgEps) (snu : Option SgR) (a : Stack.FarArgs SgR) (nu q : ℝ)
    (ha : a.Aims nu q) (hpol : a.polarization = "p" ∨ a.polarization = "s") (hn : nu ≠ 0)
    (he : env.eps ≠ 0 ∧ env.eps * (nu : ℂ) ^ 2 ≠ (q : ℂ) ^ 2) (hs : sub.eps ≠ 0) :
    unsigned ((signedLayers env [] sub snu).reflCoef a) =
      .ok (FP.num ((1 - (env.medium nu q).ratio a.polarization (sub.medium nu q)) / 2) /
        FP.num ((1 + (env.medium nu q).ratio a.polarization (sub.medium nu q)) / 2)) := by
  have h : View Mat2.unsigned _ _ := C124_media env [] sub snu a nu q ha hpol hn he (fun l hl => by cases hl) hs
  exact View.bind h (v := Mat2.unsigned) (y := .ok _) (g := fun M => .ok (M.m10 / M.m00)) fun M _ => View.ok rfl

theorem half_div (x : ℂ) : FP.num ((1 - x) / 2) / FP.num ((1 + x) / 2) = FP.num (1 - x) / FP.num (1 + x) := by
  by_cases h : 1 + x = 0
  · simp [h]
  · rw [FP.num_div _ h, FP.num_div _ (div_ne_zero h two_ne_zero), div_div_div_cancel_right₀ two_ne_zero]

/-- If the sign of a zero turns the wavevector on one side of an interface, the reflected amplitude is the reciprocal of the right
one. -/
theorem C124_metal (env sub : SgEps) (snu : Option SgR) (a : Stack.FarArgs SgR) (nu q : ℝ)
    (ha : a.Aims nu q) (hpol : a.polarization = "p" ∨ a.polarization = "s") (hn : nu ≠ 0)
    (he : env.eps ≠ 0 ∧ env.eps * (nu : ℂ) ^ 2 ≠ (q : ℂ) ^ 2) (hs : sub.eps ≠ 0) (hb : env.Below ↔ ¬ sub.Below) (r : ℂ) (hr0 : r ≠ 0)
    (hr : (layered env.eps [] sub.eps none).reflCoef (atQ q nu a.polarization) = .ok (FP.num r)) :
    unsigned ((signedLayers env [] sub snu).reflCoef a) = .ok (FP.num r⁻¹) := by
  rw [signed_bulk env sub snu a nu q ha hpol hn he hs, half_div]
  have h2 := (C124_same ⟨env.eps, false, false⟩ [] ⟨sub.eps, false, false⟩ snu a nu q ha hpol hn he (fun l hl => by cases hl) hs
    (fun h => by simpa using h.2.2) (fun h => by simpa using h.2.2)).1
  rw [List.map_nil, hr, signed_bulk ⟨env.eps, false, false⟩ ⟨sub.eps, false, false⟩ snu a nu q ha hpol hn he hs, half_div] at h2
  have hm : ∀ x : SgEps, (⟨x.eps, false, false⟩ : SgEps).medium nu q = ⟨x.eps, Complex.sqrt (x.eps * (nu : ℂ) ^ 2 - (q : ℂ) ^ 2)⟩ := by
    intro x
    unfold SgEps.medium
    rw [if_neg fun h => by simpa using h.2.2]
  rw [hm, hm] at h2
  have hx : (env.medium nu q).ratio a.polarization (sub.medium nu q) =
      -Medium.ratio a.polarization ⟨env.eps, Complex.sqrt (env.eps * (nu : ℂ) ^ 2 - (q : ℂ) ^ 2)⟩
        ⟨sub.eps, Complex.sqrt (sub.eps * (nu : ℂ) ^ 2 - (q : ℂ) ^ 2)⟩ := by
    unfold SgEps.medium Medium.ratio
    by_cases h : sub.Below
    · have h' : ¬ env.Below := fun h' => hb.mp h' h
      rw [if_pos h, if_neg h']
      dsimp only
      split_ifs
      · rw [div_neg (sub.eps), div_neg]
      · rw [neg_div]
    · have h' : env.Below := hb.mpr h
      rw [if_neg h, if_pos h']
      dsimp only
      split_ifs
      · rw [div_neg (env.eps), neg_div]
      · rw [div_neg]
  rw [hx]
  generalize Medium.ratio a.polarization ⟨env.eps, _⟩ ⟨sub.eps, _⟩ = x at h2
  by_cases h : 1 + x = 0
  · simp [h] at h2
  · rw [FP.num_div _ h] at h2
    have h3 := FP.num.inj (Except.ok.inj h2)
    have h4 : 1 - x ≠ 0 := fun h => hr0 (by rw [← h3, h, zero_div])
    rw [sub_neg_eq_add, ← sub_eq_add_neg, FP.num_div _ h4, ← h3, inv_div]

/-- Python's `-(2 + 0j)` is such a permittivity, and `-2` or `-2 + 0j` is not. -/
example : -(SgEps.num ⟨2, false, false⟩) = SgEps.num ⟨-2, true, true⟩ ∧ SgEps.Below ⟨-2, true, true⟩ ∧ ¬ SgEps.Below ⟨-2, false, false⟩ := by
  refine ⟨?_, ⟨by norm_num, by norm_num, rfl⟩, fun h => by simpa using h.2.2⟩
  show SgC.mk (FP.num (-2)) (!SgR.bit ⟨FP.num (2 : ℂ).re, false⟩) (!SgR.bit ⟨FP.num (2 : ℂ).im, false⟩) = _
  simp [SgR.bit, SgEps.num]

/-- Light that falls from a transparent medium on a metal without losses: the right amplitude has absolute value 1 and is not real; the
sign of the zero conjugates it. -/
theorem C124_lossless (e m : ℝ) (he : 0 < e) (hm : m < 0) (b c d : Bool) (snu : Option SgR) (a : Stack.FarArgs SgR) (nu q : ℝ)
    (ha : a.Aims nu q) (hpol : a.polarization = "p" ∨ a.polarization = "s") (hq : q ^ 2 < e * nu ^ 2) :
    ∃ r : ℂ, (layered e [] m none).reflCoef (atQ q nu a.polarization) = .ok (FP.num r) ∧ ‖r‖ = 1 ∧ r.im ≠ 0 ∧
      unsigned ((signedLayers ⟨e, b, false⟩ [] ⟨m, c, d⟩ snu).reflCoef a) = .ok (FP.num (if d then star r else r)) := by
  have hn : nu ≠ 0 := by
    rintro rfl
    nlinarith [sq_nonneg q]
  have he' : ((e : ℂ)) ≠ 0 ∧ (e : ℂ) * (nu : ℂ) ^ 2 ≠ (q : ℂ) ^ 2 := by
    refine ⟨by exact_mod_cast he.ne', fun h => ?_⟩
    have : e * nu ^ 2 = q ^ 2 := by exact_mod_cast h
    linarith
  have hm' : (m : ℂ) ≠ 0 := by exact_mod_cast hm.ne
  set k0 := kz nu q e with hk0
  set k1 := kz nu q m with hk1
  have r0 : star k0 = k0 := by
    rw [hk0, kz_real (by linarith)]
    exact Complex.conj_ofReal _
  have n0 : k0 ≠ 0 := by
    rw [hk0, Ne, kz_eq_zero, sub_eq_zero]
    exact he'.2
  have hneg : m * nu ^ 2 - q ^ 2 < 0 := by
    have : 0 < nu ^ 2 := by positivity
    nlinarith [sq_nonneg q]
  have hsq : k1 ^ 2 = ((m * nu ^ 2 - q ^ 2 : ℝ) : ℂ) := by
    rw [hk1, kz_sq]
    push_cast
    rfl
  have hre : k1.re = 0 := by
    have h1 := congrArg Complex.re hsq
    have h2 := congrArg Complex.im hsq
    simp only [sq, Complex.mul_re, Complex.mul_im, Complex.ofReal_re, Complex.ofReal_im] at h1 h2
    rcases mul_eq_zero.mp (show k1.re * k1.im = 0 by linarith) with h | h
    · exact h
    · rw [h] at h1
      nlinarith [sq_nonneg k1.re, sq_nonneg q, sq_nonneg nu]
  have r1 : star k1 = -k1 := by
    apply Complex.ext
    · simp [hre]
    · simp
  have n1 : k1 ≠ 0 := by
    intro h
    rw [h, zero_pow two_ne_zero] at hsq
    have : (0 : ℝ) = m * nu ^ 2 - q ^ 2 := Complex.ofReal_injective (by rw [Complex.ofReal_zero]; exact hsq)
    linarith
  set x := Medium.ratio a.polarization ⟨e, k0⟩ ⟨m, k1⟩ with hx
  have xs : star x = -x := by
    rw [hx]
    unfold Medium.ratio
    split_ifs
    · simp only [star_div₀, r0, r1, Complex.star_def, Complex.conj_ofReal]
      rw [div_neg (m : ℂ), div_neg]
    · simp only [star_div₀, r0, r1]
      rw [neg_div]
  have x0 : x ≠ 0 := by
    rw [hx]
    unfold Medium.ratio
    split_ifs
    · exact div_ne_zero (div_ne_zero he'.1 n0) (div_ne_zero hm' n1)
    · exact div_ne_zero n1 n0
  have xre : x.re = 0 := by
    have := congrArg Complex.re xs
    simp only [Complex.star_def, Complex.conj_re, Complex.neg_re] at this
    linarith
  have xim : x.im ≠ 0 := fun h => x0 (Complex.ext xre h)
  have d1 : 1 + x ≠ 0 := fun h => by
    have := congrArg Complex.re h
    simp [xre] at this
  have hnum : ∀ (b c d : Bool), unsigned ((signedLayers ⟨e, b, false⟩ [] ⟨m, c, d⟩ snu).reflCoef a) =
      .ok (FP.num (if d then star ((1 - x) / (1 + x)) else (1 - x) / (1 + x))) := by
    intro b c d
    rw [signed_bulk ⟨e, b, false⟩ ⟨m, c, d⟩ snu a nu q ha hpol hn he' hm', half_div]
    have e0 : SgEps.medium ⟨e, b, false⟩ nu q = ⟨e, k0⟩ := by
      unfold SgEps.medium
      rw [if_neg fun h => by simpa using h.2.2]
      rfl
    cases d with
    | false =>
      have e1 : SgEps.medium ⟨m, c, false⟩ nu q = ⟨m, k1⟩ := by
        unfold SgEps.medium
        rw [if_neg fun h => by simpa using h.2.2]
        rfl
      rw [e0, e1, ← hx, FP.num_div _ d1]
      rfl
    | true =>
      have e1 : SgEps.medium ⟨m, c, true⟩ nu q = ⟨m, -k1⟩ := by
        unfold SgEps.medium
        rw [if_pos ⟨by simpa using hm, by simp, rfl⟩]
        rfl
      have e2 : Medium.ratio a.polarization ⟨e, k0⟩ ⟨m, -k1⟩ = star x := by
        rw [xs, hx]
        unfold Medium.ratio
        split_ifs
        · dsimp only
          rw [div_neg (m : ℂ), div_neg]
        · dsimp only
          rw [neg_div]
      have d2 : 1 + star x ≠ 0 := fun h => d1 (by
        have := congrArg star h
        simpa using this)
      rw [e0, e1, e2, FP.num_div _ d2]
      simp
  refine ⟨(1 - x) / (1 + x), ?_, ?_, ?_, hnum b c d⟩
  · have h := (C124_same ⟨e, false, false⟩ [] ⟨m, false, false⟩ snu a nu q ha hpol hn he' (fun l hl => by cases hl) hm'
      (fun h => by simpa using h.2.2) (fun h => by simpa using h.2.2)).1
    rw [hnum] at h
    exact h.symm
  · have : (1 - x) = star (1 + x) := by
      rw [star_add, xs, star_one, sub_eq_add_neg]
    rw [norm_div, this, norm_star, div_self (norm_ne_zero_iff.mpr d1)]
  · intro h
    have h1 : (1 - x) / (1 + x) = star ((1 - x) / (1 + x)) := by
      apply Complex.ext
      · exact (Complex.conj_re _).symm
      · simp only [Complex.star_def, Complex.conj_im, h, neg_zero]
    rw [star_div₀, star_sub, star_add, xs, star_one, sub_neg_eq_add, ← sub_eq_add_neg] at h1
    have d2 : 1 - x ≠ 0 := fun h => by
      have := congrArg Complex.re h
      simp [xre] at this
    rw [div_eq_div_iff d1 d2] at h1
    refine x0 ?_
    linear_combination (-1 / 4 : ℂ) * h1

example : ∃ r : ℂ, (layered (1 : ℝ) [] (-2 : ℝ) none).reflCoef (atQ 0 1 "s") = .ok (FP.num r) ∧ r.im ≠ 0 ∧
    unsigned ((signedLayers ⟨(1 : ℝ), false, false⟩ [] ⟨(-2 : ℝ), true, true⟩ none).reflCoef
      { thetaIn := some ⟨.num 0, false⟩, nuVac := some ⟨.num 1, false⟩, polarization := "s" }) = .ok (FP.num (star r)) := by
  obtain ⟨r, h1, -, h2, h3⟩ := C124_lossless 1 (-2) one_pos (by norm_num) false true true none
    { thetaIn := some ⟨.num 0, false⟩, nuVac := some ⟨.num 1, false⟩, polarization := "s" } 1 0
    ⟨⟨_, rfl, rfl⟩, .inr ⟨_, 0, rfl, rfl, rfl, by simp⟩⟩ (.inr rfl) (by norm_num)
  exact ⟨r, h1, h2, h3⟩

/-! ## Samples built from reflection coefficients, and oscillator models -/

theorem cumprodFrom_running {acc : NDArray (FP ℂ)} (l : List (NDArray (FP ℂ))) (h : ∀ A ∈ l, A.rshape = acc.rshape) (i : ℕ → ℕ) :
    (cumprodFrom acc l).map (·.get i) = runningProducts (acc.get i) (l.map (·.get i)) := by
  induction l generalizing acc with
  | nil => rfl
  | cons r l ih =>
    have h1 := SampleObj.NDArray.mulEq_get (h r List.mem_cons_self).symm i
    simp only [cumprodFrom, List.map_cons, runningProducts]
    rw [ih (acc := acc.mulEq r) (fun A hA => h A (List.mem_cons_of_mem _ hA)), h1]

/-- `Stack.ofBeta` is what `Sample(beta_stack=...)` stores, for single numbers. -/
theorem C124_ofBeta (d : Defaults) (betas : List (FP ℂ)) (e : FP ℂ) (t : List (FP ℝ)) (nu : Option (NDArray (FP ℝ))) (o : SampleObj)
    (h : SampleObj.init d { beta := some (.items (betas.map NDArray.scalar)), t := some (.items (t.map NDArray.scalar)),
                            epsEnv := some (NDArray.scalar e), nuVac := nu } = .ok o) (i : ℕ → ℕ) :
    (o.eps.getD []).map (·.get i) = (Stack.ofBeta betas e t none).eps := by
  obtain ⟨o0, o1, h0, h1, o2, h2, h3⟩ := SampleObj.init_ok h
  rcases h3 with ⟨v, h3, -, -⟩ | ⟨v, -, h3, h4⟩
  · cases h3
  · obtain rfl := Option.some.inj h3
    obtain ⟨lb, g1, g2, g3, g4⟩ := unpack_scalars betas
    have hE : o1.epsEnv = .ok (NDArray.scalar e) := by
      rcases SampleObj.setT_cases o0 (some (.items (t.map NDArray.scalar))) with ⟨_, he⟩ | ⟨l, s', hs', he⟩
      · rw [he] at h1
        cases h1
      · rw [he] at h1
        obtain ⟨rfl, _⟩ := Prod.ext_iff.1 h1
        rw [h0]
        rfl
    rcases SampleObj.setBeta_eq g1 g3 hE with ⟨-, h5⟩ | ⟨-, eps, h5, -, -, h6⟩
    · rw [h5] at h4
      cases h4
    · rw [h5] at h4
      obtain ⟨h7, -⟩ := Prod.ext_iff.1 h4
      dsimp only at h7
      rw [h2, ← h7]
      show eps.map (·.get i) = _
      rw [h6]
      have hc : ∀ x k, x * (NDArray.scalar e).get (Function.update i ([] : List ℕ).length k) = x * e := fun _ _ => rfl
      simp only [hc]
      rw [SampleObj.mapIdx_const]
      unfold Stack.ofBeta
      dsimp only
      refine congrArg _ ?_
      show (NDArray.get (⟨_, fun _ => clit 1⟩ : NDArray (FP ℂ)) i :: _) = _
      congr 1
      rw [← g4 i]
      have hu := g3.1
      cases lb with
      | nil => rfl
      | cons b lb =>
        simp only [List.map_cons, cumprod]
        rw [cumprodFrom_running]
        · have hm : ∀ B : NDArray (FP ℂ), (B.map fun x => permitivitty x).get i = permitivitty (B.get i) := fun B => by
            rw [NDArray.map_get]
          rw [hm, List.map_map, List.map_map]
          congr 2
          exact List.map_congr_left fun B _ => hm B
        · intro A hA
          obtain ⟨B, hB, rfl⟩ := List.mem_map.mp hA
          show B.rshape = b.rshape
          rw [hu B (List.mem_cons_of_mem _ hB), hu b List.mem_cons_self]

example (d : Defaults) : ∃ o, SampleObj.init d
    { beta := some (.items ([FP.num (2 : ℂ)].map NDArray.scalar)), t := some (.items (([] : List (FP ℝ)).map NDArray.scalar)),
      epsEnv := some (NDArray.scalar (FP.num 1)) } = .ok o := by
  obtain ⟨o, bs, h, -⟩ := C04 d [2] [] rfl (by intro x hx; obtain rfl := List.mem_singleton.mp hx; norm_num) (some 1) (by simp) none
  exact ⟨o, h⟩

/-- A bulk sample made from a real coefficient, with any sign of its zero, in an environment of real permittivity.  A coefficient above 1
gives a permittivity with imaginary part `-0`, one below -1 a permittivity with imaginary part `+0`. -/
theorem C124_beta_eps (β e : ℝ) (hβ : 1 < |β|) (he : 0 < e) (b c d : Bool) (nu : Option SgR) :
    ∃ env sub : SgEps, Stack.ofBeta [SgEps.num ⟨β, b, c⟩] (SgEps.num ⟨e, d, false⟩) [] nu = signedLayers env [] sub nu ∧
      env.eps = e ∧ env.imNeg = false ∧ sub.eps = ((1 + β) / (1 - β) * e : ℝ) ∧ (1 + β) / (1 - β) * e < 0 ∧
      sub.imNeg = decide (1 < β) := by
  have h1 : β ≠ 1 := by
    rintro rfl
    simp at hβ
  have h2 : β ≠ -1 := by
    rintro rfl
    simp at hβ
  have n1 : 1 - β ≠ 0 := sub_ne_zero.mpr (Ne.symm h1)
  have n2 : 1 + β ≠ 0 := fun h => h2 (by linarith)
  have hb : IsReal (SgEps.num ⟨β, b, c⟩) β c := ⟨rfl, rfl⟩
  have hE : IsReal (SgEps.num ⟨e, d, false⟩) e false := ⟨rfl, rfl⟩
  have hp := ((isReal_one.mul (isReal_one.add hb) one_ne_zero n2).div (isReal_one.sub hb) (mul_ne_zero one_ne_zero n2) n1).mul hE
    (div_ne_zero (mul_ne_zero one_ne_zero n2) n1) he.ne'
  have hq := isReal_one.mul hE one_ne_zero he.ne'
  have hneg : (1 + β) / (1 - β) < 0 := by
    rcases lt_abs.mp hβ with h | h
    · exact div_neg_of_pos_of_neg (by linarith) (by linarith)
    · exact div_neg_of_neg_of_pos (by linarith) (by linarith)
  rw [one_mul] at hp hq
  have hr : ∀ (x : SgC) (v : ℝ) (i : Bool), IsReal x v i → x = SgEps.num ⟨v, x.reNeg, i⟩ := by
    rintro ⟨_, r, _⟩ v i ⟨rfl, rfl⟩
    rfl
  refine ⟨⟨e, (clit 1 * SgEps.num ⟨e, d, false⟩ : SgC).reNeg, false⟩, ⟨((1 + β) / (1 - β) * e : ℝ),
    (permitivitty (SgEps.num ⟨β, b, c⟩) * SgEps.num ⟨e, d, false⟩ : SgC).reNeg, decide (1 < β)⟩, ?_, rfl, rfl, rfl, mul_neg_of_neg_of_pos hneg he, rfl⟩
  · show (⟨[clit 1 * SgEps.num ⟨e, d, false⟩, permitivitty (SgEps.num ⟨β, b, c⟩) * SgEps.num ⟨e, d, false⟩], [], nu⟩ : Stack SgR SgC) =
      ⟨[_, _], [], nu⟩
    congr 2
    · refine hr _ _ _ ⟨hq.1, hq.2.trans ?_⟩
      simp [he.not_gt]
    · congr 1
      refine hr _ _ _ ⟨hp.1, hp.2.trans ?_⟩
      have hlt : (1 - β < 0) ↔ 1 < β := sub_neg
      have h10 : ¬ (1 : ℝ) < 0 := by norm_num
      simp [hneg, he.not_gt, hlt, h10]

/-- `bulk_sample(beta=...)` and `bulk_sample(eps_sub=...)` with the permittivity that belongs to `beta` disagree on light if `beta` is real
and above 1, and agree if it is below -1. -/
theorem C124_beta (β e : ℝ) (hβ : 1 < |β|) (he : 0 < e) (b c d b' c' : Bool) (snu : Option SgR) (a : Stack.FarArgs SgR) (nu q : ℝ)
    (ha : a.Aims nu q) (hpol : a.polarization = "p" ∨ a.polarization = "s") (hq : q ^ 2 < e * nu ^ 2) :
    ∃ r : ℂ, unsigned ((signedLayers ⟨e, b', false⟩ [] ⟨((1 + β) / (1 - β) * e : ℝ), c', false⟩ snu).reflCoef a) = .ok (FP.num r) ∧
      r.im ≠ 0 ∧ unsigned ((Stack.ofBeta [SgEps.num ⟨β, b, c⟩] (SgEps.num ⟨e, d, false⟩) [] snu).reflCoef a) =
        .ok (FP.num (if 1 < β then star r else r)) := by
  obtain ⟨env, sub, h1, h2, h3, h4, h5, h6⟩ := C124_beta_eps β e hβ he b c d snu
  obtain ⟨x, i, j⟩ := env
  obtain ⟨y, k, l⟩ := sub
  dsimp only at *
  subst h2 h3 h4 h6
  obtain ⟨r, r1, -, r3, r4⟩ := C124_lossless e _ he h5 i k (decide (1 < β)) snu a nu q ha hpol hq
  obtain ⟨r', r1', -, -, r4'⟩ := C124_lossless e _ he h5 b' c' false snu a nu q ha hpol hq
  have hrr : r' = r := FP.num.inj (Except.ok.inj (r1'.symm.trans r1))
  subst hrr
  refine ⟨r', r4', r3, ?_⟩
  rw [h1, r4]
  simp only [decide_eq_true_eq]

/-- `beta = 2`, so that the permittivity is -3, at normal incidence. -/
example : ∃ r : ℂ, unsigned ((signedLayers ⟨(1 : ℝ), false, false⟩ [] ⟨(((1 + 2) / (1 - 2) * 1 : ℝ)), true, false⟩ none).reflCoef
      { nuVac := some ⟨.num 1, false⟩, q := some ⟨.num 0, false⟩ }) = .ok (FP.num r) ∧ r.im ≠ 0 ∧
    unsigned ((Stack.ofBeta [SgEps.num ⟨(2 : ℝ), false, false⟩] (SgEps.num ⟨(1 : ℝ), false, false⟩) [] none).reflCoef
      { nuVac := some ⟨.num 1, false⟩, q := some ⟨.num 0, false⟩ }) = .ok (FP.num (star r)) := by
  obtain ⟨r, h1, h2, h3⟩ := C124_beta 2 1 (by norm_num) one_pos false false false false true none
    { nuVac := some ⟨.num 1, false⟩, q := some ⟨.num 0, false⟩ } 1 0 ⟨⟨_, rfl, rfl⟩, .inl ⟨_, rfl, rfl, rfl⟩⟩ (.inl rfl) (by norm_num)
  rw [if_pos (by norm_num)] at h3
  exact ⟨r, h1, h2, h3⟩

/-- `lorentz_perm` and `drude_perm` with a background that is not below the real axis never return the imaginary part `-0`. -/
theorem C124_lorentz (nu nuJ gam : SgR) (aJ nuP : Option SgR) (fJ : SgR) (bg : SgEps) (h : 0 < bg.eps.im ∨ bg.eps.im = 0 ∧ bg.imNeg = false)
    (x : SgC) (hx : lorentzPerm nu nuJ gam aJ nuP fJ bg.num = .ok x) (z : ℂ) (hz : x.val = .num z) (hi : z.im = 0) : x.imNeg = false := by
  have key : ∀ y : SgC, x = bg.num + y → x.imNeg = false := by
    rintro y rfl
    rw [SgC.add_imNeg]
    have h1 : (bg.num.im + y.im).val = .num 0 := by
      show (bg.num.val.map Complex.im) + (y.val.map Complex.im) = _
      have h2 : bg.num.val + y.val = .num z := hz
      have h3 : bg.num.val = .num bg.eps := rfl
      rw [h3] at h2 ⊢
      cases hy : y.val with
      | nan => rw [hy] at h2; cases h2
      | num w =>
        rw [hy] at h2
        have h4 : bg.eps + w = z := FP.num.inj h2
        show FP.num (bg.eps.im + w.im) = _
        rw [← Complex.add_im, h4, hi]
    have h5 : bg.num.im.bit = false := by
      show SgR.bit ⟨.num bg.eps.im, bg.imNeg⟩ = false
      rcases h with h | ⟨h, h'⟩
      · rw [SgR.bit_num h.ne']
        simpa using h.le
      · rw [h, h', SgR.bit_zero]
    have h6 : (bg.num.im + y.im) = ⟨.num 0, bg.num.im.bit && y.im.bit⟩ := by
      rw [← h1]
      rfl
    rw [h6, h5, SgR.bit_zero]
    rfl
  unfold lorentzPerm at hx
  cases aJ <;> cases nuP
  · cases hx
  · exact key _ (Except.ok.inj hx).symm
  · exact key _ (Except.ok.inj hx).symm
  · cases hx

theorem C124_drude (nu nuP gam : SgR) (bg : SgEps) (h : 0 < bg.eps.im ∨ bg.eps.im = 0 ∧ bg.imNeg = false)
    (x : SgC) (hx : drudePerm nu nuP gam bg.num = .ok x) (z : ℂ) (hz : x.val = .num z) (hi : z.im = 0) : x.imNeg = false :=
  C124_lorentz nu _ gam _ _ _ bg h x hx z hz hi

example : ∃ x, drudePerm (C := SgC) ⟨.num 1, false⟩ ⟨.num 2, false⟩ ⟨.num 0, false⟩ = .ok x ∧ x.val = .num (-3) ∧ x.imNeg = false := by
  have hv : (clit 1 + ofR (lit 1 * RealOps.npow (FP.num 2) 2) / (ofR (RealOps.npow (lit 0) 2 - RealOps.npow (FP.num 1) 2) -
      clit Complex.I * ofR (FP.num 0) * ofR (FP.num 1)) : FP ℂ) = FP.num (-3) := by
    show FP.num (1 : ℂ) + FP.num (((1 * 2 ^ 2 : ℝ)) : ℂ) / (FP.num (((0 ^ 2 - 1 ^ 2 : ℝ)) : ℂ) -
      FP.num Complex.I * FP.num ((0 : ℝ) : ℂ) * FP.num ((1 : ℝ) : ℂ)) = _
    simp only [FP.num_mul, FP.num_sub]
    rw [FP.num_div _ (by norm_num), FP.num_add]
    norm_num
  exact ⟨_, rfl, hv, C124_lorentz ⟨.num 1, false⟩ (lit 0) ⟨.num 0, false⟩ none (some ⟨.num 2, false⟩) (lit 1)
    ⟨1, false, false⟩ (.inr ⟨by simp, rfl⟩) _ rfl (-3) hv (by norm_num)⟩

/-! ## Everything else -/

/-- Electrostatic coefficients, images, tip models with their Taylor series and inverses: signs of zeros change nothing. -/
theorem C124_qs (s : Stack SgR SgC) (q : SgR) (env : Env) (nLag : Option ℕ) :
    unsigned (s.reflCoefQs q) = s.plain.reflCoefQs q.val ∧ unsigned (s.transCoefQs q) = s.plain.transCoefQs q.val ∧
    unsigned (s.reflCoefQsAboveSurf env q nLag) = s.plain.reflCoefQsAboveSurf env q.val nLag ∧
    (s.surfPotAndField env q nLag).map (Prod.map SgC.val SgC.val) = s.plain.surfPotAndField env q.val nLag ∧
    (s.imageDepthAndCharge env q nLag).map (Prod.map SgR.val SgC.val) = s.plain.imageDepthAndCharge env q.val nLag :=
  ⟨reflCoefQs_sg s q, transCoefQs_sg s q, reflCoefQsAboveSurf_sg s env q nLag, surfPotAndField_sg s env q nLag,
    imageDepthAndCharge_sg s env q nLag⟩

theorem C124_fdm (env : Env) (s : Stack SgR SgC) (aTip n : SgR) (z : Option SgR) (nT : Option ℕ) (a : FdmArgs SgR SgC) (nLag : Option ℕ)
    (m : Option String) (nTayl : Option ℕ) (y : SgC) :
    unsigned (Fdm.effPol env s z a nLag m) = Fdm.effPol env s.plain (z.map SgR.val) a.plain nLag m ∧
    unsigned (Fdm.effPolN env s aTip n z nT a nLag m) = Fdm.effPolN env s.plain aTip.val n.val (z.map SgR.val) nT a.plain nLag m ∧
    unsigned (Fdm.effPolNTaylor env s aTip n z a nLag m nT nTayl) =
      Fdm.effPolNTaylor env s.plain aTip.val n.val (z.map SgR.val) a.plain nLag m nT nTayl ∧
    (Fdm.reflCoefQsFromEffPol env y z a).val = Fdm.reflCoefQsFromEffPol env y.val (z.map SgR.val) a.plain :=
  ⟨fdmEffPol_sg env s z a nLag m, fdmEffPolN_sg env s aTip n z nT a nLag m, fdmEffPolNTaylor_sg env s aTip n z a nLag m nT nTayl,
    fdmInverse_sg env y z a⟩

theorem C124_pdm (env : Env) (s : Stack SgR SgC) (aTip n : SgR) (z : Option SgR) (nT : Option ℕ) (a : PdmArgs SgR SgC)
    (nTayl : Option ℕ) (y : SgC) :
    unsigned (Pdm.effPol env s z a) = Pdm.effPol env s.plain (z.map SgR.val) a.plain ∧
    unsigned (Pdm.effPolN env s aTip n z nT a) = Pdm.effPolN env s.plain aTip.val n.val (z.map SgR.val) nT a.plain ∧
    unsigned (Pdm.effPolNTaylor env s aTip n z a nT nTayl) =
      Pdm.effPolNTaylor env s.plain aTip.val n.val (z.map SgR.val) a.plain nT nTayl ∧
    unsigned (Pdm.reflCoefQsFromEffPol env y z a) = Pdm.reflCoefQsFromEffPol env y.val (z.map SgR.val) a.plain :=
  ⟨pdmEffPol_sg env s z a, pdmEffPolN_sg env s aTip n z nT a, pdmEffPolNTaylor_sg env s aTip n z a nT nTayl, pdmInverse_sg env y z a⟩

/-- The silver-like substrate of the examples above: its electrostatic coefficient is 3. -/
example : unsigned (Stack.reflCoefQs (signedLayers ⟨1, false, false⟩ [] ⟨-2, true, true⟩ none)) =
    Stack.reflCoefQs (layered 1 [] (-2) none) := by
  have h := (C124_qs (signedLayers ⟨1, false, false⟩ [] ⟨-2, true, true⟩ none) (lit 0)
    ⟨Defaults.initial, fun _ => []⟩ none).1
  exact h

end Snompy.Props
