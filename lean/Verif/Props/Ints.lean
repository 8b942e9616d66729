import Verif.Lemmas.Ints
import Verif.Props.FarField

/-!
# C123: integer arguments

A call with numpy integers of `w` bits (`Verif/Ints.lean`) returns what the same call with floats of the same values returns, if the
integers are small enough.  Larger integers wrap around without an error, and the result is wrong.
-/

namespace Snompy.Props

open Snompy

variable {w : ℕ}

/-! ## Permittivities -/

theorem C123_lorentz (nu nuJ gam : IntN w) (aJ nuP : Option (IntN w)) (fJ : IntN w) (eps : IntC w) (b f : ℕ) (h1 : nu.AtMost b)
    (h2 : nuJ.AtMost b) (h3 : ∀ x, nuP = some x → x.AtMost b) (h4 : fJ.AtMost f) (hf : 1 ≤ f) (hb : f * b ^ 2 < 2 ^ (w - 1)) :
    value (lorentzPerm nu nuJ gam aJ nuP fJ eps) =
      lorentzPerm nu.val nuJ.val gam.val (aJ.map IntN.val) (nuP.map IntN.val) fJ.val eps.val :=
  lorentzPerm_ints nu nuJ gam aJ nuP fJ eps h1 h2 h3 h4 hf hb

/-- The resonance of PMMA at 1738 per centimetre, with 32-bit integers. -/
example : value (lorentzPerm (C := IntC 32) (.int 1740) (.int 1738) (.int 20) (some (.int 30000)) none (.int 1) ⟨FP.num 2⟩) =
    lorentzPerm (FP.num 1740) (FP.num 1738) (FP.num 20) (some (FP.num 30000)) none (FP.num 1) (FP.num 2) := by
  have h := C123_lorentz (w := 32) (.int 1740) (.int 1738) (.int 20) (some (.int 30000)) none (.int 1) ⟨FP.num 2⟩ 1740 1
    (IntN.atMost_int _) ((IntN.atMost_int _).mono (by norm_num)) (fun _ h => nomatch h) (IntN.atMost_int 1) le_rfl (by norm_num)
  simpa [IntN.val] using h

theorem C123_drude (nu nuP gam : IntN w) (eps : IntC w) (b : ℕ) (h1 : nu.AtMost b) (h2 : nuP.AtMost b) (hb : b ^ 2 < 2 ^ (w - 1)) :
    value (drudePerm nu nuP gam eps) = drudePerm nu.val nuP.val gam.val eps.val := by
  have h := C123_lorentz nu (lit 0) gam none (some nuP) (lit 1) eps b 1 h1
    (by rw [IntN.lit0]; exact (IntN.atMost_int 0).mono (Nat.zero_le _)) (fun x hx => by cases hx; exact h2) IntN.lit1 le_rfl
    (by rwa [one_mul])
  rw [IntN.lit_val, IntN.lit_val] at h
  exact h

/-- `int64` squares do not wrap up to 3037000499, and `int32` squares up to 46340. -/
example : 3037000499 ^ 2 < 2 ^ (64 - 1) ∧ 2 ^ (64 - 1) < 3037000500 ^ 2 ∧ 46340 ^ 2 < 2 ^ (32 - 1) ∧ 2 ^ (32 - 1) < 46341 ^ 2 := by
  norm_num

/-- The bound cannot be improved: every larger wavenumber gives a wrong permittivity. -/
theorem C123_drude_wraps (k : ℤ) (hk : 2 ^ (w - 1) < k ^ 2) (p : ℝ) (hp : p ≠ 0) :
    value (drudePerm (.int k : IntN w) (.flt (FP.num p)) (.flt (FP.num 0))) ≠ drudePerm (FP.num (k : ℝ)) (FP.num p) (FP.num 0) := by
  have l1 : ((lit 1 : IntN w) * RealOps.npow (.flt (FP.num p)) 2).val = FP.num (p ^ 2) := by
    show (lit 1 * IntN.flt (FP.num (p ^ 2))).val = _
    rw [IntN.mul_flt, IntN.lit_val]
    show FP.num 1 * FP.num (p ^ 2) = _
    rw [FP.num_mul, one_mul]
  have l2 : ∃ m : ℤ, (RealOps.npow (lit 0) 2 - RealOps.npow (.int k) 2 : IntN w) = .int m ∧ m ≠ -k ^ 2 := by
    refine ⟨Int.bmod (Int.bmod (0 ^ 2) (2 ^ w) - Int.bmod (k ^ 2) (2 ^ w)) (2 ^ w), by rw [IntN.lit0]; rfl, fun h => ?_⟩
    have h1 := Int.le_bmod (x := Int.bmod (0 ^ 2) (2 ^ w) - Int.bmod (k ^ 2) (2 ^ w)) (m := 2 ^ w) (by positivity)
    rw [h] at h1
    have h2 : ((2 ^ w : ℕ) : ℤ) / 2 ≤ 2 ^ (w - 1) := by
      cases w with
      | zero => norm_num
      | succ n =>
        simp only [Nat.add_sub_cancel]
        push_cast
        rw [pow_succ]
        omega
    omega
  obtain ⟨m, h1, h2⟩ := l2
  have e1 : value (drudePerm (.int k : IntN w) (.flt (FP.num p)) (.flt (FP.num 0))) =
      .ok (FP.num 1 + FP.num ((p : ℂ) ^ 2) / FP.num (m : ℂ)) := by
    show Except.ok (clit 1 + ofR ((lit 1 : IntN w) * RealOps.npow (.flt (FP.num p)) 2).val /
      (ofR (RealOps.npow (lit 0) 2 - RealOps.npow (.int k) 2 : IntN w).val -
        clit Complex.I * ofR (FP.num 0) * ofR (FP.num (k : ℝ)))) = _
    rw [l1, h1]
    show Except.ok (FP.num (1 : ℂ) + FP.num ((p ^ 2 : ℝ) : ℂ) / (FP.num (((m : ℝ)) : ℂ) -
      FP.num Complex.I * FP.num ((0 : ℝ) : ℂ) * FP.num ((k : ℝ) : ℂ))) = _
    simp
  have e2 : drudePerm (FP.num (k : ℝ)) (FP.num p) (FP.num 0) = .ok (FP.num 1 + FP.num ((p : ℂ) ^ 2) / FP.num (-(k : ℂ) ^ 2)) := by
    show Except.ok (FP.num (1 : ℂ) + FP.num ((1 * p ^ 2 : ℝ) : ℂ) / (FP.num (((0 : ℝ) ^ 2 - (k : ℝ) ^ 2 : ℝ) : ℂ) -
      FP.num Complex.I * FP.num ((0 : ℝ) : ℂ) * FP.num ((k : ℝ) : ℂ))) = _
    simp
  have hk0 : (-(k : ℂ) ^ 2) ≠ 0 := by
    rw [neg_ne_zero]
    refine pow_ne_zero 2 (Int.cast_ne_zero.mpr ?_)
    rintro rfl
    have : (0 : ℤ) < 2 ^ (w - 1) := by positivity
    omega
  rw [e1, e2, FP.num_div _ hk0]
  by_cases hm : (m : ℂ) = 0
  · rw [hm]
    simp
  · rw [FP.num_div _ hm]
    intro h
    have h3 := FP.num.inj (Except.ok.inj h)
    have h4 : ((p : ℂ) ^ 2) / m = (p : ℂ) ^ 2 / (-(k : ℂ) ^ 2) := add_left_cancel h3
    rw [div_eq_div_iff hm hk0] at h4
    have h5 := mul_left_cancel₀ (pow_ne_zero 2 (Complex.ofReal_ne_zero.mpr hp)) h4
    exact h2 (by exact_mod_cast h5.symm)

/-- 1738 per centimetre is 173800 per metre, the unit of the documentation: too large for 32 bits. -/
example (p : ℝ) (hp : p ≠ 0) : value (drudePerm (.int 173800 : IntN 32) (.flt (FP.num p)) (.flt (FP.num 0))) ≠
    drudePerm (FP.num (173800 : ℝ)) (FP.num p) (FP.num 0) := by
  have := C123_drude_wraps (w := 32) 173800 (by norm_num) p hp
  simpa using this

/-! ## Light -/

theorem C123_light (s : Stack (IntN w) (IntC w)) (a : Stack.FarArgs (IntN w)) (b : ℕ) (h : a.AtMost b s) (h1 : 1 ≤ b)
    (hb : b ^ 2 < 2 ^ (w - 1)) :
    value (s.reflCoef a) = s.floats.reflCoef a.floats ∧ value (s.transCoef a) = s.floats.transCoef a.floats :=
  ⟨(transferMatrix_ints s a h h1 hb).bind fun _ _ => View.ok rfl, (transferMatrix_ints s a h h1 hb).bind fun _ _ => View.ok rfl⟩

/-- An angle, a wavenumber and a thickness given as integers. -/
example : Stack.FarArgs.AtMost 1738 (⟨[⟨FP.num 1⟩, ⟨FP.num 2⟩, ⟨FP.num 3⟩], [.int 100], none⟩ : Stack (IntN 32) (IntC 32))
    { thetaIn := some (.int 1), nuVac := some (.int 1738) } ∧ 1738 ^ 2 < 2 ^ (32 - 1) := by
  refine ⟨fun x hx => ?_, by norm_num⟩
  rcases hx with h | h | h | h
  · cases h
  · cases h; exact IntN.atMost_int _
  · cases h
  · cases h; exact (IntN.atMost_int _).mono (by norm_num)

/-- A power of two whose square wraps to zero: `refl_coef` is not a number, though the coefficient exists. -/
theorem C123_light_wraps (m : ℕ) (hm : w ≤ 2 * m) (e0 e1 : ℝ) (h0 : 0 < e0) (h1 : 0 < e1) :
    let s : Stack (IntN w) (IntC w) := ⟨[⟨FP.num e0⟩, ⟨FP.num e1⟩], [], none⟩
    let a : Stack.FarArgs (IntN w) := { q := some (.int 0), nuVac := some (.int (2 ^ m)), polarization := "s" }
    value (s.reflCoef a) = .ok .nan ∧ ∃ r : ℂ, s.floats.reflCoef a.floats = .ok (FP.num r) := by
  dsimp only
  constructor
  · have e : (RealOps.npow (.int (2 ^ m)) 2 : IntN w) = .int 0 := by
      show IntN.int (Int.bmod ((2 ^ m) ^ 2) (2 ^ w)) = _
      congr 1
      refine Int.bmod_eq_zero_of_dvd ?_
      rw [← pow_mul]
      push_cast
      exact pow_dvd_pow 2 (by omega)
    have e' : (RealOps.npow (.int 0) 2 : IntN w) = .int 0 := by
      show IntN.int (Int.bmod (0 ^ 2) (2 ^ w)) = _
      simp
    have hz : ∀ x : ℂ, CplxOps.sqrt ((⟨FP.num x⟩ : IntC w) * ofR (RealOps.npow (.int (2 ^ m)) 2) - ofR (RealOps.npow (.int 0) 2)) =
        (⟨FP.num 0⟩ : IntC w) := by
      intro x
      rw [e, e']
      show IntC.mk (FP.num (Complex.sqrt _)) = _
      simp
    have ht : Stack.transferMatrix (⟨[⟨FP.num e0⟩, ⟨FP.num e1⟩], [], none⟩ : Stack (IntN w) (IntC w))
        { q := some (.int 0), nuVac := some (.int (2 ^ m)), polarization := "s" } =
        .ok (Stack.interface ((⟨FP.num 0⟩ : IntC w) / ⟨FP.num 0⟩)) := by
      unfold Stack.transferMatrix Stack.resolveNu Stack.resolveQ Stack.nuZ
      simp only [PyM.ok_bind, List.map_cons, List.map_nil, hz]
      rfl
    unfold Stack.reflCoef
    rw [ht]
    show Except.ok ((Stack.interface ((⟨FP.num 0⟩ : IntC w) / ⟨FP.num 0⟩)).m10.val / (Stack.interface ((⟨FP.num 0⟩ : IntC w) / ⟨FP.num 0⟩)).m00.val) = _
    have hn : ((⟨FP.num 0⟩ : IntC w) / ⟨FP.num 0⟩) = ⟨.nan⟩ := by
      show IntC.mk (FP.num (0 : ℂ) / FP.num 0) = _
      simp
    rw [hn]
    show Except.ok (((clit 1 : FP ℂ) - FP.nan) / clit 2 / ((clit 1 + FP.nan) / clit 2)) = _
    simp
  · have hp : (0 : ℝ) < ((2 : ℝ) ^ m) ^ 2 := by positivity
    obtain ⟨r, t, hr, -⟩ := C22_energy e0 [] e1 none (2 ^ m) 0 "s" (.inr rfl) (by rw [zero_pow two_ne_zero]; positivity)
      (fun l hl => by cases hl) (by rw [zero_pow two_ne_zero]; positivity)
    refine ⟨r, ?_⟩
    rw [← hr]
    unfold Stack.floats Stack.FarArgs.floats atQ
    simp [IntN.val, layered]

/-- 64-bit integers. -/
example : value (Stack.reflCoef (⟨[⟨FP.num (1 : ℝ)⟩, ⟨FP.num (2 : ℝ)⟩], [], none⟩ : Stack (IntN 64) (IntC 64))
    { q := some (.int 0), nuVac := some (.int (2 ^ 32)), polarization := "s" }) = .ok .nan :=
  (C123_light_wraps (w := 64) 32 le_rfl 1 2 one_pos two_pos).1

/-! ## Electrostatics -/

theorem C123_qs (s : Stack (IntN w) (IntC w)) (q : IntN w) (Q T : ℕ) (hq : q.AtMost Q) (ht : ∀ t ∈ s.t, t.AtMost T)
    (h : Q * T < 2 ^ (w - 1)) :
    value (s.reflCoefQs q) = s.floats.reflCoefQs q.val ∧ value (s.transCoefQs q) = s.floats.transCoefQs q.val :=
  ⟨reflCoefQs_ints s q (.of_bound hq ht h), transCoefQs_ints s q (.of_bound hq ht h)⟩

/-- Without `q`, and for floats `q`, no integers are multiplied. -/
theorem C123_qs_free (s : Stack (IntN w) (IntC w)) (q : FP ℝ) :
    value s.reflCoefQs = s.floats.reflCoefQs ∧ value (s.reflCoefQs (.flt q)) = s.floats.reflCoefQs q :=
  ⟨reflCoefQs0_ints s, reflCoefQs_ints s (.flt q) (.of_flt s q)⟩

example : value (Stack.reflCoefQs (⟨[⟨FP.num 1⟩, ⟨FP.num 2⟩, ⟨FP.num 3⟩], [.int 100], none⟩ : Stack (IntN 32) (IntC 32)) (.int 5)) =
    Stack.reflCoefQs ⟨[FP.num 1, FP.num 2, FP.num 3], [FP.num 100], none⟩ (FP.num 5) := by
  have h := (C123_qs (⟨[⟨FP.num 1⟩, ⟨FP.num 2⟩, ⟨FP.num 3⟩], [.int 100], none⟩ : Stack (IntN 32) (IntC 32)) (.int 5) 5 100
    (IntN.atMost_int _) (fun t ht => by rw [List.mem_singleton.mp ht]; exact IntN.atMost_int _) (by norm_num)).1
  simpa [Stack.floats, IntN.val] using h

theorem C123_image (s : Stack (IntN w) (IntC w)) (env : Env) (z : IntN w) (nLag : Option ℕ) (Z T : ℕ) (hz : z.AtMost Z)
    (ht : ∀ t ∈ s.t, t.AtMost T) (h1 : 4 * Z ^ 2 < 2 ^ (w - 1)) (h2 : Z * T < 2 ^ (w - 1)) :
    value (s.reflCoefQsAboveSurf env z nLag) = s.floats.reflCoefQsAboveSurf env z.val nLag ∧
    (s.imageDepthAndCharge env z nLag).map (Prod.map IntN.val IntC.val) = s.floats.imageDepthAndCharge env z.val nLag := by
  have hZ : Z ≤ Z ^ 2 := Nat.le_self_pow (by norm_num) _
  have e2 : (lit 2 * z).val = lit 2 * z.val := by rw [(IntN.mul_spec IntN.lit2 hz (by omega)).1, IntN.lit_val]
  have e3 := IntN.npow_spec hz 2 (by omega)
  have e4 : (lit 4 * RealOps.npow z 2).val = lit 4 * RealOps.npow z.val 2 := by
    rw [(IntN.mul_spec IntN.lit4 e3.2 h1).1, IntN.lit_val, e3.1]
  exact ⟨reflCoefQsAboveSurf_ints s env z nLag (.of_bound hz ht h2) e2, imageDepthAndCharge_ints s env z nLag (.of_bound hz ht h2) e2 e4⟩

/-- A charge 20000 nanometres above a layer of 1000 nanometres, with 32-bit integers. -/
example : 4 * 20000 ^ 2 < 2 ^ (32 - 1) ∧ 20000 * 1000 < 2 ^ (32 - 1) ∧ (.int (-20000) : IntN 32).AtMost 20000 :=
  ⟨by norm_num, by norm_num, IntN.atMost_int _⟩

/-! ## The point dipole model -/

theorem C123_pdm (env : Env) (s : Stack (IntN w) (IntC w)) (z : Option (IntN w)) (a : PdmArgs (IntN w) (IntC w)) (y : IntC w) (b c : ℕ)
    (hr : ∀ r, a.rTip = some r → r.AtMost b) (hz : ∀ x, z = some x → x.AtMost c) (hb : 16 ≤ b) (hc : 16 ≤ c)
    (h : (b + c) ^ 3 < 2 ^ (w - 1)) :
    value (Pdm.effPol env s z a) = Pdm.effPol env s.floats (z.map IntN.val) a.floats ∧
    value (Pdm.reflCoefQsFromEffPol env y z a) = Pdm.reflCoefQsFromEffPol env y.val (z.map IntN.val) a.floats :=
  ⟨pdmEffPol_ints env s z a hr hz hb hc h, pdmInverse_ints env y z a hr hz hb hc h⟩

theorem C123_pdm_n (env : Env) (s : Stack (IntN w) (IntC w)) (aTip n : IntN w) (z : Option (IntN w)) (nT nTayl : Option ℕ)
    (a : PdmArgs (IntN w) (IntC w)) (b c A : ℕ) (hr : ∀ r, a.rTip = some r → r.AtMost b) (hz : ∀ x, z = some x → x.AtMost c)
    (hA : aTip.AtMost A) (hb : 16 ≤ b) (hc : 16 ≤ c) (h : (b + (c + A)) ^ 3 < 2 ^ (w - 1)) :
    value (Pdm.effPolN env s aTip n z nT a) = Pdm.effPolN env s.floats aTip.val n.val (z.map IntN.val) nT a.floats ∧
    value (Pdm.effPolNTaylor env s aTip n z a nT nTayl) =
      Pdm.effPolNTaylor env s.floats aTip.val n.val (z.map IntN.val) a.floats nT nTayl :=
  ⟨pdmEffPolN_ints env s aTip n z nT a hr hz hA hb hc h, pdmEffPolNTaylor_ints env s aTip n z a nT nTayl hr hz hA hb hc h⟩

/-- A radius of 30, a height of 100 and an amplitude of 50 nanometres, with 32-bit integers. -/
example : (30 + (100 + 50)) ^ 3 < 2 ^ (32 - 1) := by norm_num

/-- The cube of `r_tip + z_tip` wraps to zero: the geometry function divides by zero. -/
theorem C123_pdm_wraps (m : ℕ) (hm : w ≤ 3 * m) (r z al : ℤ) (hs : r + z = 2 ^ m)
    (hw : m + 1 < w) : (Pdm.geomFunc (C := IntC w) (.int z) (.int r) ⟨FP.num (al : ℂ)⟩).val = .nan ∧
    Pdm.geomFunc (C := FP ℂ) (FP.num (z : ℝ)) (FP.num (r : ℝ)) (FP.num (al : ℂ)) = FP.num ((al : ℂ) / (16 * (Real.pi : ℂ) * 2 ^ (3 * m))) := by
  constructor
  · have e1 : (.int r + .int z : IntN w) = .int (2 ^ m) := by
      show IntN.wrap w (r + z) = _
      rw [hs]
      refine IntN.wrap_eq ?_
      rw [abs_of_pos (by positivity)]
      exact pow_lt_pow_right₀ (by norm_num) (by omega)
    have e2 : (RealOps.npow (.int (2 ^ m)) 3 : IntN w) = .int 0 := by
      show IntN.int (Int.bmod ((2 ^ m) ^ 3) (2 ^ w)) = _
      congr 1
      refine Int.bmod_eq_zero_of_dvd ?_
      rw [← pow_mul]
      push_cast
      exact pow_dvd_pow 2 (by omega)
    unfold Pdm.geomFunc
    show FP.num (al : ℂ) / ofR (lit 16 * lit Real.pi * RealOps.npow (.int r + .int z) 3 : IntN w).val = _
    rw [e1, e2, IntN.lit_pi, IntN.mul_flt, IntN.flt_mul, IntN.lit_val]
    show FP.num (al : ℂ) / FP.num ((16 * Real.pi * ((0 : ℤ) : ℝ) : ℝ) : ℂ) = _
    simp
  · unfold Pdm.geomFunc
    show FP.num (al : ℂ) / FP.num ((16 * Real.pi * ((r : ℝ) + (z : ℝ)) ^ 3 : ℝ) : ℂ) = _
    have e : ((r : ℝ) + (z : ℝ)) = 2 ^ m := by exact_mod_cast hs
    rw [e, ← pow_mul, mul_comm m 3, FP.num_div]
    · push_cast
      rfl
    · push_cast
      exact mul_ne_zero (mul_ne_zero (by norm_num) (by exact_mod_cast Real.pi_ne_zero)) (pow_ne_zero _ two_ne_zero)

/-- 200 and 1848 ångströms, with 32-bit integers. -/
example : (Pdm.geomFunc (C := IntC 32) (.int 1848) (.int 200) ⟨FP.num ((5 : ℤ) : ℂ)⟩).val = .nan :=
  (C123_pdm_wraps (w := 32) 11 (by norm_num) 200 1848 5 (by norm_num) (by norm_num)).1

/-! ## The finite dipole model -/

theorem C123_fdm (env : Env) (s : Stack (IntN w) (IntC w)) (z : Option (IntN w)) (a : FdmArgs (IntN w) (IntC w)) (nLag : Option ℕ)
    (m : Option String) (y : IntC w) (b D c T : ℕ) (ha : a.AtMost b D) (hz : ∀ x, z = some x → x.AtMost c) (ht : ∀ t ∈ s.t, t.AtMost T)
    (hf : FdmFits w b D c T) :
    value (Fdm.effPol env s z a nLag m) = Fdm.effPol env s.floats (z.map IntN.val) a.floats nLag m ∧
    (Fdm.reflCoefQsFromEffPol env y z a).val = Fdm.reflCoefQsFromEffPol env y.val (z.map IntN.val) a.floats :=
  ⟨fdmEffPol_ints env s z a nLag m ha hz ht hf, fdmInverse_ints env y z a ha hz hf⟩

theorem C123_fdm_n (env : Env) (s : Stack (IntN w) (IntC w)) (aTip n : IntN w) (z : Option (IntN w)) (nT nTayl : Option ℕ)
    (a : FdmArgs (IntN w) (IntC w)) (nLag : Option ℕ) (m : Option String) (b D c A T : ℕ) (ha : a.AtMost b D)
    (hz : ∀ x, z = some x → x.AtMost c) (hA : aTip.AtMost A) (ht : ∀ t ∈ s.t, t.AtMost T) (hc : 16 ≤ c)
    (hf : FdmFits w b D (c + A) T) :
    value (Fdm.effPolN env s aTip n z nT a nLag m) = Fdm.effPolN env s.floats aTip.val n.val (z.map IntN.val) nT a.floats nLag m ∧
    value (Fdm.effPolNTaylor env s aTip n z a nLag m nT nTayl) =
      Fdm.effPolNTaylor env s.floats aTip.val n.val (z.map IntN.val) a.floats nLag m nT nTayl :=
  ⟨fdmEffPolN_ints env s aTip n z nT a nLag m ha hz hA ht hc hf, fdmEffPolNTaylor_ints env s aTip n z a nLag m nT nTayl ha hz hA ht hc hf⟩

/-- Lengths in nanometres as 32-bit integers: a tip of radius 20 and length 300, at most 100 + 50 above a layer of 1000. -/
example : FdmFits 32 300 16 (100 + 50) 1000 ∧
    FdmArgs.AtMost 300 16 ({ rTip := some (.int 20), lTip := some (.int 300) } : FdmArgs (IntN 32) (IntC 32)) := by
  refine ⟨⟨by norm_num, by norm_num, by norm_num, by norm_num, by norm_num, by norm_num⟩, fun x hx => ?_, fun x hx => ?_⟩
  · rcases hx with h | h
    · cases h; exact (IntN.atMost_int _).mono (by norm_num)
    · cases h; exact IntN.atMost_int _
  · rcases hx with h | h | h <;> cases h

end Snompy.Props
