import Verif.Props.BulkSample
import Verif.Props.Demod
import Verif.Model.ExampleSpectra
import Verif.Props.FarClassic
import Verif.Props.Perm
import Verif.Props.SampleObj
import Verif.Lemmas.DenModels
import Mathlib.Analysis.SpecialFunctions.Trigonometric.Bounds

/-!
# C119: the examples of the documentation

The model gives the outputs that the docstrings and `docs/guide` show, up to the digits shown there, with two exceptions: `fff_si` (`C119_far`) and `eps_pmma` (`C119_pmma`).
-/

namespace Snompy.Props

open Snompy Filter Topology

/-- `np.array(l)`. -/
noncomputable def vec (l : List ℂ) : NDArray (FP ℂ) := ⟨[l.length], fun i => FP.num (l.getD (i 0) 0)⟩

/-- `np.array(l)[:, np.newaxis]`. -/
noncomputable def col (l : List ℂ) : NDArray (FP ℂ) := ⟨[1, l.length], fun i => FP.num (l.getD (i 1) 0)⟩

/-- The index with the two positions `a, b`. -/
def atPos (a b : ℕ) : ℕ → ℕ := fun k => if k = 0 then b else if k = 1 then a else 0

/-- `refl_coef_qs_single` (`sample.py:857-874`). -/
theorem C119_single :
    (reflCoefQsSingle (FP.num 1) (FP.num 3) : FP ℂ) = FP.num (0.5 : ℂ) ∧
    (reflCoefQsSingle (FP.num 1) (FP.num (1 + Complex.I)) : FP ℂ) = FP.num (0.2 + 0.4 * Complex.I) ∧
    (∃ A, (reflCoefQsSingle (.ok (vec [1, 3])) (.ok (vec [3, 5])) : CArr) = .ok A ∧ A.rshape = [2] ∧
      A.get (atPos 0 0) = FP.num 0.5 ∧ A.get (atPos 0 1) = FP.num 0.25) ∧
    ∃ A, (reflCoefQsSingle (.ok (vec [1, 3])) (.ok (col [1, 3])) : CArr) = .ok A ∧ A.rshape = [2, 2] ∧
      A.get (atPos 0 0) = FP.num 0 ∧ A.get (atPos 0 1) = FP.num (-0.5) ∧
      A.get (atPos 1 0) = FP.num 0.5 ∧ A.get (atPos 1 1) = FP.num 0 := by
  have s : ∀ a b : ℂ, b + a ≠ 0 → (reflCoefQsSingle (FP.num a) (FP.num b) : FP ℂ) = FP.num ((b - a) / (b + a)) := by
    intro a b h
    unfold reflCoefQsSingle
    rw [FP.num_sub, FP.num_add, FP.num_div _ h]
  refine ⟨?_, ?_, ?_, ?_⟩
  · rw [s _ _ (by norm_num)]
    norm_num
  · have hne : (1 + Complex.I + 1 : ℂ) ≠ 0 := fun h => by simpa using congrArg Complex.im h
    rw [s _ _ hne]
    congr 1
    rw [div_eq_iff hne]
    apply Complex.ext <;> norm_num
  all_goals
    have d : ∀ x y : NDArray (FP ℂ), Den (reflCoefQsSingle (.ok x) (.ok y) : CArr)
        ((some y.rshape ⊔ᵇ some x.rshape) ⊔ᵇ (some y.rshape ⊔ᵇ some x.rshape))
        (fun i => (y.get i - x.get i) / (y.get i + x.get i)) := fun x y =>
      ((Den.leaf y).csub (Den.leaf x)).cdiv ((Den.leaf y).cadd (Den.leaf x))
  · obtain ⟨A, h1, h2, h3⟩ := d (vec [1, 3]) (vec [3, 5])
    refine ⟨A, h1, h2, ?_, ?_⟩ <;> rw [h3] <;>
      simp only [NDArray.get, vec, canon, dimAt, atPos, List.length_cons, List.length_nil, List.getD_cons_zero,
        if_true, FP.num_sub, FP.num_add] <;> norm_num
    · exact (FP.num_div _ (by norm_num)).trans (by norm_num)
    · exact (FP.num_div _ (by norm_num)).trans (by norm_num)
  · obtain ⟨A, h1, h2, h3⟩ := d (vec [1, 3]) (col [1, 3])
    refine ⟨A, h1, h2, ?_, ?_, ?_, ?_⟩ <;> rw [h3] <;>
      simp only [NDArray.get, vec, col, canon, dimAt, atPos, List.length_cons, List.length_nil, List.getD_cons_zero, List.getD_cons_succ,
        if_true, FP.num_sub, FP.num_add] <;> norm_num
    all_goals exact (FP.num_div _ (by norm_num)).trans (by norm_num)

/-- `demod` (`demodulate.py:78-98`). -/
theorem C119_demod (env : Env) (hN : 4 < env.defaults.nTrapz) :
    demod env (onFinite fun x => (1 + 2 * Complex.I) * (x : ℂ) ^ 2) (FP.num 0) (FP.num 1) (FP.num (2 : ℤ)) none =
      .ok (FP.num (0.25 + 0.50 * Complex.I)) ∧
    demod env (onFinite fun x => 1 * (x : ℂ) + Complex.I) (FP.num 0) (FP.num 1) (FP.num (1 : ℤ)) none = .ok (FP.num 0.5) ∧
    ∃ A : NDArray (FP ℂ),
      demod (R := RArr) (C := CArr) env (fun x => pure (ofR x * .ok ⟨[1, 1, 1, 4], fun i => FP.num (i 3)⟩)) (.ok (NDArray.scalar (FP.num 1)))
        (.ok ⟨[1, 2], fun i => FP.num (i 1)⟩) (.ok ⟨[1, 1, 3], fun i => FP.num (i 2)⟩) none = .ok (.ok A) ∧
      A.rshape.reverse = [4, 3, 2, 1] := by
  have dflt : ∀ (f : FP ℝ → PyM (FP ℂ)) x0 amp n, demod env f x0 amp n none = demod env f x0 amp n (some env.defaults.nTrapz) :=
    fun _ _ _ _ => rfl
  have modes : ∀ θ : ℝ, (Real.cos θ : ℂ) = (mode 1 θ + mode (-1) θ) / 2 := by
    intro θ
    rw [Complex.ofReal_cos, Complex.cos, mode, mode]
    push_cast
    ring_nf
  have cm : ∀ m, Continuous (mode m) := fun m => by
    unfold mode
    fun_prop
  have smul : ∀ (c : ℂ) (g : ℝ → ℂ), mean (c • g) = c * mean g := by
    intro c g
    unfold mean
    simp only [Pi.smul_apply, smul_eq_mul]
    rw [intervalIntegral.integral_const_mul]
    ring
  refine ⟨?_, ?_, ?_⟩
  · have h := C42_polynomial env (Polynomial.C (1 + 2 * Complex.I) * Polynomial.X ^ 2) 0 1 2 env.defaults.nTrapz
      (lt_of_le_of_lt (Nat.add_le_add_right (Polynomial.natDegree_C_mul_X_pow_le _ _) _) hN)
    simp only [Polynomial.eval_mul, Polynomial.eval_C, Polynomial.eval_pow, Polynomial.eval_X] at h
    rw [dflt, h, lockin_eq, wave_eq]
    have e : (mode (-2) * fun θ => (1 + 2 * Complex.I) * ((0 + Real.cos θ * 1 : ℝ) : ℂ) ^ 2) =
        ((1 + 2 * Complex.I) / 4) • (mode 0 + ((2 : ℂ) • mode (-2) + mode (-4))) := by
      funext θ
      have m1 : mode (-2) θ * (mode 1 θ * mode 1 θ) = mode 0 θ := by
        rw [← Pi.mul_apply (mode 1), mode_mul, ← Pi.mul_apply, mode_mul]
        rfl
      have m2 : mode 1 θ * mode (-1) θ = 1 := by
        rw [← Pi.mul_apply (mode 1), mode_mul, show (1 + -1 : ℤ) = 0 by norm_num, mode_zero]
        rfl
      have m3 : mode (-2) θ * (mode (-1) θ * mode (-1) θ) = mode (-4) θ := by
        rw [← Pi.mul_apply (mode (-1)), mode_mul, ← Pi.mul_apply, mode_mul]
        rfl
      simp only [Pi.mul_apply, Pi.smul_apply, Pi.add_apply, smul_eq_mul, zero_add, mul_one, modes, ← m1, ← m3]
      linear_combination (1 + 2 * Complex.I) / 2 * mode (-2) θ * m2
    rw [e, smul, mean_add (cm _) (((cm _).const_smul _).add (cm _)), mean_add ((cm _).const_smul _) (cm _), smul, mean_one,
      mean_mode (by norm_num), mean_mode (by norm_num)]
    congr 2
    norm_num
    ring
  · have h := C42_polynomial env (Polynomial.C 1 * Polynomial.X + Polynomial.C Complex.I) 0 1 1 env.defaults.nTrapz (by
      have := Polynomial.natDegree_linear_le (a := (1 : ℂ)) (b := Complex.I)
      simp only [Int.natAbs_one]
      omega)
    simp only [Polynomial.eval_mul, Polynomial.eval_C, Polynomial.eval_add, Polynomial.eval_X] at h
    rw [dflt, h, lockin_eq, wave_eq]
    have e : (mode (-1) * fun θ => 1 * ((0 + Real.cos θ * 1 : ℝ) : ℂ) + Complex.I) =
        (1 / 2 : ℂ) • mode 0 + ((1 / 2 : ℂ) • mode (-2) + Complex.I • mode (-1)) := by
      funext θ
      have m1 : mode (-1) θ * mode 1 θ = mode 0 θ := by
        rw [← Pi.mul_apply, mode_mul]
        rfl
      have m3 : mode (-1) θ * mode (-1) θ = mode (-2) θ := by
        rw [← Pi.mul_apply, mode_mul]
        rfl
      simp only [Pi.mul_apply, Pi.smul_apply, Pi.add_apply, smul_eq_mul, zero_add, mul_one, modes, ← m1, ← m3]
      ring
    rw [e, mean_add ((cm _).const_smul _) (((cm _).const_smul _).add ((cm _).const_smul _)),
      mean_add ((cm _).const_smul _) ((cm _).const_smul _), smul, smul, smul, mean_one, mean_mode (by norm_num),
      mean_mode (by norm_num)]
    congr 2
    norm_num
  · have h := demod_den env (fun x => pure (ofR x * .ok (⟨[1, 1, 1, 4], fun i => FP.num (i 3)⟩ : NDArray (FP ℂ))))
      (fun i x => pure (ofR x * (⟨[1, 1, 1, 4], fun i => FP.num (i 3)⟩ : NDArray (FP ℂ)).get i)) (sf := some [1, 1, 1, 4])
      (fun x sx X hx => DenM.ok (hx.ofR.cmul (Den.leaf _)))
      (Den.scalar (FP.num 1)) (Den.leaf (⟨[1, 2], fun i => FP.num (i 1)⟩ : NDArray (FP ℝ)))
      (Den.leaf (⟨[1, 1, 3], fun i => FP.num (i 2)⟩ : NDArray (FP ℝ))) none
    have es : (some [] ⊔ᵇ some [1, 2] ⊔ᵇ some [1, 1, 3] ⊔ᵇ some [1, 1, 1, 4] : Shape) = some [1, 2, 3, 4] := rfl
    rw [es] at h
    rcases h with ⟨e, _, he⟩ | ⟨A, g, h1, h2, _⟩
    · exfalso
      have h0 := he fun _ => 0
      have ef : (fun x : FP ℝ => (pure (ofR x * (⟨[1, 1, 1, 4], fun i => FP.num (i 3)⟩ : NDArray (FP ℂ)).get fun _ => 0) : PyM (FP ℂ))) =
          onFinite fun x => (x : ℂ) * 0 := by
        funext x
        cases x with
        | nan => rfl
        | num x =>
          refine congrArg Except.ok ((FP.num_mul _ _).trans ?_)
          simp [canon, FP.map]
      beta_reduce at h0
      rw [ef] at h0
      have h1 := demod_onFinite env (fun x => (x : ℂ) * 0) 1 (canon [1, 2] (fun _ => 0) 1 : ℕ) (canon [1, 1, 3] (fun _ => 0) 2 : ℕ) none
        (by simpa using (by omega : env.defaults.nTrapz ≠ 0))
      cases h0.symm.trans h1
    · exact ⟨A, h1, by rw [h2]; rfl⟩

theorem num_ne_of_im {z : ℂ} (h : z.im ≠ 0) : z ≠ 0 := fun h0 => h (by rw [h0]; rfl)

/-- Bulk silicon from permittivity and from reflection coefficient (`docs/guide/sample.rst:43-86`, `259-268`). -/
theorem C119_bulk (d : Defaults) (hd : d.epsEnv = 1) :
    ∃ (si si' : SampleObj) (A B A' B' r β : NDArray (FP ℂ)) (b : ℂ),
      SampleObj.bulk d (some (NDArray.scalar (FP.num 11.7))) none = .ok si ∧
      si.eps = some [A, B] ∧ A.rshape = [] ∧ B.rshape = [] ∧ (∀ i, A.get i = FP.num 1) ∧ (∀ i, B.get i = FP.num 11.7) ∧
      si.t = some [] ∧ si.multilayer = .ok false ∧
      si.betaStack = .ok [β] ∧ β.rshape = [] ∧ (∀ i, β.get i = FP.num b) ∧ ‖b - 0.84251969‖ ≤ 5e-9 ∧
      si.stack.reflCoefQs = .ok (.ok r) ∧ (∀ i, r.get i = FP.num b) ∧ ‖b - 0.84251968503937‖ ≤ 5e-15 ∧
      SampleObj.bulk d none (some (NDArray.scalar (FP.num b))) = .ok si' ∧
      si'.eps = some [A', B'] ∧ (∀ i, A'.get i = FP.num 1) ∧ ∀ i, B'.get i = FP.num 11.7 := by
  have dflt : ∀ e b, SampleObj.bulk d e b = SampleObj.bulk d e b (some (NDArray.scalar (FP.num 1))) := by
    intro e b
    unfold SampleObj.bulk
    rw [Option.getD_none, Option.getD_some, hd]
  have h := C91_eps d (NDArray.scalar (FP.num 11.7)) (some (NDArray.scalar (FP.num 1))) none
  obtain ⟨o, A, B, g1, g2, g3, g4, g5, g6, g7, g8⟩ := h
  obtain ⟨o₁, r, k1, k2, k3⟩ := (C91_refl d 1 none 0).1 11.7 (by norm_num) (by norm_num)
  have ho : o₁ = o := Except.ok.inj (k1.symm.trans g1)
  rw [ho] at k1 k2
  obtain ⟨o', A', B', l1, l2, l3, l4, l5, l6, l7, l8⟩ := C91_beta d (NDArray.scalar (FP.num ((11.7 - 1) / (11.7 + 1))))
    (NDArray.scalar (FP.num 1)) none (show bshape [] [] = some [] from rfl)
  have hd2 : Den (reflCoefQsSingle (.ok A) (.ok B) : CArr) (some []) (fun i => (B.get i - A.get i) / (B.get i + A.get i)) := by
    have := ((Den.leaf B).csub (Den.leaf A)).cdiv ((Den.leaf B).cadd (Den.leaf A))
    rw [g5, g6] at this
    exact this
  obtain ⟨β, b1, b2, b3⟩ := hd2
  refine ⟨o, o', A, B, A', B', r, β, (11.7 - 1) / (11.7 + 1), (dflt _ _).trans g1, g2, g5, g6, g8, g7, g3, ?_, ?_, b2, fun i => ?_, ?_, k2,
    k3, ?_, (dflt _ _).trans l1, l2, l7, fun i => ?_⟩
  · simp [SampleObj.multilayer, SampleObj.nLayers, g2]
  · simp only [SampleObj.betaStack, g2, List.dropLast_cons_cons, List.dropLast_singleton, List.tail_cons, List.zipWith_cons_cons,
      List.zipWith_nil_left, b1]
    rfl
  · rw [b3]
    beta_reduce
    rw [g7, g8]
    simp only [NDArray.get, NDArray.scalar]
    rw [FP.num_sub, FP.num_add, FP.num_div _ (by norm_num)]
  · rw [show ((11.7 - 1) / (11.7 + 1) - 0.84251969 : ℂ) = ((107 / 127 - 0.84251969 : ℝ) : ℂ) by push_cast; norm_num,
      Complex.norm_real, Real.norm_eq_abs, abs_le]
    constructor <;> norm_num
  · rw [show ((11.7 - 1) / (11.7 + 1) - 0.84251968503937 : ℂ) = ((107 / 127 - 0.84251968503937 : ℝ) : ℂ) by push_cast; norm_num,
      Complex.norm_real, Real.norm_eq_abs, abs_le]
    constructor <;> norm_num
  · rw [l8 i _ 1 rfl rfl (by norm_num)]
    norm_num

/-- Suspended silicon (`docs/guide/sample.rst:235-279`). -/
theorem C119_suspended (d : Defaults) :
    ∃ (o : SampleObj) (E : List (NDArray (FP ℂ))) (T : List (NDArray (FP ℝ))) (b b' : NDArray (FP ℂ)) (x : ℂ),
      SampleObj.init d { eps := some (.items ([FP.num 1, FP.num 11.7, FP.num 1].map NDArray.scalar)),
                         t := some (.items ([FP.num 1e-7].map NDArray.scalar)) } = .ok o ∧
      o.eps = some E ∧ o.t = some T ∧ (∀ i, E.map (·.get i) = [FP.num 1, FP.num 11.7, FP.num 1]) ∧
      (∀ i, T.map (·.get i) = [FP.num 1e-7]) ∧ o.multilayer = .ok true ∧ o.betaStack = .ok [b, b'] ∧
      (∀ i, b.get i = FP.num x) ∧ (∀ i, b'.get i = FP.num (-x)) ∧ ‖x - 0.84251969‖ ≤ 5e-9 := by
  obtain ⟨o, E, T, h1, h2, h3, h4, h5, h6, h7⟩ := init_scalars d (eps := [FP.num 1, FP.num 11.7, FP.num 1]) (t := [FP.num 1e-7]) rfl none
  have hl : E.length = 3 := by
    have := congrArg List.length (h4 fun _ => 0)
    simpa using this
  obtain ⟨A, B, C, rfl⟩ := List.length_eq_three.1 hl
  have hE : ∀ i, A.get i = FP.num 1 ∧ B.get i = FP.num 11.7 ∧ C.get i = FP.num 1 := fun i => by simpa using h4 i
  have sh : ∀ X ∈ [A, B, C], X.rshape = [] := fun X hX => h6.1 X hX
  have den : ∀ X ∈ [A, B, C], ∀ Y ∈ [A, B, C], Den (reflCoefQsSingle (.ok X) (.ok Y) : CArr) (some [])
      (fun i => (Y.get i - X.get i) / (Y.get i + X.get i)) := by
    intro X hX Y hY
    have := ((Den.leaf Y).csub (Den.leaf X)).cdiv ((Den.leaf Y).cadd (Den.leaf X))
    rw [sh X hX, sh Y hY] at this
    exact this
  obtain ⟨b, b1, b2, b3⟩ := den A (by simp) B (by simp)
  obtain ⟨b', c1, c2, c3⟩ := den B (by simp) C (by simp)
  refine ⟨o, _, T, b, b', 107 / 127, h1, h2, h3, h4, h5, ?_, ?_, fun i => ?_, fun i => ?_, ?_⟩
  · simp [SampleObj.multilayer, SampleObj.nLayers, h2]
  · simp only [SampleObj.betaStack, h2, List.dropLast_cons_cons, List.dropLast_singleton, List.tail_cons, List.zipWith_cons_cons,
      List.zipWith_nil_left, b1, c1]
    rfl
  · rw [b3]
    beta_reduce
    rw [(hE i).1, (hE i).2.1, FP.num_sub, FP.num_add, FP.num_div _ (by norm_num)]
    norm_num
  · rw [c3]
    beta_reduce
    rw [(hE i).2.1, (hE i).2.2, FP.num_sub, FP.num_add, FP.num_div _ (by norm_num)]
    norm_num
  · rw [show (107 / 127 - 0.84251969 : ℂ) = ((107 / 127 - 0.84251969 : ℝ) : ℂ) by push_cast; norm_num,
      Complex.norm_real, Real.norm_eq_abs, abs_le]
    constructor <;> norm_num

/-- The far-field factor of silicon (`docs/guide/far-field.rst:83-108`): the documentation shows `1.173379279716862`, but the code gives
`1.56…`; the number shown is the one for `c_r = 0.3` in place of `c_r = 0.9`. -/
theorem C119_far : ∃ r : ℝ,
    (bulk 1 11.7).reflCoef { thetaIn := some (FP.num (60 * (Real.pi / 180))) } = .ok (FP.num (r : ℂ)) ∧
    1.5616 < (1 + 0.9 * r) ^ 2 ∧ (1 + 0.9 * r) ^ 2 < 1.5617 ∧ |(1 + 0.3 * r) ^ 2 - 1.173379279716862| < 1e-14 := by
  have e60 : 60 * (Real.pi / 180) = Real.pi / 3 := by ring
  have hs : Real.sin |Real.pi / 3| ^ 2 = 3 / 4 := by
    rw [abs_of_pos (by positivity), Real.sin_pi_div_three, div_pow, Real.sq_sqrt (by norm_num)]
    norm_num
  have h1 := (farCoefs_congr (C25_angle_default 1 11.7 (Real.pi / 3) 1 "p" one_pos)).1
  have h2 := (farCoefs_congr (transferMatrix_atAngle (bulk 1 11.7) (Real.pi / 3) 1 "p")).1
  have h3 := bulk_p 1 11.7 none 1 (1 * Real.sin |Real.pi / 3|) (by rw [one_mul, hs]; norm_num) (by rw [one_mul, hs]; norm_num)
  rw [one_mul, hs] at h3
  have e4 : √(1 * 1 ^ 2 - 3 / 4 : ℝ) = 1 / 2 := by
    rw [show (1 * 1 ^ 2 - 3 / 4 : ℝ) = (1 / 2) ^ 2 by norm_num, Real.sqrt_sq (by norm_num)]
  rw [e4] at h3
  push_cast at h3
  have b1 : (3.30907842155485 : ℝ) < √(11.7 * 1 ^ 2 - 3 / 4) := Real.lt_sqrt_of_sq_lt (by norm_num)
  have b2 : √(11.7 * 1 ^ 2 - 3 / 4 : ℝ) < 3.30907842155487 := (Real.sqrt_lt' (by norm_num)).2 (by norm_num)
  generalize √(11.7 * 1 ^ 2 - 3 / 4 : ℝ) = s at *
  refine ⟨(11.7 * (1 / 2) - 1 * s) / (11.7 * (1 / 2) + 1 * s), ?_, ?_⟩
  · rw [e60, h1, h2, one_mul]
    convert h3 using 3
    push_cast
    norm_num
  have hden : 0 < 11.7 * (1 / 2) + 1 * s := by linarith
  set r := (11.7 * (1 / 2) - 1 * s) / (11.7 * (1 / 2) + 1 * s) with hr
  have r1 : 0.27742109647902 < r := by
    rw [hr, lt_div_iff₀ hden]
    linarith
  have r2 : r < 0.27742109647904 := by
    rw [hr, div_lt_iff₀ hden]
    linarith
  refine ⟨by nlinarith, by nlinarith, ?_⟩
  rw [abs_lt]
  constructor <;> nlinarith

/-- `lorentz_perm` with `A_j` is elementwise. -/
theorem lorentzPerm_elementwise {nu nuJ gamma A f : RArr} {e : CArr} {s1 s2 s3 s4 s5 : Shape} {NU NJ G AA : (ℕ → ℕ) → FP ℝ} {E : (ℕ → ℕ) → FP ℂ}
    (h1 : Den nu s1 NU) (h2 : Den nuJ s2 NJ) (h3 : Den gamma s3 G) (h4 : Den A s4 AA) (h5 : Den e s5 E) :
    DenM (lorentzPerm (C := CArr) nu nuJ gamma (some A) none f e) (s1 ⊔ᵇ s2 ⊔ᵇ s3 ⊔ᵇ s4 ⊔ᵇ s5)
      (fun i => lorentzPerm (NU i) (NJ i) (G i) (some (AA i)) none (lit 1) (E i)) := by
  refine DenM.ok ((h5.cadd (h4.ofR.cdiv (((h2.npow 2).rsub (h1.npow 2)).ofR.csub
    (((Den.clit Complex.I).cmul h3.ofR).cmul h1.ofR)))).congr ?_ fun i => rfl)
  simp only [Shape.unit_join]
  shape_ac

/-- `np.linspace(1680, 1800, 128) * 1e2`. -/
noncomputable def pmmaNu : List ℝ := (List.range 128).map fun k : ℕ => (1680 + k * ((1800 - 1680) / 127)) * 100

/-- `eps_pmma` of `docs/guide/sample.rst:101-109`, with the oscillator strength `A`. -/
noncomputable def pmmaPerm (A : ℝ) : PyM CArr :=
  lorentzPerm (C := CArr) (.ok (Examples.axis0 pmmaNu)) (lit 1738e2) (lit 20e2) (some (lit A)) none (epsInf := clit 2)

theorem pmma_den (A : ℝ) : ∃ X : NDArray (FP ℂ), pmmaPerm A = .ok (.ok X) ∧ X.rshape = [128] ∧
    ∀ k < 128, X.get (atPos 0 k) = FP.num (2 + A / ((1738e2 : ℝ) ^ 2 - (((1680 + k * ((1800 - 1680) / 127)) * 100 : ℝ) : ℂ) ^ 2 -
      Complex.I * (20e2 : ℝ) * ((1680 + k * ((1800 - 1680) / 127)) * 100 : ℝ))) := by
  have h := lorentzPerm_elementwise (f := lit 1) (Den.leaf (Examples.axis0 pmmaNu)) (Den.lit 1738e2) (Den.lit 20e2) (Den.lit A) (Den.clit 2)
  have es : (some (Examples.axis0 pmmaNu).rshape ⊔ᵇ some [] ⊔ᵇ some [] ⊔ᵇ some [] ⊔ᵇ some [] : Shape) = some [128] := by
    simp [Examples.axis0, NDArray.padFront, pmmaNu]
  rw [es] at h
  have hv : ∀ k < 128, (Examples.axis0 pmmaNu).get (atPos 0 k) = FP.num (((1680 + k * ((1800 - 1680) / 127)) * 100 : ℝ)) := by
    intro k hk
    simp [Examples.axis0, NDArray.padFront, pmmaNu, NDArray.get, canon, dimAt, atPos, hk]
  have hk : ∀ k < 128, lorentzPerm ((Examples.axis0 pmmaNu).get (atPos 0 k)) (lit 1738e2) (lit 20e2) (some (lit A)) none (lit 1) (clit 2) =
      .ok (FP.num (2 + A / ((1738e2 : ℝ) ^ 2 - (((1680 + k * ((1800 - 1680) / 127)) * 100 : ℝ) : ℂ) ^ 2 -
      Complex.I * (20e2 : ℝ) * ((1680 + k * ((1800 - 1680) / 127)) * 100 : ℝ)))) := by
    intro k hk
    rw [hv k hk]
    refine C55_lorentz _ _ _ _ _ _ (num_ne_of_im ?_)
    rw [← Complex.ofReal_pow, ← Complex.ofReal_pow, ← Complex.ofReal_sub, mul_assoc, ← Complex.ofReal_mul]
    have : (0 : ℝ) < 20e2 * ((1680 + k * ((1800 - 1680) / 127)) * 100) := by positivity
    simp only [Complex.sub_im, Complex.ofReal_im, Complex.mul_im, Complex.I_re, Complex.I_im, Complex.ofReal_re]
    intro h0
    linarith
  rcases h with ⟨e, _, he⟩ | ⟨X, g, h1, h2, h3⟩
  · have := he (atPos 0 0)
    beta_reduce at this
    rw [hk 0 (by norm_num)] at this
    cases this
  · refine ⟨X, h1, h2, fun k hk' => ?_⟩
    rw [(h3 _).2]
    exact (Except.ok.inj ((hk k hk').symm.trans (h3 _).1)).symm

/-- The value of `eps_pmma` at the index `k`. -/
noncomputable def pmmaAt (A : ℝ) (k : ℕ) : ℂ :=
  2 + A / ((1738e2 : ℝ) ^ 2 - (((1680 + k * ((1800 - 1680) / 127)) * 100 : ℝ) : ℂ) ^ 2 -
    Complex.I * (20e2 : ℝ) * ((1680 + k * ((1800 - 1680) / 127)) * 100 : ℝ))

theorem pmmaAt_eq (A : ℝ) (k : ℕ) (ν d : ℝ) (hν : ν = (1680 + k * ((1800 - 1680) / 127)) * 100)
    (hd : d = ((1738e2 : ℝ) ^ 2 - ν ^ 2) ^ 2 + (20e2 * ν) ^ 2) :
    pmmaAt A k = ⟨2 + A * ((1738e2 : ℝ) ^ 2 - ν ^ 2) / d, A * (20e2 * ν) / d⟩ := by
  unfold pmmaAt
  rw [← hν]
  have e : ((1738e2 : ℝ) : ℂ) ^ 2 - (ν : ℂ) ^ 2 - Complex.I * (20e2 : ℝ) * (ν : ℂ) = ⟨(1738e2 : ℝ) ^ 2 - ν ^ 2, -(20e2 * ν)⟩ := by
    rw [← Complex.ofReal_pow, ← Complex.ofReal_pow]
    apply Complex.ext <;> simp only [Complex.sub_re, Complex.sub_im, Complex.mul_re, Complex.mul_im, Complex.ofReal_re, Complex.ofReal_im,
      Complex.I_re, Complex.I_im] <;> ring
  have n : Complex.normSq ⟨(1738e2 : ℝ) ^ 2 - ν ^ 2, -(20e2 * ν)⟩ = d := by
    rw [hd]
    simp only [Complex.normSq_mk]
    ring
  rw [e]
  apply Complex.ext
  · rw [Complex.add_re, Complex.div_re, n]
    simp
  · rw [Complex.add_im, Complex.div_im, n]
    simp
    ring

/-- The permittivities that `docs/guide/sample.rst:155-159` shows. -/
noncomputable def pmmaDoc : List ℂ := [⟨2.20736131, 0.03514527⟩, ⟨2.21053732, 0.03628489⟩, ⟨2.21381045, 0.03748023⟩, ⟨2.21718504, 0.03873494⟩]

/-- Bulk PMMA (`docs/guide/sample.rst:98-160`).  The shapes are as shown, but the four values shown are not those of the oscillator strength
`4.2e8` of the example: they are those of `0.014 * 1738e2**2`. -/
theorem C119_pmma (d : Defaults) (hd : d.epsEnv = 1) :
    ∃ (X : NDArray (FP ℂ)) (o : SampleObj) (A B : NDArray (FP ℂ)),
      pmmaPerm 4.2e8 = .ok (.ok X) ∧
      SampleObj.bulk d (some X) none (nuVac := some (Examples.axis0 pmmaNu)) = .ok o ∧ o.eps = some [A, B] ∧
      A.rshape = [128] ∧ B.rshape = [128] ∧ (∀ i, A.get i = FP.num 1) ∧
      (∀ k < 128, B.get (atPos 0 k) = FP.num (pmmaAt 4.2e8 k)) ∧
      (∀ k < 4, 1e-3 < ‖pmmaAt 4.2e8 k - pmmaDoc.getD k 0‖) ∧
      ∀ k < 4, |(pmmaAt (0.014 * 1738e2 ^ 2) k - pmmaDoc.getD k 0).re| ≤ 5e-9 ∧
        |(pmmaAt (0.014 * 1738e2 ^ 2) k - pmmaDoc.getD k 0).im| ≤ 5e-9 := by
  obtain ⟨X, h1, h2, h3⟩ := pmma_den 4.2e8
  have h := C91_eps d X none (some (Examples.axis0 pmmaNu))
  rw [h2] at h
  obtain ⟨o, A, B, g1, g2, g3, g4, g5, g6, g7, g8⟩ := h
  refine ⟨X, o, A, B, h1, g1, g2, g5, g6, fun i => ?_, fun k hk => ?_, fun k hk => ?_, fun k hk => ?_⟩
  · rw [g8, hd]
  · rw [g7, h3 k hk, pmmaAt]
  · refine lt_of_lt_of_le ?_ (Complex.abs_re_le_norm _)
    rw [pmmaAt_eq 4.2e8 k _ _ rfl rfl]
    interval_cases k <;> simp only [pmmaDoc, List.getD_cons_zero, List.getD_cons_succ, Complex.sub_re] <;> rw [lt_abs] <;> right <;> norm_num
  · rw [pmmaAt_eq _ k _ _ rfl rfl]
    interval_cases k <;> simp only [pmmaDoc, List.getD_cons_zero, List.getD_cons_succ, Complex.sub_re, Complex.sub_im] <;>
      constructor <;> rw [abs_le] <;> constructor <;> norm_num

example : ∃ d : Defaults, d.epsEnv = 1 ∧ 4 < d.nTrapz := ⟨Defaults.initial, by norm_num [Defaults.initial], by norm_num [Defaults.initial]⟩

end Snompy.Props
