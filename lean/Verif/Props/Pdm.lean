import Verif.Lemmas.Pdm
import Verif.Props.Quasistatic
import Verif.Spec.Limit
import Mathlib.Analysis.Normed.Field.Lemmas

/-!
# C34, C35 (PDM), C37 (PDM), C38 (PDM), C39, C40, C41, C46 (PDM): the point dipole model

`tip r α` gives the radius and the polarizability explicitly; C40 reduces every other way of giving
the tip to this one.  The reflection coefficient `β` is that of any sample.
-/

namespace Snompy.Props

open Snompy Filter Topology

/-- `r_tip=r, alpha_tip=α`. -/
def tip (r : ℝ) (α : ℂ) : PdmArgs (FP ℝ) (FP ℂ) := ⟨some (FP.num r), none, some (FP.num α)⟩

theorem pdm_tip (env : Env) (r : ℝ) (α : ℂ) :
    env.defaults.pdm (tip r α) = .ok (FP.num r, FP.num α) := rfl

/-! ## C40 Tip polarizability resolution -/

section C40
variable (env : Env) (s : Stack (FP ℝ) (FP ℂ)) (rT : Option ℝ) (z : Option (FP ℝ)) (A n : FP ℝ)
  (nT nJ : Option ℕ) (αeff : FP ℂ)

/-- The two argument sets `a` and `a'` give the same result in every function of `pdm.py`. -/
def SameTip (a a' : PdmArgs (FP ℝ) (FP ℂ)) : Prop :=
  Pdm.effPol env s z a = Pdm.effPol env s z a' ∧
  Pdm.effPolN env s A n z nT a = Pdm.effPolN env s A n z nT a' ∧
  Pdm.effPolNTaylor env s A n z a nT nJ = Pdm.effPolNTaylor env s A n z a' nT nJ ∧
  Pdm.reflCoefQsFromEffPol env αeff z a = Pdm.reflCoefQsFromEffPol env αeff z a'

theorem sameTip_of {a a' : PdmArgs (FP ℝ) (FP ℂ)} (h : env.defaults.pdm a = env.defaults.pdm a') :
    SameTip env s z A n nT nJ αeff a a' := by
  unfold SameTip Pdm.effPolN Pdm.effPol Pdm.effPolNTaylor Pdm.reflCoefQsFromEffPol
  simp only [h, and_self]

/-- The radius: the argument or the default. -/
theorem C40_radius (α : ℂ) :
    SameTip env s z A n nT nJ αeff ⟨rT.map FP.num, none, some (FP.num α)⟩
      (tip (rT.getD env.defaults.rTip) α) := by
  apply sameTip_of
  cases rT <;> rfl

theorem C40_conductor :
    SameTip env s z A n nT nJ αeff ⟨rT.map FP.num, none, none⟩
      (tip (rT.getD env.defaults.rTip) (4 * Real.pi * (rT.getD env.defaults.rTip) ^ 3)) := by
  apply sameTip_of
  cases rT <;> simp [Defaults.pdm, tip, slit, snpow, sofR]

theorem C40_dielectric (eps : ℂ) (h : eps ≠ -2) :
    SameTip env s z A n nT nJ αeff ⟨rT.map FP.num, some (FP.num eps), none⟩
      (tip (rT.getD env.defaults.rTip)
        (4 * Real.pi * (rT.getD env.defaults.rTip) ^ 3 * (eps - 1) / (eps + 2))) := by
  apply sameTip_of
  have h2 : eps + 2 ≠ 0 := fun h0 => h (eq_neg_of_add_eq_zero_left h0)
  cases rT <;> simp [Defaults.pdm, tip, slit, snpow, sofR, sclit, FP.num_div _ h2]

/-- Both: `ValueError` from every function (the docstring says `eps_tip` is ignored). -/
theorem C40_both (a : PdmArgs (FP ℝ) (FP ℂ)) (h1 : a.epsTip.isSome) (h2 : a.alphaTip.isSome) :
    ∃ m, Pdm.effPol env s z a = .error (.valueError m) ∧
      Pdm.effPolN env s A n z nT a = .error (.valueError m) ∧
      Pdm.effPolNTaylor env s A n z a nT nJ = .error (.valueError m) ∧
      Pdm.reflCoefQsFromEffPol env αeff z a = .error (.valueError m) := by
  obtain ⟨r, e, al⟩ := a
  obtain ⟨e, rfl⟩ := Option.isSome_iff_exists.1 h1
  obtain ⟨al, rfl⟩ := Option.isSome_iff_exists.1 h2
  exact ⟨"Either `alpha_tip` or `eps_tip` must be None.", rfl, rfl, rfl, rfl⟩

example := C40_both env s z A n nT nJ αeff ⟨none, some (FP.num 2), some (FP.num 3)⟩ rfl rfl

end C40

/-! ## C34 PDM inversion is the inverse of the PDM -/

theorem C34_left (env : Env) (s : Stack (FP ℝ) (FP ℂ)) (z r : ℝ) (α β : ℂ)
    (hβ : s.reflCoefQs = .ok (FP.num β)) (hrz : r + z ≠ 0) (hα : α ≠ 0)
    (hd : α * β ≠ 16 * Real.pi * (r + z) ^ 3) :
    (Pdm.effPol env s (some (FP.num z)) (tip r α) >>= fun αeff =>
      Pdm.reflCoefQsFromEffPol env αeff (some (FP.num z)) (tip r α)) = .ok (FP.num β) := by
  have hf := Pdm.geom_ne_zero hrz hα
  have hpi : (Real.pi : ℂ) ≠ 0 := by exact_mod_cast Real.pi_ne_zero
  have hrzc : (r + z : ℂ) ≠ 0 := by exact_mod_cast hrz
  have h1 : 1 - Pdm.geom z r α * β ≠ 0 := by
    intro h0
    apply hd
    unfold Pdm.geom at h0
    field_simp at h0
    linear_combination -h0
  rw [Pdm.effPol_val env s _ z r α β (pdm_tip env r α) hβ hrz h1, PyM.ok_bind]
  unfold Pdm.reflCoefQsFromEffPol
  rw [pdm_tip, PyM.ok_bind]
  simp only [Option.getD_some, Pdm.geomFunc_num hrz, FP.num_mul, FP.num_sub]
  generalize Pdm.geom z r α = f at *
  rw [FP.num_div _ (mul_ne_zero hf (div_ne_zero hα h1))]
  simp only [PyM.pure_eq_ok]
  congr 2
  field_simp
  ring

example (env : Env) := C34_left env (bulk 1 2) 0 1 1 (1 / 3)
  (by rw [C09_refl 1 2 none _ two_ne_zero (by norm_num)]; norm_num) (by norm_num) one_ne_zero
  (by
    intro h
    push_cast at h
    have h3 : (1 / 3 : ℝ) = 16 * Real.pi :=
      Complex.ofReal_injective (by push_cast; linear_combination h)
    have := Real.two_le_pi
    linarith)

theorem C34_right (env : Env) (z r : ℝ) (α αeff : ℂ) (hrz : r + z ≠ 0) (hα : α ≠ 0) (he : αeff ≠ 0) :
    ∃ β, Pdm.reflCoefQsFromEffPol env (FP.num αeff) (some (FP.num z)) (tip r α) = .ok (FP.num β) ∧
      ∀ s : Stack (FP ℝ) (FP ℂ), s.reflCoefQs = .ok (FP.num β) →
        Pdm.effPol env s (some (FP.num z)) (tip r α) = .ok (FP.num αeff) := by
  have hf := Pdm.geom_ne_zero hrz hα
  refine ⟨(αeff - α) / (Pdm.geom z r α * αeff), ?_, fun s hβ => ?_⟩
  · unfold Pdm.reflCoefQsFromEffPol
    rw [pdm_tip, PyM.ok_bind]
    simp only [Option.getD_some, Pdm.geomFunc_num hrz, FP.num_mul, FP.num_sub]
    rw [FP.num_div _ (mul_ne_zero hf he)]
    rfl
  · have h1 : 1 - Pdm.geom z r α * ((αeff - α) / (Pdm.geom z r α * αeff)) = α / αeff := by
      field_simp
      ring
    rw [Pdm.effPol_val env s _ z r α _ (pdm_tip env r α) hβ hrz (by rw [h1]; exact div_ne_zero hα he),
      h1]
    congr 2
    field_simp

/-- A sample with the recovered coefficient exists unless it is ±1: here `eps = (1 + β)/(1 - β)`. -/
example (env : Env) := C34_right env 0 1 1 2 (by norm_num) one_ne_zero two_ne_zero

/-! ## C35 Length units do not matter -/

/-- The layers with all thicknesses in another unit. -/
def rescale (c : ℝ) (L : List (ℂ × ℝ)) : List (ℂ × ℝ) := L.map fun l => (l.1, c * l.2)

theorem rescale_refl (c : ℝ) (hc : c ≠ 0) (e : ℂ) (L : List (ℂ × ℝ)) (sub : ℂ) (nu : Option ℝ) (q : ℝ) :
    (layered e (rescale c L) sub nu).reflCoefQs (FP.num (q / c)) =
      (layered e L sub nu).reflCoefQs (FP.num q) := by
  have h := C18_scale_q (1 / c) e L sub nu q (one_div_ne_zero hc)
  have h1 : L.map (fun l => (l.1, l.2 / (1 / c))) = rescale c L := by
    unfold rescale
    refine List.map_congr_left fun l _ => ?_
    rw [div_div_eq_mul_div, div_one, mul_comm]
  rw [h1, one_div_mul_eq_div] at h
  exact (coefs_congr h).1

theorem rescale_refl_zero (c : ℝ) (hc : c ≠ 0) (e : ℂ) (L : List (ℂ × ℝ)) (sub : ℂ) (nu : Option ℝ) :
    (layered e (rescale c L) sub nu).reflCoefQs = (layered e L sub nu).reflCoefQs := by
  have := rescale_refl c hc e L sub nu 0
  rwa [zero_div] at this

/-- In units `1/c` the derived polarizability, and with it `eff_pol`, is `c³` times as large. -/
theorem C35_pdm (env : Env) (e : ℂ) (L : List (ℂ × ℝ)) (sub : ℂ) (nu : Option ℝ) (c : ℝ) (hc : 0 < c)
    (z r : ℝ) (epsTip : Option (FP ℂ)) :
    Pdm.effPol env (layered e (rescale c L) sub nu) (some (FP.num (c * z)))
        ⟨some (FP.num (c * r)), epsTip, none⟩ =
      Pdm.effPol env (layered e L sub nu) (some (FP.num z)) ⟨some (FP.num r), epsTip, none⟩ >>=
        fun v => .ok (FP.num ((c : ℂ) ^ 3) * v) := by
  have hcc : (c : ℂ) ≠ 0 := by exact_mod_cast hc.ne'
  have hpi : (Real.pi : ℂ) ≠ 0 := by exact_mod_cast Real.pi_ne_zero
  have hα : ∃ α : FP ℂ, env.defaults.pdm ⟨some (FP.num r), epsTip, none⟩ = .ok (FP.num r, α) ∧
      env.defaults.pdm ⟨some (FP.num (c * r)), epsTip, none⟩ =
        .ok (FP.num (c * r), FP.num ((c : ℂ) ^ 3) * α) := by
    cases epsTip with
    | none =>
      refine ⟨_, rfl, ?_⟩
      simp only [Defaults.pdm, Option.getD_some, slit, snpow, FP.num_mul, sofR]
      congr 3
      push_cast
      ring
    | some eps =>
      refine ⟨_, rfl, ?_⟩
      simp only [Defaults.pdm, Option.getD_some, slit, snpow, FP.num_mul, sofR, sclit]
      congr 2
      rw [← FP.num_mul_div]
      congr 1
      cases eps with
      | nan => simp
      | num eps =>
        simp only [FP.num_sub, FP.num_mul]
        congr 1
        push_cast
        ring
  obtain ⟨α, h1, h2⟩ := hα
  unfold Pdm.effPol
  rw [h1, h2, PyM.ok_bind, PyM.ok_bind, rescale_refl_zero c hc.ne']
  simp only
  cases (layered e L sub nu).reflCoefQs with
  | error m => rfl
  | ok β =>
    simp only [PyM.ok_bind, PyM.pure_eq_ok, Option.getD_some]
    rw [FP.num_mul_div]
    congr 3
    unfold Pdm.geomFunc
    simp only [slit, FP.num_mul, FP.num_add, snpow, sofR]
    congr 2
    cases α with
    | nan => simp
    | num α =>
      rw [FP.num_mul, FP.num_div_eq, FP.num_div_eq]
      have h3 : ((16 * Real.pi * (c * r + c * z) ^ 3 : ℝ) : ℂ) =
          (c : ℂ) ^ 3 * ((16 * Real.pi * (r + z) ^ 3 : ℝ) : ℂ) := by push_cast; ring
      rw [h3]
      simp only [mul_eq_zero, hcc, ne_eq, OfNat.ofNat_ne_zero, not_false_eq_true, pow_eq_zero_iff,
        false_or]
      rw [mul_div_mul_left _ _ (pow_ne_zero 3 hcc)]

example (env : Env) := C35_pdm env 1 [(2, 3)] 4 none 1e9 (by norm_num) 1e-9 2e-8 none

theorem C35_pdm_n (env : Env) (e : ℂ) (L : List (ℂ × ℝ)) (sub : ℂ) (nu : Option ℝ) (c : ℝ) (hc : 0 < c)
    (z r A : ℝ) (n : FP ℝ) (nT : Option ℕ) (epsTip : Option (FP ℂ)) :
    Pdm.effPolN env (layered e (rescale c L) sub nu) (FP.num (c * A)) n (some (FP.num (c * z))) nT
        ⟨some (FP.num (c * r)), epsTip, none⟩ =
      Pdm.effPolN env (layered e L sub nu) (FP.num A) n (some (FP.num z)) nT
          ⟨some (FP.num r), epsTip, none⟩ >>=
        fun v => .ok (FP.num ((c : ℂ) ^ 3) * v) := by
  unfold Pdm.effPolN
  simp only [Option.getD_some, FP.num_add]
  rw [← mul_add]
  exact demod_scale env _ _ c _ (z + A) A n nT fun x => C35_pdm env e L sub nu c hc x r epsTip

example (env : Env) := C35_pdm_n env 1 [(2, 3)] 4 none 1e9 (by norm_num) 1e-9 2e-8 5e-8 (FP.num 2)
  none none

/-! ## C37 A sample identical to the environment gives no signal -/

theorem C37_pdm (env : Env) (e : ℂ) (nu : Option ℝ) (z r : ℝ) (α : ℂ) (he : e ≠ 0)
    (hrz : r + z ≠ 0) :
    Pdm.effPol env (bulk e e nu) (some (FP.num z)) (tip r α) = .ok (FP.num α) := by
  have hβ : (bulk e e nu).reflCoefQs = .ok (FP.num 0) := by
    rw [C09_refl e e nu _ he (by rw [← two_mul]; exact mul_ne_zero two_ne_zero he)]
    simp
  rw [Pdm.effPol_val env _ _ z r α 0 (pdm_tip env r α) hβ hrz (by simp)]
  simp

example (env : Env) := C37_pdm env 1 none 0 1 5 one_ne_zero (by norm_num)

/-- Hence nothing at the harmonics. -/
theorem C37_pdm_n (env : Env) (e : ℂ) (nu : Option ℝ) (z r A : ℝ) (α : ℂ) (n : ℤ) (N : ℕ) (he : e ≠ 0)
    (hr : 0 < r) (hz : 0 ≤ z) (hA : 0 ≤ A) (hN : N ≠ 0) (hn : ¬ (N : ℤ) ∣ n) :
    Pdm.effPolN env (bulk e e nu) (FP.num A) (FP.num n) (some (FP.num z)) (some N) (tip r α) =
      .ok (FP.num 0) := by
  unfold Pdm.effPolN
  simp only [Option.getD_some, FP.num_add]
  rw [demod_ext env _ (onFinite fun _ => α) (z + A) hA _ _ fun x h1 h2 =>
    C37_pdm env e nu x r α he (by linarith), demod_onFinite env _ _ _ _ (some N) hN, Option.getD_some,
    demodSum_mean _ _ _ n hN]
  have hc : (mode (-n) * fun _ => α : ℝ → ℂ) = α • mode (-n) := by
    funext θ
    simp [mul_comm]
  rw [hc, meanN_smul, meanN_mode hN (by rwa [dvd_neg]), mul_zero]

example (env : Env) := C37_pdm_n env 1 none 0 1 2 5 3 8 one_ne_zero one_pos le_rfl (by norm_num)
  (by norm_num) (by norm_num)

/-! ## C38 A retracted tip sees no sample -/

theorem C38_pdm (env : Env) (s : Stack (FP ℝ) (FP ℂ)) (r : ℝ) (α β : ℂ)
    (hβ : s.reflCoefQs = .ok (FP.num β)) :
    EvalTendsto (fun z : ℝ => Pdm.effPol env s (some (FP.num z)) (tip r α)) atTop α := by
  have hf : Tendsto (fun z : ℝ => Pdm.geom z r α) atTop (𝓝 0) := by
    unfold Pdm.geom
    rw [tendsto_zero_iff_norm_tendsto_zero]
    have h1 : ∀ z : ℝ, ‖α / (16 * Real.pi * (r + z) ^ 3 : ℂ)‖ = ‖α‖ / (16 * Real.pi * |r + z| ^ 3) := by
      intro z
      rw [norm_div, norm_mul, norm_mul, norm_pow, Complex.norm_ofNat, Complex.norm_real,
        ← Complex.ofReal_add, Complex.norm_real, Real.norm_eq_abs, Real.norm_eq_abs,
        abs_of_pos Real.pi_pos]
    simp only [h1]
    refine Tendsto.div_atTop tendsto_const_nhds (Tendsto.const_mul_atTop (by positivity) ?_)
    exact (tendsto_pow_atTop (by norm_num)).comp
      (tendsto_abs_atTop_atTop.comp (tendsto_atTop_add_const_left _ r tendsto_id))
  have hd : Tendsto (fun z : ℝ => 1 - Pdm.geom z r α * β) atTop (𝓝 1) := by
    simpa using (hf.mul_const β).const_sub 1
  refine ⟨fun z => α / (1 - Pdm.geom z r α * β), ?_, ?_⟩
  · filter_upwards [eventually_gt_atTop (-r), hd.eventually_ne one_ne_zero] with z h1 h2
    exact Pdm.effPol_val env s _ z r α β (pdm_tip env r α) hβ (by linarith) h2
  · have : Tendsto (fun z : ℝ => α / (1 - Pdm.geom z r α * β)) atTop (𝓝 (α / 1)) :=
      Tendsto.div tendsto_const_nhds hd one_ne_zero
    rwa [div_one] at this

example (env : Env) := C38_pdm env (bulk 1 2) 1 5 _ (C09_refl 1 2 none _ two_ne_zero (by norm_num))

/-! ## C39 The PDM approach curve decays -/

/-- The perfectly conducting sphere. -/
noncomputable def conductor (r : ℝ) : PdmArgs (FP ℝ) (FP ℂ) := ⟨some (FP.num r), none, none⟩

theorem pdm_conductor (env : Env) (r : ℝ) :
    env.defaults.pdm (conductor r) = .ok (FP.num r, FP.num ((4 * Real.pi * r ^ 3 : ℝ) : ℂ)) := by
  simp [Defaults.pdm, conductor, slit, snpow, sofR]

theorem geom_conductor {r z : ℝ} (hr : 0 < r) (hz : 0 ≤ z) :
    Pdm.geom z r ((4 * Real.pi * r ^ 3 : ℝ) : ℂ) = ((r ^ 3 / (4 * (r + z) ^ 3) : ℝ) : ℂ) := by
  have hpi : (Real.pi : ℂ) ≠ 0 := by exact_mod_cast Real.pi_ne_zero
  have hrz : (r + z : ℂ) ≠ 0 := by exact_mod_cast (by positivity : r + z ≠ 0)
  unfold Pdm.geom
  push_cast
  field_simp
  ring

theorem C39_bound (env : Env) (s : Stack (FP ℝ) (FP ℂ)) (z r : ℝ) (β : ℂ) (hr : 0 < r) (hz : 0 ≤ z)
    (hβ : s.reflCoefQs = .ok (FP.num β)) (hb : ‖β‖ < 4) :
    ∃ v, Pdm.effPol env s (some (FP.num z)) (conductor r) = .ok (FP.num v) ∧
      ‖v‖ ≤ 4 * Real.pi * r ^ 3 / (1 - ‖β‖ / 4) := by
  have hrz : 0 < r + z := by linarith
  have hf : r ^ 3 / (4 * (r + z) ^ 3) ≤ 1 / 4 := by
    rw [div_le_div_iff₀ (by positivity) (by norm_num)]
    have : r ^ 3 ≤ (r + z) ^ 3 := pow_le_pow_left₀ hr.le (by linarith) 3
    linarith
  have hf0 : 0 ≤ r ^ 3 / (4 * (r + z) ^ 3) := by positivity
  have hn : 1 - ‖β‖ / 4 ≤ ‖1 - ((r ^ 3 / (4 * (r + z) ^ 3) : ℝ) : ℂ) * β‖ := by
    have h1 := norm_sub_norm_le (1 : ℂ) (((r ^ 3 / (4 * (r + z) ^ 3) : ℝ) : ℂ) * β)
    rw [norm_one, norm_mul, Complex.norm_real, Real.norm_of_nonneg hf0] at h1
    have := mul_le_mul_of_nonneg_right hf (norm_nonneg β)
    linarith
  have hpos : 0 < 1 - ‖β‖ / 4 := by linarith
  have h1 : 1 - Pdm.geom z r ((4 * Real.pi * r ^ 3 : ℝ) : ℂ) * β ≠ 0 := by
    rw [geom_conductor hr hz, ← norm_pos_iff]
    linarith
  refine ⟨_, Pdm.effPol_val env s _ z r _ β (pdm_conductor env r) hβ hrz.ne' h1, ?_⟩
  rw [geom_conductor hr hz, norm_div, Complex.norm_real, Real.norm_of_nonneg (by positivity)]
  exact div_le_div_of_nonneg_left (by positivity) hpos hn

example (env : Env) := C39_bound env (bulk 1 2) 0 1 _ one_pos le_rfl
  (C09_refl 1 2 none _ two_ne_zero (by norm_num)) (by norm_num)

theorem C39_decay (env : Env) (s : Stack (FP ℝ) (FP ℂ)) (r β : ℝ) (hr : 0 < r)
    (hβ : s.reflCoefQs = .ok (FP.num (β : ℂ))) (h0 : 0 < β) (h4 : β < 4) (z z' : ℝ) (hz : 0 ≤ z)
    (hzz : z < z') :
    ∃ v v' : ℝ, Pdm.effPol env s (some (FP.num z)) (conductor r) = .ok (FP.num (v : ℂ)) ∧
      Pdm.effPol env s (some (FP.num z')) (conductor r) = .ok (FP.num (v' : ℂ)) ∧ v' < v := by
  have key : ∀ z, 0 ≤ z → r ^ 3 / (4 * (r + z) ^ 3) ≤ 1 / 4 := by
    intro z hz
    have hrz : 0 < r + z := by linarith
    rw [div_le_div_iff₀ (by positivity) (by norm_num)]
    have : r ^ 3 ≤ (r + z) ^ 3 := pow_le_pow_left₀ hr.le (by linarith) 3
    linarith
  have kpos : ∀ z, 0 ≤ z → 0 < 1 - r ^ 3 / (4 * (r + z) ^ 3) * β := by
    intro z hz
    have hrz : 0 < r + z := by linarith
    have := key z hz
    have h : r ^ 3 / (4 * (r + z) ^ 3) * β ≤ 1 / 4 * β := mul_le_mul_of_nonneg_right this h0.le
    linarith
  have val : ∀ z, 0 ≤ z → Pdm.effPol env s (some (FP.num z)) (conductor r) =
      .ok (FP.num ((4 * Real.pi * r ^ 3 / (1 - r ^ 3 / (4 * (r + z) ^ 3) * β) : ℝ) : ℂ)) := by
    intro z hz
    have hg := geom_conductor hr hz
    have hne : 1 - Pdm.geom z r ((4 * Real.pi * r ^ 3 : ℝ) : ℂ) * β ≠ 0 := by
      rw [hg]
      exact_mod_cast (kpos z hz).ne'
    rw [Pdm.effPol_val env s _ z r _ β (pdm_conductor env r) hβ (by linarith) hne, hg]
    push_cast
    rfl
  refine ⟨_, _, val z hz, val z' (by linarith), ?_⟩
  refine div_lt_div_of_pos_left (by positivity) (kpos z hz) ?_
  have h1 : 0 < r + z := by linarith
  have h2 : 0 < r + z' := by linarith
  have h3 : (r + z) ^ 3 < (r + z') ^ 3 := pow_lt_pow_left₀ (by linarith) h1.le (by norm_num)
  have : r ^ 3 / (4 * (r + z') ^ 3) < r ^ 3 / (4 * (r + z) ^ 3) :=
    div_lt_div_of_pos_left (by positivity) (by positivity) (by linarith)
  have := mul_lt_mul_of_pos_right this h0
  linarith

example (env : Env) := C39_decay env (bulk 1 2) 1 (1 / 3) one_pos
  (by rw [C09_refl 1 2 none _ two_ne_zero (by norm_num)]; norm_num) (by norm_num) (by norm_num) 0 1
  le_rfl one_pos

/-! ## C40, continued: the dielectric sphere becomes a conductor -/

theorem C40_limit (env : Env) (s : Stack (FP ℝ) (FP ℂ)) (z r : ℝ) (β : ℂ)
    (hβ : s.reflCoefQs = .ok (FP.num β)) (hrz : r + z ≠ 0) (v : ℂ)
    (hv : Pdm.effPol env s (some (FP.num z)) (conductor r) = .ok (FP.num v)) :
    EvalTendsto (fun eps : ℂ => Pdm.effPol env s (some (FP.num z))
      ⟨some (FP.num r), some (FP.num eps), none⟩) (Bornology.cobounded ℂ) v := by
  have hk : Tendsto (fun eps : ℂ => (eps - 1) / (eps + 2)) (Bornology.cobounded ℂ) (𝓝 1) := by
    have h0 : Tendsto (fun eps : ℂ => (eps + 2)⁻¹) (Bornology.cobounded ℂ) (𝓝 0) :=
      tendsto_inv₀_cobounded.comp (tendsto_add_const_cobounded 2)
    have h1 : Tendsto (fun eps : ℂ => 1 - 3 * (eps + 2)⁻¹) (Bornology.cobounded ℂ) (𝓝 1) := by
      simpa using (h0.const_mul 3).const_sub 1
    refine h1.congr' ?_
    filter_upwards [Bornology.eventually_ne_cobounded (-2 : ℂ)] with eps h
    have h2 : eps + 2 ≠ 0 := fun h0 => h (eq_neg_of_add_eq_zero_left h0)
    field_simp
    ring
  set α₀ : ℂ := ((4 * Real.pi * r ^ 3 : ℝ) : ℂ) with hα₀
  rw [Pdm.effPol_num env s _ z r _ β (pdm_conductor env r) hβ hrz] at hv
  obtain ⟨-, y, hy, hy0⟩ := FP.div_num_inv (Except.ok.inj hv)
  rw [← FP.num_inj.1 hy] at hy0
  rw [FP.num_div _ hy0] at hv
  have hv' : v = α₀ / (1 - Pdm.geom z r α₀ * β) := (FP.num_inj.1 (Except.ok.inj hv)).symm
  have hα : Tendsto (fun eps : ℂ => α₀ * ((eps - 1) / (eps + 2))) (Bornology.cobounded ℂ) (𝓝 α₀) := by
    simpa using hk.const_mul α₀
  have hg : Tendsto (fun eps : ℂ => 1 - Pdm.geom z r (α₀ * ((eps - 1) / (eps + 2))) * β)
      (Bornology.cobounded ℂ) (𝓝 (1 - Pdm.geom z r α₀ * β)) := by
    unfold Pdm.geom
    exact ((hα.div_const _).mul_const β).const_sub 1
  refine ⟨fun eps => α₀ * ((eps - 1) / (eps + 2)) /
    (1 - Pdm.geom z r (α₀ * ((eps - 1) / (eps + 2))) * β), ?_, ?_⟩
  · filter_upwards [Bornology.eventually_ne_cobounded (-2 : ℂ), hg.eventually_ne hy0] with eps h1 h2
    have h3 : eps + 2 ≠ 0 := fun h0 => h1 (eq_neg_of_add_eq_zero_left h0)
    refine Pdm.effPol_val env s _ z r _ β ?_ hβ hrz h2
    simp [Defaults.pdm, slit, snpow, sofR, sclit, FP.num_div _ h3, hα₀, mul_div_assoc]
  · rw [hv']
    exact hα.div hg hy0

example (env : Env) : ∃ v, EvalTendsto (fun eps : ℂ => Pdm.effPol env (bulk 1 2) (some (FP.num 0))
    ⟨some (FP.num 1), some (FP.num eps), none⟩) (Bornology.cobounded ℂ) v := by
  obtain ⟨v, hv, -⟩ := C39_bound env (bulk 1 2) 0 1 _ one_pos le_rfl
    (C09_refl 1 2 none _ two_ne_zero (by norm_num)) (by norm_num)
  exact ⟨v, C40_limit env _ 0 1 _ (C09_refl 1 2 none _ two_ne_zero (by norm_num)) (by norm_num) v hv⟩

/-! ## C41 PDM on a multilayer sample sees only the substrate -/

theorem C41_substrate (env : Env) (e : ℂ) (L : List (ℂ × ℝ)) (sub : ℂ) (nu : Option ℝ)
    (hL : ∀ l ∈ L, l.1 ≠ 0) (z : Option (FP ℝ)) (A n : FP ℝ) (nT nJ : Option ℕ)
    (a : PdmArgs (FP ℝ) (FP ℂ)) :
    Pdm.effPol env (layered e L sub nu) z a = Pdm.effPol env (bulk e sub nu) z a ∧
    Pdm.effPolN env (layered e L sub nu) A n z nT a = Pdm.effPolN env (bulk e sub nu) A n z nT a ∧
    Pdm.effPolNTaylor env (layered e L sub nu) A n z a nT nJ =
      Pdm.effPolNTaylor env (bulk e sub nu) A n z a nT nJ := by
  unfold Pdm.effPolN Pdm.effPol Pdm.effPolNTaylor
  simp only [C10_layers e L sub nu hL, and_self]

example (env : Env) := C41_substrate env 1 [(2, 3), (4, 5)] 6 none (by simp) none (FP.num 1) (FP.num 2)
  none none {}

/-- No error for any multilayer sample. -/
theorem C41_accepts (env : Env) (e : ℂ) (L : List (ℂ × ℝ)) (sub : ℂ) (nu : Option ℝ)
    (z : Option (FP ℝ)) (A n : FP ℝ) (nT : Option ℕ) (r : ℝ) (α : ℂ) :
    (∃ v, Pdm.effPol env (layered e L sub nu) z (tip r α) = .ok v) ∧
      ∃ v, Pdm.effPolN env (layered e L sub nu) A n z nT (tip r α) = .ok v := by
  have h : ∀ z, ∃ v, Pdm.effPol env (layered e L sub nu) z (tip r α) = .ok v := by
    intro z
    obtain ⟨β, hβ⟩ : ∃ β, (layered e L sub nu).reflCoefQs = .ok β := by
      by_cases hz : (∃ l ∈ L, l.1 = 0) ∨ sub = 0
      · unfold Stack.reflCoefQs
        rw [transferMatrixQs_zero _ L _ _ _ hz]
        exact ⟨_, rfl⟩
      · push Not at hz
        exact ⟨_, reflCoefQs_eq e L sub nu 0 hz.1 hz.2⟩
    unfold Pdm.effPol
    rw [pdm_tip, PyM.ok_bind]
    simp only [hβ, PyM.ok_bind]
    exact ⟨_, rfl⟩
  refine ⟨h z, ?_⟩
  choose f hf using fun x => h (some x)
  rcases demod_cases env (fun x => Pdm.effPol env (layered e L sub nu) (some x) (tip r α))
    (z.getD (lit env.defaults.zTip) + A) A nT with ⟨m, hm⟩ | ⟨G, hG⟩
  · exfalso
    have := hm n
    rw [demod_unfold] at this
    simp only [hf, PyM.ok_bind, PyM.pure_eq_ok] at this
    rw [mapM_ok _ _ _ fun _ _ => rfl, PyM.ok_bind] at this
    cases this
  · exact ⟨_, hG n⟩

/-! ## C46 The tip never goes below z_tip: both ends are sampled

A finite `eff_pol_n` means a finite `eff_pol` at `z`, and at `z + 2A` when `n_trapz` is even. -/

theorem C46_ends_pdm (env : Env) (s : Stack (FP ℝ) (FP ℂ)) (a : PdmArgs (FP ℝ) (FP ℂ))
    (z amp : ℝ) (n : FP ℝ) (N : ℕ) (v : ℂ)
    (h : Pdm.effPolN env s (FP.num amp) n (some (FP.num z)) (some N) a = .ok (FP.num v)) :
    (∃ w, Pdm.effPol env s (some (FP.num z)) a = .ok (FP.num w)) ∧
      (Even N → ∃ w, Pdm.effPol env s (some (FP.num (z + 2 * amp))) a = .ok (FP.num w)) :=
  sampled_ends (f := fun x => Pdm.effPol env s (some x) a) (n := n) (v := v) h

example (env : Env) := C46_ends_pdm env (bulk 1 1) (tip 1 5) 0 2 _ 8 0
  (C37_pdm_n env 1 none 0 1 2 5 3 8 one_ne_zero one_pos le_rfl (by norm_num) (by norm_num) (by norm_num))

end Snompy.Props
