import Verif.Lemmas.FarLimit
import Verif.Props.Quasistatic

/-!
# C12–C14 (far field) and C19–C27: reflection and transmission of plane waves

`atQ q nu pol` and `atAngle theta nu pol` (`Verif/Spec/FarField.lean`) are the arguments of
`transfer_matrix`, `refl_coef` and `trans_coef`.
-/

namespace Snompy.Props

open Snompy Filter Topology

/-! ## C12 A zero-thickness layer is invisible -/

theorem C12_far (env : ℂ) (L₁ L₂ : List (ℂ × ℝ)) (eps sub : ℂ) (snu : Option ℝ) (nu q : ℝ)
    (pol : String) (he : eps ≠ 0) (hk : eps * (nu : ℂ) ^ 2 ≠ (q : ℂ) ^ 2) :
    (layered env (L₁ ++ (eps, 0) :: L₂) sub snu).transferMatrix (atQ q nu pol) =
      (layered env (L₁ ++ L₂) sub snu).transferMatrix (atQ q nu pol) := by
  have hk' : kz nu q eps ≠ 0 := by rw [Ne, kz_eq_zero, sub_eq_zero]; exact hk
  have ha : adm pol nu q eps ≠ 0 := by
    unfold adm
    split_ifs
    · exact div_ne_zero he hk'
    · exact div_ne_zero one_ne_zero hk'
  refine transferMatrix_ext ?_ fun _ => ?_
  · unfold FarRegular
    simp only [List.mem_append, List.mem_cons, or_imp, forall_and, forall_eq]
    tauto
  · unfold farMat
    simp only [List.map_append, List.map_cons, Complex.ofReal_zero, mul_zero]
    exact gen_insert_zero _ _ _ _ _ ha

theorem C12_far_coefs (env : ℂ) (L₁ L₂ : List (ℂ × ℝ)) (eps sub : ℂ) (snu : Option ℝ) (nu q : ℝ)
    (pol : String) (he : eps ≠ 0) (hk : eps * (nu : ℂ) ^ 2 ≠ (q : ℂ) ^ 2) :
    (layered env (L₁ ++ (eps, 0) :: L₂) sub snu).reflCoef (atQ q nu pol) =
      (layered env (L₁ ++ L₂) sub snu).reflCoef (atQ q nu pol) ∧
    (layered env (L₁ ++ (eps, 0) :: L₂) sub snu).transCoef (atQ q nu pol) =
      (layered env (L₁ ++ L₂) sub snu).transCoef (atQ q nu pol) :=
  farCoefs_congr (C12_far env L₁ L₂ eps sub snu nu q pol he hk)

example : (layered 1 [(3, 2), (5, 0)] 4).transferMatrix (atQ 0.5 1 "s") =
    (layered 1 [(3, 2)] 4).transferMatrix (atQ 0.5 1 "s") :=
  C12_far 1 [(3, 2)] [] 5 4 none 1 0.5 "s" (by norm_num) (by norm_num)

/-! ## C13 Splitting a layer changes nothing -/

theorem C13_far (env : ℂ) (L₁ L₂ : List (ℂ × ℝ)) (eps : ℂ) (t₁ t₂ : ℝ) (sub : ℂ) (snu : Option ℝ)
    (nu q : ℝ) (pol : String) :
    (layered env (L₁ ++ (eps, t₁) :: (eps, t₂) :: L₂) sub snu).transferMatrix (atQ q nu pol) =
      (layered env (L₁ ++ (eps, t₁ + t₂) :: L₂) sub snu).transferMatrix (atQ q nu pol) := by
  refine transferMatrix_ext ?_ fun h => ?_
  · unfold FarRegular
    simp only [List.mem_append, List.mem_cons, or_imp, forall_and, forall_eq]
    tauto
  · have hk : kz nu q eps ≠ 0 := h.1.2 (eps, t₁) (by simp)
    have ha : adm pol nu q eps ≠ 0 := by
      unfold adm
      split_ifs with hp
      · exact div_ne_zero ((h.2 hp).1 (eps, t₁) (by simp)) hk
      · exact div_ne_zero one_ne_zero hk
    unfold farMat
    simp only [List.map_append, List.map_cons]
    rw [gen_split _ _ _ _ _ _ _ ha]
    push_cast
    congr 3
    ring_nf

example : (layered 1 [(3, 2), (3, 5)] 4).reflCoef (atQ 0.5 1 "p") =
    (layered 1 [(3, 2 + 5)] 4).reflCoef (atQ 0.5 1 "p") :=
  (farCoefs_congr (C13_far 1 [] [] 3 2 5 4 none 1 0.5 "p")).1

/-! ## C14 Reciprocity of the stack -/

/-- Determinant, with `k_i = sqrt(eps_i nu² - q²)`: `(env/k_env)/(sub/k_sub)` for p and
`k_sub/k_env` for s polarization. -/
theorem C14_far_det (env : ℂ) (L : List (ℂ × ℝ)) (sub : ℂ) (snu : Option ℝ) (nu q : ℝ)
    (pol : String) (hpol : pol = "p" ∨ pol = "s") (h0 : env * (nu : ℂ) ^ 2 ≠ (q : ℂ) ^ 2)
    (hL : ∀ l ∈ L, l.1 ≠ 0 ∧ l.1 * (nu : ℂ) ^ 2 ≠ (q : ℂ) ^ 2) (hs : sub ≠ 0) :
    ∃ M, (layered env L sub snu).transferMatrix (atQ q nu pol) = .ok M ∧
      M.m00 * M.m11 - M.m01 * M.m10 =
        FP.num (Medium.ratio pol ⟨env, Complex.sqrt (env * (nu : ℂ) ^ 2 - (q : ℂ) ^ 2)⟩
          ⟨sub, Complex.sqrt (sub * (nu : ℂ) ^ 2 - (q : ℂ) ^ 2)⟩) := by
  have hk : ∀ e : ℂ, e * (nu : ℂ) ^ 2 ≠ (q : ℂ) ^ 2 → kz nu q e ≠ 0 := fun e he => by
    rw [Ne, kz_eq_zero, sub_eq_zero]; exact he
  have hr : FarRegular pol nu q env L sub :=
    ⟨⟨hk _ h0, fun l hl => hk _ (hL l hl).2⟩, fun _ => ⟨fun l hl => (hL l hl).1, hs⟩⟩
  refine ⟨_, transferMatrix_layered pol env L sub snu nu q hpol hr, ?_⟩
  have h := det_gen (adm pol nu q env)
    (L.map fun l => (adm pol nu q l.1, -Complex.I * (kz nu q l.1 * l.2))) (adm pol nu q sub) (by
      intro l hl
      obtain ⟨l', h1, rfl⟩ := List.mem_map.1 hl
      show adm pol nu q l'.1 ≠ 0
      unfold adm
      split_ifs with hp
      · exact div_ne_zero (hL l' h1).1 (hk _ (hL l' h1).2)
      · exact div_ne_zero one_ne_zero (hk _ (hL l' h1).2))
  rw [Matrix.det_fin_two] at h
  simp only [toFP, FP.num_mul, FP.num_sub]
  refine congrArg FP.num (h.trans ?_)
  unfold adm Medium.ratio kz
  split_ifs with hp
  · rfl
  · rw [div_div_div_eq, one_mul, mul_one]

/-- Transmission from above and from below (upside-down stack). -/
theorem C14_far_trans (env : ℂ) (L : List (ℂ × ℝ)) (sub : ℂ) (snu : Option ℝ) (nu q : ℝ)
    (pol : String) (hpol : pol = "p" ∨ pol = "s") (h0 : env ≠ 0)
    (h0' : env * (nu : ℂ) ^ 2 ≠ (q : ℂ) ^ 2)
    (hL : ∀ l ∈ L, l.1 ≠ 0 ∧ l.1 * (nu : ℂ) ^ 2 ≠ (q : ℂ) ^ 2) (hs : sub ≠ 0)
    (hs' : sub * (nu : ℂ) ^ 2 ≠ (q : ℂ) ^ 2) :
    ∃ down up, (layered env L sub snu).transCoef (atQ q nu pol) = .ok down ∧
      (layered sub L.reverse env snu).transCoef (atQ q nu pol) = .ok up ∧
      down = FP.num (Medium.ratio pol ⟨sub, Complex.sqrt (sub * (nu : ℂ) ^ 2 - (q : ℂ) ^ 2)⟩
          ⟨env, Complex.sqrt (env * (nu : ℂ) ^ 2 - (q : ℂ) ^ 2)⟩) * up := by
  have hk : ∀ e : ℂ, e * (nu : ℂ) ^ 2 ≠ (q : ℂ) ^ 2 → kz nu q e ≠ 0 := fun e he => by
    rw [Ne, kz_eq_zero, sub_eq_zero]; exact he
  have hr : FarRegular pol nu q env L sub :=
    ⟨⟨hk _ h0', fun l hl => hk _ (hL l hl).2⟩, fun _ => ⟨fun l hl => (hL l hl).1, hs⟩⟩
  have hr' : FarRegular pol nu q sub L.reverse env :=
    ⟨⟨hk _ hs', fun l hl => hk _ (hL l (by simpa using hl)).2⟩,
      fun _ => ⟨fun l hl => (hL l (by simpa using hl)).1, h0⟩⟩
  refine ⟨_, _, transCoef_eq pol env L sub snu nu q hpol hr,
    transCoef_eq pol sub L.reverse env snu nu q hpol hr', ?_⟩
  have hadm : ∀ e : ℂ, e ≠ 0 → e * (nu : ℂ) ^ 2 ≠ (q : ℂ) ^ 2 → adm pol nu q e ≠ 0 := by
    intro e he hq
    unfold adm
    split_ifs with hp
    · exact div_ne_zero he (hk _ hq)
    · exact div_ne_zero one_ne_zero (hk _ hq)
  have a0 := hadm env h0 h0'
  have as := hadm sub hs hs'
  have h := gen_reverse (adm pol nu q env)
    (L.map fun l => (adm pol nu q l.1, -Complex.I * (kz nu q l.1 * l.2))) (adm pol nu q sub)
    a0 (by
      intro l hl
      obtain ⟨l', h1, rfl⟩ := List.mem_map.1 hl
      exact hadm _ (hL l' h1).1 (hL l' h1).2) as
  have h' := congrFun (congrFun h 0) 0
  rw [← List.map_reverse] at h'
  change farMat pol nu q env L sub 0 0 =
    adm pol nu q env / adm pol nu q sub * farMat pol nu q sub L.reverse env 0 0 at h'
  have hrat : Medium.ratio pol ⟨sub, Complex.sqrt (sub * (nu : ℂ) ^ 2 - (q : ℂ) ^ 2)⟩
          ⟨env, Complex.sqrt (env * (nu : ℂ) ^ 2 - (q : ℂ) ^ 2)⟩ =
      adm pol nu q sub / adm pol nu q env := by
    unfold adm Medium.ratio kz
    split_ifs with hp
    · rfl
    · rw [div_div_div_eq, one_mul, mul_one]
  have hes := div_ne_zero a0 as
  rw [hrat]
  by_cases hz : farMat pol nu q sub L.reverse env 0 0 = 0
  · rw [h', hz, mul_zero, num_div_zero]; simp
  · rw [h', FP.num_div _ hz, FP.num_div _ (mul_ne_zero hes hz), FP.num_mul]
    congr 1
    field_simp

example : ∃ down up, (layered 1 [(3, 2)] 4).transCoef (atQ 0 1 "s") = .ok down ∧
    (layered 4 [(3, 2)] 1).transCoef (atQ 0 1 "s") = .ok up ∧
    down = FP.num (Medium.ratio "s" ⟨4, Complex.sqrt (4 * ((1 : ℝ) : ℂ) ^ 2 - ((0 : ℝ) : ℂ) ^ 2)⟩
      ⟨1, Complex.sqrt (1 * ((1 : ℝ) : ℂ) ^ 2 - ((0 : ℝ) : ℂ) ^ 2)⟩) * up :=
  C14_far_trans 1 [(3, 2)] 4 none 1 0 "s" (by simp) (by norm_num) (by norm_num) (by simp)
    (by norm_num) (by norm_num)

/-! ## C19 Bulk far-field reflection is the Fresnel formula -/

/-- Reflection of a bulk sample from vacuum, for any complex permittivity of the substrate, with
`c = sqrt(eps - sin² θ)`. -/
theorem C19_complex (eps : ℂ) (snu : Option ℝ) (theta nu : ℝ) (hnu : 0 < nu)
    (hθ : |theta| < Real.pi / 2) (he : eps ≠ 0)
    (c : ℂ) (hc : c = Complex.sqrt (eps - (Real.sin theta : ℂ) ^ 2))
    (hp : eps * Real.cos theta + c ≠ 0) (hs : (Real.cos theta : ℂ) + c ≠ 0) :
    (bulk 1 eps snu).reflCoef (atAngle theta nu "p") =
      .ok (FP.num ((eps * Real.cos theta - c) / (eps * Real.cos theta + c))) ∧
    (bulk 1 eps snu).reflCoef (atAngle theta nu "s") =
      .ok (FP.num ((Real.cos theta - c) / (Real.cos theta + c))) := by
  have hcos : 0 < Real.cos theta := Real.cos_pos_of_mem_Ioo (abs_lt.1 hθ |>.imp (by intro h; linarith) id)
  have hs2 : Real.sin |theta| ^ 2 = Real.sin theta ^ 2 := by
    rcases abs_choice theta with h | h <;> rw [h]
    rw [Real.sin_neg, neg_sq]
  have k0 : kz nu (nu * Real.sin |theta|) 1 = (nu * Real.cos theta : ℝ) := by
    have := kz_scale hnu 1 (Real.sin |theta|) 1
    rw [mul_one] at this
    rw [this]
    have h1 : (0 : ℝ) ≤ 1 * 1 ^ 2 - Real.sin |theta| ^ 2 := by
      rw [hs2]; nlinarith [Real.sin_sq_add_cos_sq theta, sq_nonneg (Real.cos theta)]
    have h2 := kz_real (e := 1) (nu := 1) (q := Real.sin |theta|) h1
    rw [Complex.ofReal_one] at h2
    rw [h2, hs2, show (1 : ℝ) * 1 ^ 2 - Real.sin theta ^ 2 = Real.cos theta ^ 2 by
      nlinarith [Real.sin_sq_add_cos_sq theta], Real.sqrt_sq hcos.le]
    push_cast; rfl
  have k1 : kz nu (nu * Real.sin |theta|) eps = nu * c := by
    have := kz_scale hnu 1 (Real.sin |theta|) eps
    rw [mul_one] at this
    rw [this, hc]
    unfold kz
    rw [← Complex.ofReal_pow, ← Complex.ofReal_pow, hs2]
    push_cast
    rw [one_pow, mul_one]
  have hnuc : (nu : ℂ) ≠ 0 := by exact_mod_cast hnu.ne'
  have hcosc : (Real.cos theta : ℂ) ≠ 0 := by exact_mod_cast hcos.ne'
  have k00 : kz nu (nu * Real.sin |theta|) 1 ≠ 0 := by
    rw [k0]; exact_mod_cast (mul_pos hnu hcos).ne'
  have hr : ∀ pol, FarRegular pol nu (nu * Real.sin |theta|) 1 [] eps := fun pol =>
    ⟨⟨k00, by simp⟩, fun _ => ⟨by simp, he⟩⟩
  have e : ∀ pol, (bulk 1 eps snu).reflCoef (atAngle theta nu pol) =
      (layered 1 [] eps snu).reflCoef (atQ (nu * Real.sin |theta|) nu pol) := fun pol =>
    (farCoefs_congr (transferMatrix_atAngle _ theta nu pol)).1
  have hsp : ("s" : String) ≠ "p" := by decide
  rw [e, e, reflCoef_eq "p" 1 [] eps snu nu _ (by simp) (hr "p"),
    reflCoef_eq "s" 1 [] eps snu nu _ (by simp) (hr "s")]
  simp only [farMat, gen, TM, adm, List.map_nil, if_true, hsp, if_false, k0, k1, Matrix.of_apply,
    Matrix.cons_val', Matrix.cons_val_zero, Matrix.cons_val_one, Matrix.cons_val_fin_one]
  push_cast
  have ep : (1 : ℂ) / (nu * Complex.cos theta) / (eps / (nu * c)) =
      c / (eps * Complex.cos theta) := by
    by_cases hc0 : c = 0
    · simp [hc0]
    · have : Complex.cos theta ≠ 0 := by rw [← Complex.ofReal_cos]; exact hcosc
      field_simp
  have es : (1 : ℂ) / (nu * Complex.cos theta) / (1 / (nu * c)) = c / Complex.cos theta := by
    by_cases hc0 : c = 0
    · simp [hc0]
    · have : Complex.cos theta ≠ 0 := by rw [← Complex.ofReal_cos]; exact hcosc
      field_simp
  rw [ep, es]
  push_cast at hp hs hcosc
  constructor
  · have h1 : (1 + c / (eps * Complex.cos theta)) / 2 =
        (eps * Complex.cos theta + c) / (2 * (eps * Complex.cos theta)) := by field_simp
    have h2 : (1 - c / (eps * Complex.cos theta)) / 2 =
        (eps * Complex.cos theta - c) / (2 * (eps * Complex.cos theta)) := by field_simp
    have h3 : 2 * (eps * Complex.cos theta) ≠ 0 := mul_ne_zero two_ne_zero (mul_ne_zero he hcosc)
    rw [h1, h2, FP.num_div _ (div_ne_zero hp h3), div_div_div_cancel_right₀ h3]
  · have h1 : (1 + c / Complex.cos theta) / 2 =
        (Complex.cos theta + c) / (2 * Complex.cos theta) := by field_simp
    have h2 : (1 - c / Complex.cos theta) / 2 =
        (Complex.cos theta - c) / (2 * Complex.cos theta) := by field_simp
    have h3 : 2 * Complex.cos (theta : ℂ) ≠ 0 := mul_ne_zero two_ne_zero hcosc
    rw [h1, h2, FP.num_div _ (div_ne_zero hs h3), div_div_div_cancel_right₀ h3]

/-- Fresnel's formulas for a lossless substrate of refractive index `n`, with the transmission angle `φ`
from Snell's law. -/
theorem C19_fresnel (n : ℝ) (snu : Option ℝ) (theta phi nu : ℝ) (hn : 0 < n) (hnu : 0 < nu)
    (hθ : |theta| < Real.pi / 2) (hφ : |phi| < Real.pi / 2) (snell : Real.sin theta = n * Real.sin phi) :
    (bulk 1 ((n ^ 2 : ℝ) : ℂ) snu).reflCoef (atAngle theta nu "p") =
      .ok (FP.num (((n * Real.cos theta - Real.cos phi) / (n * Real.cos theta + Real.cos phi) : ℝ) : ℂ)) ∧
    (bulk 1 ((n ^ 2 : ℝ) : ℂ) snu).reflCoef (atAngle theta nu "s") =
      .ok (FP.num (((Real.cos theta - n * Real.cos phi) / (Real.cos theta + n * Real.cos phi) : ℝ) : ℂ)) := by
  have h1 : 0 < Real.cos theta := Real.cos_pos_of_mem_Ioo (abs_lt.1 hθ |>.imp (by intro h; linarith) id)
  have h2 : 0 < Real.cos phi := Real.cos_pos_of_mem_Ioo (abs_lt.1 hφ |>.imp (by intro h; linarith) id)
  have hc : ((n * Real.cos phi : ℝ) : ℂ) =
      Complex.sqrt (((n ^ 2 : ℝ) : ℂ) - (Real.sin theta : ℂ) ^ 2) := by
    rw [← Complex.ofReal_pow, ← Complex.ofReal_sub, csqrt_ofReal, snell]
    · rw [show n ^ 2 - (n * Real.sin phi) ^ 2 = (n * Real.cos phi) ^ 2 by
        nlinarith [Real.sin_sq_add_cos_sq phi], Real.sqrt_sq (by positivity)]
    · rw [snell]; nlinarith [Real.sin_sq_add_cos_sq phi, sq_nonneg (n * Real.cos phi)]
  have hp : n ^ 2 * Real.cos theta + n * Real.cos phi ≠ 0 := by positivity
  have hs : Real.cos theta + n * Real.cos phi ≠ 0 := by positivity
  obtain ⟨a, b⟩ := C19_complex ((n ^ 2 : ℝ) : ℂ) snu theta nu hnu hθ
    (by exact_mod_cast (pow_pos hn 2).ne') _ hc (by exact_mod_cast hp) (by exact_mod_cast hs)
  rw [a, b]
  constructor
  · congr 2
    norm_cast
    rw [show n ^ 2 * Real.cos theta - n * Real.cos phi = n * (n * Real.cos theta - Real.cos phi) by ring,
      show n ^ 2 * Real.cos theta + n * Real.cos phi = n * (n * Real.cos theta + Real.cos phi) by ring,
      mul_div_mul_left _ _ hn.ne']
  · congr 2
    norm_cast

/-- Glass at normal incidence: `r_p = 1/5`, `r_s = -1/5`. -/
example : (bulk 1 (((3 / 2 : ℝ) ^ 2 : ℝ) : ℂ)).reflCoef (atAngle 0 1 "p") =
    .ok (FP.num (((3 / 2 * Real.cos 0 - Real.cos 0) / (3 / 2 * Real.cos 0 + Real.cos 0) : ℝ) : ℂ)) :=
  (C19_fresnel (3 / 2) none 0 0 1 (by norm_num) one_pos (by simp [Real.pi_pos]) (by simp [Real.pi_pos])
    (by simp)).1

/-! ## C20 At normal incidence p and s reflection differ only by sign -/

/-- The three ways of asking for normal incidence. -/
inductive Normal (nu : ℝ) (pol : String) : Stack.FarArgs (FP ℝ) → Prop
  | q : Normal nu pol { q := some (FP.num 0), nuVac := some (FP.num nu), polarization := pol }
  | theta : Normal nu pol { thetaIn := some (FP.num 0), nuVac := some (FP.num nu), polarization := pol }
  | neither : Normal nu pol { nuVac := some (FP.num nu), polarization := pol }

theorem C20_normal (env : ℂ) (L : List (ℂ × ℝ)) (sub : ℂ) (snu : Option ℝ) (nu : ℝ) (hnu : nu ≠ 0)
    (h0 : env ≠ 0) (hL : ∀ l ∈ L, l.1 ≠ 0) (hs : sub ≠ 0)
    (ap as : Stack.FarArgs (FP ℝ)) (hp : Normal nu "p" ap) (hs' : Normal nu "s" as) :
    ∃ r, (layered env L sub snu).reflCoef ap = .ok r ∧
      (layered env L sub snu).reflCoef as = .ok (FP.map (fun z => -z) r) := by
  have red : ∀ pol a, Normal nu pol a → (layered env L sub snu).reflCoef a =
      (layered env L sub snu).reflCoef (atQ 0 nu pol) := by
    intro pol a ha
    refine (farCoefs_congr ?_).1
    rw [transferMatrix_atQ]
    cases ha with
    | q => exact transferMatrix_resolve _ _ _ _ rfl rfl
    | theta =>
      refine transferMatrix_resolve _ _ _ _ rfl ?_
      simp [Stack.resolveQ, sabs, ssin]
    | neither => exact transferMatrix_resolve _ _ _ _ rfl rfl
  rw [red _ _ hp, red _ _ hs']
  have hnuc : (nu : ℂ) ≠ 0 := by exact_mod_cast hnu
  have hk : ∀ e : ℂ, e ≠ 0 → kz nu 0 e ≠ 0 := by
    intro e he
    rw [Ne, kz_eq_zero]
    simp [he, hnu]
  have hr : ∀ pol, FarRegular pol nu 0 env L sub := fun pol =>
    ⟨⟨hk _ h0, fun l hl => hk _ (hL l hl)⟩, fun _ => ⟨hL, hs⟩⟩
  have hadm : ∀ e : ℂ, e ≠ 0 → adm "p" nu 0 e = ((nu : ℂ) ^ 2)⁻¹ * (adm "s" nu 0 e)⁻¹ := by
    intro e he
    have hsp : ("s" : String) ≠ "p" := by decide
    simp only [adm, if_true, hsp, if_false, one_div, inv_inv]
    have := kz_sq nu 0 e
    have hk0 := hk e he
    field_simp
    rw [this]
    push_cast
    ring
  have hs0 : ∀ e : ℂ, e ≠ 0 → adm "s" nu 0 e ≠ 0 := by
    intro e he
    have hsp : ("s" : String) ≠ "p" := by decide
    simp only [adm, hsp, if_false, one_div]
    exact inv_ne_zero (hk e he)
  have hm : farMat "p" nu 0 env L sub =
      (adm "s" nu 0 sub / adm "s" nu 0 env) • (SZ * (farMat "s" nu 0 env L sub * SZ)) := by
    have h1 := gen_inv (adm "s" nu 0 env)
      (L.map fun l => (adm "s" nu 0 l.1, -Complex.I * (kz nu 0 l.1 * l.2))) (adm "s" nu 0 sub)
      (hs0 _ h0) (by
        intro l hl
        obtain ⟨l', h1, rfl⟩ := List.mem_map.1 hl
        exact hs0 _ (hL l' h1)) (hs0 _ hs)
    unfold farMat
    rw [← h1, hadm env h0, hadm sub hs, ← gen_scale (((nu : ℂ) ^ 2)⁻¹) (adm "s" nu 0 env)⁻¹ _ _
      (inv_ne_zero (pow_ne_zero 2 hnuc))]
    congr 1
    simp only [List.map_map, Function.comp_def]
    refine List.map_congr_left fun l hl => ?_
    rw [hadm l.1 (hL l hl)]
  refine ⟨_, reflCoef_eq "p" env L sub snu nu 0 (by simp) (hr "p"), ?_⟩
  rw [reflCoef_eq "s" env L sub snu nu 0 (by simp) (hr "s"), hm]
  have c0 : adm "s" nu 0 sub / adm "s" nu 0 env ≠ 0 := div_ne_zero (hs0 _ hs) (hs0 _ h0)
  generalize adm "s" nu 0 sub / adm "s" nu 0 env = c at c0
  generalize farMat "s" nu 0 env L sub = M
  have e00 : (c • (SZ * (M * SZ))) 0 0 = c * M 0 0 := by
    simp only [SZ, Matrix.mul_apply, Fin.sum_univ_two, Matrix.smul_apply]
    simp
  have e10 : (c • (SZ * (M * SZ))) 1 0 = -(c * M 1 0) := by
    simp only [SZ, Matrix.mul_apply, Fin.sum_univ_two, Matrix.smul_apply]
    simp
  rw [e00, e10]
  by_cases hz : M 0 0 = 0
  · rw [hz, mul_zero, num_div_zero, num_div_zero]; rfl
  · rw [FP.num_div _ hz, FP.num_div _ (mul_ne_zero c0 hz), FP.map]
    congr 2
    field_simp

example : ∃ r, (layered 1 [(3, 2)] 4).reflCoef { nuVac := some (FP.num 1) } = .ok r ∧
    (layered 1 [(3, 2)] 4).reflCoef { q := some (FP.num 0), nuVac := some (FP.num 1), polarization := "s" } =
      .ok (FP.map (fun z => -z) r) :=
  C20_normal 1 [(3, 2)] 4 none 1 one_ne_zero one_ne_zero (by simp) (by norm_num) _ _ .neither .q

/-! ## C21 The square-root branch inside the stack is irrelevant -/

/-- Whatever roots `k` of `eps nu² - q²` are chosen in the layers, the textbook matrix built with
them is the one the code computes. -/
theorem C21_branch (env : ℂ) (L : List (Medium × ℝ)) (sub : ℂ) (snu : Option ℝ) (nu q : ℝ)
    (pol : String) (hpol : pol = "p" ∨ pol = "s") (h0 : env * (nu : ℂ) ^ 2 ≠ (q : ℂ) ^ 2)
    (hL : ∀ l ∈ L, l.1.eps ≠ 0 ∧ l.1.eps * (nu : ℂ) ^ 2 ≠ (q : ℂ) ^ 2 ∧
      l.1.k ^ 2 = l.1.eps * (nu : ℂ) ^ 2 - (q : ℂ) ^ 2) (hs : sub ≠ 0) :
    ∃ M, (layered env (L.map fun l => (l.1.eps, l.2)) sub snu).transferMatrix (atQ q nu pol) = .ok M ∧
      M = toFP (Medium.stackMatrix pol ⟨env, Complex.sqrt (env * (nu : ℂ) ^ 2 - (q : ℂ) ^ 2)⟩ L
        ⟨sub, Complex.sqrt (sub * (nu : ℂ) ^ 2 - (q : ℂ) ^ 2)⟩) := by
  have hk : ∀ e : ℂ, e * (nu : ℂ) ^ 2 ≠ (q : ℂ) ^ 2 → kz nu q e ≠ 0 := fun e he => by
    rw [Ne, kz_eq_zero, sub_eq_zero]; exact he
  refine ⟨_, transferMatrix_layered pol env _ sub snu nu q hpol
    ⟨⟨hk _ h0, ?_⟩, fun _ => ⟨?_, hs⟩⟩, ?_⟩
  · intro l hl
    obtain ⟨l', h1, rfl⟩ := List.mem_map.1 hl
    exact hk _ (hL l' h1).2.1
  · intro l hl
    obtain ⟨l', h1, rfl⟩ := List.mem_map.1 hl
    exact (hL l' h1).1
  congr 1
  -- the textbook matrix as a product of the standard form
  set y : Medium → ℂ := fun m => if pol = "p" then m.eps / m.k else 1 / m.k with hy
  have hratio : ∀ a b : Medium, a.ratio pol b = y a / y b := by
    intro a b
    simp only [hy, Medium.ratio]
    split_ifs with hp
    · rfl
    · rw [div_div_div_eq, one_mul, mul_one]
  have hstack : ∀ (L : List (Medium × ℝ)) (a b : Medium), a.stackMatrix pol L b =
      gen (y a) (L.map fun l => (y l.1, -Complex.I * (l.1.k * l.2))) (y b) := by
    intro L
    induction L with
    | nil => intro a b; simp only [Medium.stackMatrix, Medium.interfaceMatrix, hratio]; rfl
    | cons l L ih =>
      intro a b
      obtain ⟨m, t⟩ := l
      simp only [Medium.stackMatrix, List.map_cons, gen, ih, Medium.interfaceMatrix, hratio,
        Matrix.mul_assoc, Medium.phaseMatrix]
      simp only [TM, PM, neg_mul, neg_neg]
  rw [hstack]
  unfold farMat
  have hend : ∀ e : ℂ, y ⟨e, Complex.sqrt (e * (nu : ℂ) ^ 2 - (q : ℂ) ^ 2)⟩ = adm pol nu q e := by
    intro e; rfl
  rw [hend, hend]
  -- change the sign layer by layer
  have key : ∀ (L : List (Medium × ℝ)) (P : List (ℂ × ℂ)) (y0 ys : ℂ),
      (∀ l ∈ L, l.1.k ^ 2 = l.1.eps * (nu : ℂ) ^ 2 - (q : ℂ) ^ 2) →
      gen y0 (P ++ (L.map fun l => (l.1.eps, l.2)).map
        fun l => (adm pol nu q l.1, -Complex.I * (kz nu q l.1 * l.2))) ys =
      gen y0 (P ++ L.map fun l => (y l.1, -Complex.I * (l.1.k * l.2))) ys := by
    intro L
    induction L with
    | nil => intro P y0 ys _; rfl
    | cons l L ih =>
      intro P y0 ys hL
      obtain ⟨m, t⟩ := l
      have hm : m.k ^ 2 = kz nu q m.eps ^ 2 := by
        rw [kz_sq]; exact hL (m, t) (by simp)
      have hL' := fun l hl => hL l (List.mem_cons_of_mem _ hl)
      simp only [List.map_cons]
      have step : ∀ p : ℂ × ℂ, ∀ R : List (ℂ × ℂ), P ++ p :: R = (P ++ [p]) ++ R := by simp
      rcases sq_eq_sq_iff_eq_or_eq_neg.1 hm with h | h
      · have e : (adm pol nu q m.eps, -Complex.I * (kz nu q m.eps * t)) =
            (y m, -Complex.I * (m.k * t)) := by
          simp only [hy, adm, h]
        rw [e, step _ (List.map _ (List.map _ _)), step _ (List.map _ L), ih _ _ _ hL']
      · have e : (adm pol nu q m.eps, -Complex.I * (kz nu q m.eps * t)) =
            (-y m, -(-Complex.I * (m.k * t))) := by
          have h' : kz nu q m.eps = -m.k := by rw [h, neg_neg]
          simp only [hy, adm, h', Prod.mk.injEq]
          constructor
          · split_ifs <;> rw [div_neg]
          · ring
        rw [e, gen_flip, step _ (List.map _ (List.map _ _)), step _ (List.map _ L), ih _ _ _ hL']
  have := key L [] (adm pol nu q env) (adm pol nu q sub) fun l hl => (hL l hl).2.2
  simpa using this

/-- An absorbing layer with the "wrong" (growing) root. -/
example : ∃ M, (layered 1 [(4, 1)] 2).transferMatrix (atQ 0 1 "p") = .ok M ∧
    M = toFP (Medium.stackMatrix "p" ⟨1, Complex.sqrt (1 * ((1 : ℝ) : ℂ) ^ 2 - ((0 : ℝ) : ℂ) ^ 2)⟩
      [(⟨4, -2⟩, 1)] ⟨2, Complex.sqrt (2 * ((1 : ℝ) : ℂ) ^ 2 - ((0 : ℝ) : ℂ) ^ 2)⟩) :=
  C21_branch 1 [(⟨4, -2⟩, 1)] 2 none 1 0 "p" (by simp) (by norm_num)
    (by intro l hl; simp only [List.mem_singleton] at hl; subst hl; norm_num) (by norm_num)

/-! ## C22 Energy conservation in lossless stacks -/

/-- The ratio of the energy fluxes carried by unit waves in the substrate and in the environment. -/
noncomputable def fluxRatio (pol : String) (nu q env sub : ℝ) : ℝ :=
  if pol = "p" then
    (Real.sqrt (sub * nu ^ 2 - q ^ 2) / sub) / (Real.sqrt (env * nu ^ 2 - q ^ 2) / env)
  else Real.sqrt (sub * nu ^ 2 - q ^ 2) / Real.sqrt (env * nu ^ 2 - q ^ 2)

theorem C22_energy (env : ℝ) (L : List (ℝ × ℝ)) (sub : ℝ) (snu : Option ℝ) (nu q : ℝ) (pol : String)
    (hpol : pol = "p" ∨ pol = "s") (h0 : q ^ 2 < env * nu ^ 2) (hL : ∀ l ∈ L, q ^ 2 < l.1 * nu ^ 2)
    (hs : q ^ 2 < sub * nu ^ 2) :
    ∃ r t : ℂ, (layered env (L.map fun l => ((l.1 : ℂ), l.2)) sub snu).reflCoef (atQ q nu pol) =
        .ok (FP.num r) ∧
      (layered env (L.map fun l => ((l.1 : ℂ), l.2)) sub snu).transCoef (atQ q nu pol) =
        .ok (FP.num t) ∧
      ‖r‖ ^ 2 + fluxRatio pol nu q env sub * ‖t‖ ^ 2 = 1 := by
  have pos : ∀ e : ℝ, q ^ 2 < e * nu ^ 2 → 0 < e := by
    intro e he
    have : 0 < e * nu ^ 2 := lt_of_le_of_lt (sq_nonneg q) he
    rcases pos_and_pos_or_neg_and_neg_of_mul_pos this with h | h
    · exact h.1
    · exact absurd h.2 (not_lt.2 (sq_nonneg nu))
  have hk : ∀ e : ℝ, q ^ 2 < e * nu ^ 2 →
      kz nu q (e : ℂ) = (Real.sqrt (e * nu ^ 2 - q ^ 2) : ℝ) ∧ 0 < Real.sqrt (e * nu ^ 2 - q ^ 2) :=
    fun e he => ⟨kz_real (by linarith), Real.sqrt_pos.2 (by linarith)⟩
  have hk0 : ∀ e : ℝ, q ^ 2 < e * nu ^ 2 → kz nu q (e : ℂ) ≠ 0 := by
    intro e he
    rw [(hk e he).1]
    exact_mod_cast (hk e he).2.ne'
  set y : ℝ → ℝ := fun e => if pol = "p" then e / Real.sqrt (e * nu ^ 2 - q ^ 2)
    else 1 / Real.sqrt (e * nu ^ 2 - q ^ 2) with hy
  have hadm : ∀ e : ℝ, q ^ 2 < e * nu ^ 2 → adm pol nu q (e : ℂ) = (y e : ℂ) := by
    intro e he
    simp only [adm, hy, (hk e he).1]
    split_ifs <;> push_cast <;> rfl
  have hypos : ∀ e : ℝ, q ^ 2 < e * nu ^ 2 → 0 < y e := by
    intro e he
    have := (hk e he).2
    have := pos e he
    simp only [hy]
    split_ifs <;> positivity
  have hr : FarRegular pol nu q env (L.map fun l => ((l.1 : ℂ), l.2)) sub := by
    refine ⟨⟨hk0 _ h0, ?_⟩, fun _ => ⟨?_, ?_⟩⟩
    · intro l hl
      obtain ⟨l', h1, rfl⟩ := List.mem_map.1 hl
      exact hk0 _ (hL l' h1)
    · intro l hl
      obtain ⟨l', h1, rfl⟩ := List.mem_map.1 hl
      exact Complex.ofReal_ne_zero.2 (pos _ (hL l' h1)).ne'
    · exact_mod_cast (pos _ hs).ne'
  have hfar : farMat pol nu q env (L.map fun l => ((l.1 : ℂ), l.2)) sub =
      gen (y env) ((L.map fun l => (y l.1, Real.sqrt (l.1 * nu ^ 2 - q ^ 2) * l.2)).map
        fun l => ((l.1 : ℂ), -Complex.I * (l.2 : ℂ))) (y sub) := by
    unfold farMat
    rw [hadm _ h0, hadm _ hs]
    congr 1
    simp only [List.map_map, Function.comp_def]
    refine List.map_congr_left fun l hl => ?_
    rw [hadm _ (hL l hl), (hk _ (hL l hl)).1]
    push_cast
    rfl
  have hen := gen_lossless (y env) (L.map fun l => (y l.1, Real.sqrt (l.1 * nu ^ 2 - q ^ 2) * l.2))
    (y sub) (by
      intro l hl
      obtain ⟨l', h1, rfl⟩ := List.mem_map.1 hl
      exact (hypos _ (hL l' h1)).ne') (hypos _ hs).ne'
  rw [← hfar] at hen
  set A := farMat pol nu q env (L.map fun l => ((l.1 : ℂ), l.2)) sub 0 0 with hA
  set B := farMat pol nu q env (L.map fun l => ((l.1 : ℂ), l.2)) sub 1 0 with hB
  have hratio : 0 < y env / y sub := div_pos (hypos _ h0) (hypos _ hs)
  have hA0 : A ≠ 0 := by
    intro h
    rw [h, map_zero] at hen
    linarith [Complex.normSq_nonneg B]
  refine ⟨B / A, 1 / A, ?_, ?_, ?_⟩
  · rw [reflCoef_eq pol _ _ _ snu nu q hpol hr, ← hA, ← hB, FP.num_div _ hA0]
  · rw [transCoef_eq pol _ _ _ snu nu q hpol hr, ← hA, FP.num_div _ hA0]
  · have hflux : fluxRatio pol nu q env sub = y env / y sub := by
      have h1 := (hk _ h0).2
      have h2 := (hk _ hs).2
      have h3 := pos _ h0
      have h4 := pos _ hs
      simp only [fluxRatio, hy]
      split_ifs <;> field_simp
    have hAn : 0 < ‖A‖ := norm_pos_iff.2 hA0
    rw [hflux, ← hen, norm_div, norm_div, norm_one, Complex.normSq_eq_norm_sq,
      Complex.normSq_eq_norm_sq]
    field_simp
    ring

/-- A film on glass. -/
example : ∃ r t : ℂ, (layered (1 : ℝ) ([((4 : ℝ), (7 : ℝ))].map fun l => ((l.1 : ℂ), l.2)) (9 / 4 : ℝ)).reflCoef
      (atQ (1 / 2) 1 "p") = .ok (FP.num r) ∧
    (layered (1 : ℝ) ([((4 : ℝ), (7 : ℝ))].map fun l => ((l.1 : ℂ), l.2)) (9 / 4 : ℝ)).transCoef
      (atQ (1 / 2) 1 "p") = .ok (FP.num t) ∧
    ‖r‖ ^ 2 + fluxRatio "p" 1 (1 / 2) 1 (9 / 4) * ‖t‖ ^ 2 = 1 :=
  C22_energy 1 [(4, 7)] (9 / 4) none 1 (1 / 2) "p" (by simp) (by norm_num)
    (by intro l hl; simp only [List.mem_singleton] at hl; subst hl; norm_num) (by norm_num)

/-! ## C23 The far field tends to the quasistatic limit -/

theorem C23_static (env : ℂ) (L : List (ℂ × ℝ)) (sub : ℂ) (snu : Option ℝ) (q : ℝ) (hq : 0 < q)
    (hclip : ∀ l ∈ L, |q * l.2| ≤ maxExpArg) :
    (layered env L sub snu).transferMatrix (atQ q 0 "p") =
      (layered env L sub snu).transferMatrixQs (FP.num q) := by
  have hq' : (q : ℂ) ≠ 0 := by exact_mod_cast hq.ne'
  have hIq : Complex.I * (q : ℂ) ≠ 0 := mul_ne_zero Complex.I_ne_zero hq'
  have hk : ∀ e, kz 0 q e ≠ 0 := fun e => by rw [kz_static hq]; exact hIq
  by_cases h : (∃ l ∈ L, l.1 = 0) ∨ sub = 0
  · rw [transferMatrixQs_zero _ _ _ _ _ h, transferMatrix_singular "p" env L sub snu 0 q (by simp)]
    intro hr
    have := hr.2 rfl
    rcases h with ⟨l, h1, h2⟩ | h
    · exact this.1 l h1 h2
    · exact this.2 h
  · simp only [not_or, not_exists, not_and] at h
    rw [transferMatrix_layered "p" env L sub snu 0 q (by simp)
      ⟨⟨hk _, fun l _ => hk _⟩, fun _ => h⟩, transferMatrixQs_layered _ _ _ _ _ h.1 h.2]
    congr 2
    unfold farMat qsMat
    simp only [adm, if_true, kz_static hq]
    rw [← gen_scale (Complex.I * q)⁻¹ env _ _ (inv_ne_zero hIq), List.map_map]
    simp only [Function.comp_def, div_eq_inv_mul]
    congr 1
    refine List.map_congr_left fun l hl => ?_
    rw [clipped_of_abs_le (hclip l hl)]
    congr 1
    push_cast
    rw [show -Complex.I * (Complex.I * (q : ℂ) * l.2) = -(Complex.I * Complex.I) * (q * l.2) by ring,
      Complex.I_mul_I]
    ring

/-- `refl_coef` is finite for all small `nu` and tends to `refl_coef_qs`. -/
theorem C23_limit (env : ℝ) (L : List (ℂ × ℝ)) (sub : ℂ) (snu : Option ℝ) (q : ℝ) (hq : 0 < q)
    (h0 : 0 < env) (hL : ∀ l ∈ L, Passive l.1 ∧ 0 ≤ l.2) (hs : Passive sub)
    (hclip : ∀ l ∈ L, q * l.2 ≤ maxExpArg) :
    ∃ (r : ℝ → ℂ) (β : ℂ), (layered env L sub snu).reflCoefQs (FP.num q) = .ok (FP.num β) ∧
      (∀ᶠ nu in 𝓝 (0 : ℝ), (layered env L sub snu).reflCoef (atQ q nu "p") = .ok (FP.num (r nu))) ∧
      Tendsto r (𝓝 0) (𝓝 β) := by
  have hpn : ∀ e : ℂ, Passive e → e ≠ 0 := fun e he => posCone_upper.ne_zero he
  have hpi : ∀ e : ℂ, Passive e → 0 ≤ e.im := by
    intro e he; rcases he with h | ⟨h, _⟩ <;> linarith
  have henv : Passive (env : ℂ) := Or.inr ⟨by simp, by simpa⟩
  have hq' : (q : ℂ) ≠ 0 := by exact_mod_cast hq.ne'
  have hIq : Complex.I * (q : ℂ) ≠ 0 := mul_ne_zero Complex.I_ne_zero hq'
  -- convergence of the matrix
  have hT : Tendsto (fun nu => farMat "p" nu q env L sub) (𝓝 0) (𝓝 (farMat "p" 0 q env L sub)) := by
    have := tendsto_gen (l := 𝓝 (0 : ℝ)) (fun (b : ℂ × ℝ) nu => adm "p" nu q b.1)
      (fun b nu => -Complex.I * (kz nu q b.1 * b.2)) (fun b => adm "p" 0 q b.1)
      (fun b => -Complex.I * (kz 0 q b.1 * b.2)) ((env : ℂ), (0 : ℝ)) L (sub, (0 : ℝ)) ?_ ?_ ?_
    · exact this
    · intro b hb
      have hbp : Passive b.1 := by
        simp only [List.mem_cons, List.mem_append, List.not_mem_nil, or_false] at hb
        rcases hb with rfl | hb | rfl
        · exact henv
        · exact (hL b hb).1
        · exact hs
      simp only [adm, if_true, kz_static hq]
      exact tendsto_const_nhds.div (tendsto_kz hq (hpi _ hbp)) hIq
    · intro b hb
      rw [kz_static hq]
      exact tendsto_const_nhds.mul ((tendsto_kz hq (hpi _ (hL b hb).1)).mul tendsto_const_nhds)
    · intro b hb
      simp only [adm, if_true, kz_static hq]
      refine div_ne_zero ?_ hIq
      simp only [List.mem_append, List.mem_singleton] at hb
      rcases hb with hb | rfl
      · exact hpn _ (hL b hb).1
      · exact hpn _ hs
  -- the limit is the quasistatic matrix
  have hstat : farMat "p" 0 q env L sub = qsMat q env L sub := by
    have h1 := C23_static env L sub snu q hq (fun l hl => by
      rw [abs_of_nonneg (mul_nonneg hq.le (hL l hl).2)]; exact hclip l hl)
    have hk : ∀ e, kz 0 q e ≠ 0 := fun e => by rw [kz_static hq]; exact hIq
    rw [transferMatrix_layered "p" env L sub snu 0 q (by simp)
      ⟨⟨hk _, fun l _ => hk _⟩, fun _ => ⟨fun l hl => hpn _ (hL l hl).1, hpn _ hs⟩⟩,
      transferMatrixQs_layered _ _ _ _ _ (fun l hl => hpn _ (hL l hl).1) (hpn _ hs)] at h1
    have h2 := Except.ok.inj h1
    unfold toFP at h2
    simp only [Mat2.mk.injEq, FP.num.injEq] at h2
    ext i j
    fin_cases i <;> fin_cases j
    · exact h2.1
    · exact h2.2.1
    · exact h2.2.2.1
    · exact h2.2.2.2
  rw [hstat] at hT
  have ent : ∀ i j, Tendsto (fun nu => farMat "p" nu q env L sub i j) (𝓝 0)
      (𝓝 (qsMat q env L sub i j)) := fun i j => by
    have hc : Continuous fun M : CMat => M i j := continuous_id.matrix_elem i j
    exact (hc.tendsto _).comp hT
  have hA0 : qsMat q env L sub 0 0 ≠ 0 := by
    have := gen_refl posCone_upper (env : ℂ) (L.map fun l => (l.1, clipped (q * l.2))) sub henv hs (by
      intro l hl
      obtain ⟨l', h1, rfl⟩ := List.mem_map.1 hl
      exact ⟨(hL l' h1).1, clipped_nonneg (mul_nonneg hq.le (hL l' h1).2)⟩)
    rw [← qsMat_eq] at this
    exact this.1
  refine ⟨fun nu => farMat "p" nu q env L sub 1 0 / farMat "p" nu q env L sub 0 0,
    qsMat q env L sub 1 0 / qsMat q env L sub 0 0,
    reflCoefQs_num _ _ _ _ _ (fun l hl => hpn _ (hL l hl).1) (hpn _ hs) hA0, ?_,
    (ent 1 0).div (ent 0 0) hA0⟩
  have hkev : ∀ e : ℂ, Passive e → ∀ᶠ nu in 𝓝 (0 : ℝ), kz nu q e ≠ 0 := fun e he =>
    (tendsto_kz hq (hpi _ he)).eventually_ne hIq
  have hLev : ∀ᶠ nu in 𝓝 (0 : ℝ), ∀ l ∈ L, kz nu q l.1 ≠ 0 := by
    clear hclip hT hstat ent hA0
    induction L with
    | nil => simp
    | cons l L ih =>
      filter_upwards [hkev l.1 (hL l (by simp)).1, ih fun l' hl' => hL l' (by simp [hl'])]
        with nu h1 h2 l' hl'
      rcases List.mem_cons.1 hl' with rfl | hl'
      · exact h1
      · exact h2 l' hl'
  filter_upwards [hkev _ henv, hLev, (ent 0 0).eventually_ne hA0] with nu h1 h2 h3
  rw [reflCoef_eq "p" env L sub snu nu q (by simp) ⟨⟨h1, h2⟩, fun _ =>
    ⟨fun l hl => hpn _ (hL l hl).1, hpn _ hs⟩⟩, FP.num_div _ h3]

example : ∃ (r : ℝ → ℂ) (β : ℂ),
    (layered (1 : ℝ) [(⟨-2, 1⟩, 30)] 11.7).reflCoefQs (FP.num 0.1) = .ok (FP.num β) ∧
    (∀ᶠ nu in 𝓝 (0 : ℝ), (layered (1 : ℝ) [(⟨-2, 1⟩, 30)] 11.7).reflCoef (atQ 0.1 nu "p") =
      .ok (FP.num (r nu))) ∧ Tendsto r (𝓝 0) (𝓝 β) :=
  C23_limit 1 [(⟨-2, 1⟩, 30)] 11.7 none 0.1 (by norm_num) one_pos
    (by intro l hl; simp only [List.mem_singleton] at hl; subst hl; simp [Passive])
    (Or.inr (by norm_num)) (by intro l hl; simp only [List.mem_singleton] at hl; subst hl; have := maxExpArg_gt; norm_num; linarith)

/-! ## C24 Far-field argument validation -/

/-- The documented reasons to refuse a far-field call. -/
def FarInvalid (s : Stack (FP ℝ) (FP ℂ)) (a : Stack.FarArgs (FP ℝ)) : Prop :=
  (a.nuVac = none ∧ s.nuVac = none ∧ 2 < s.eps.length) ∨
  (a.q ≠ none ∧ a.thetaIn ≠ none) ∨
  (a.polarization ≠ "p" ∧ a.polarization ≠ "s")

theorem C24_matrix (s : Stack (FP ℝ) (FP ℂ)) (a : Stack.FarArgs (FP ℝ)) (hs : 2 ≤ s.eps.length) :
    (FarInvalid s a ∧ ∃ msg, s.transferMatrix a = .error (.valueError msg)) ∨
    (¬ FarInvalid s a ∧ ∃ M, s.transferMatrix a = .ok M) := by
  obtain ⟨aq, ath, anu, apol⟩ := a
  have hmul : s.multilayer = decide (2 < s.eps.length) := rfl
  -- the last step
  have hlast : ∀ nu q : FP ℝ,
      ((apol ≠ "p" ∧ apol ≠ "s") ∧ ∃ msg, (do
        let tf ← Stack.farTransFactor (s.eps.zip (s.nuZ nu q)) apol
        s.farMatrix tf (s.nuZ nu q)) = .error (.valueError msg)) ∨
      (¬ (apol ≠ "p" ∧ apol ≠ "s") ∧ ∃ M, (do
        let tf ← Stack.farTransFactor (s.eps.zip (s.nuZ nu q)) apol
        s.farMatrix tf (s.nuZ nu q)) = .ok M) := by
    intro nu q
    have hmat : ∀ (f : FP ℂ × FP ℂ → FP ℂ × FP ℂ → FP ℂ), ∃ M, s.farMatrix
        (List.zipWith f (s.eps.zip (s.nuZ nu q)).dropLast (s.eps.zip (s.nuZ nu q)).tail)
        (s.nuZ nu q) = .ok M := by
      intro f
      unfold Stack.farMatrix
      obtain ⟨e0, e1, es, he⟩ : ∃ e0 e1 es, s.eps = e0 :: e1 :: es := by
        match h : s.eps, hs with
        | a :: b :: l, _ => exact ⟨a, b, l, rfl⟩
      simp only [Stack.nuZ, he, List.map_cons, List.zip_cons_cons]
      rw [zipWith_adj]
      simp only [adj, List.map_cons]
      split_ifs <;> exact ⟨_, rfl⟩
    by_cases hp : apol = "p"
    · right
      refine ⟨fun h => h.1 hp, ?_⟩
      simp only [Stack.farTransFactor, hp, if_true, PyM.ok_bind]
      exact hmat _
    · by_cases hs' : apol = "s"
      · right
        refine ⟨fun h => h.2 hs', ?_⟩
        have hsp : ("s" : String) ≠ "p" := by decide
        simp only [Stack.farTransFactor, hs', hsp, if_false, if_true, PyM.ok_bind]
        exact hmat _
      · left
        refine ⟨⟨hp, hs'⟩, "`polarization` must be 's' or 'p'", ?_⟩
        simp only [Stack.farTransFactor, hp, hs', if_false, PyM.error_bind]
  -- the wavenumber
  have hnu : ((anu = none ∧ s.nuVac = none ∧ 2 < s.eps.length) ∧
      ∃ msg, s.resolveNu anu = .error (.valueError msg)) ∨
      (¬ (anu = none ∧ s.nuVac = none ∧ 2 < s.eps.length) ∧ ∃ nu, s.resolveNu anu = .ok nu) := by
    unfold Stack.resolveNu
    cases anu with
    | some nu => right; simp
    | none =>
      cases h : s.nuVac with
      | some nu => right; simp
      | none =>
        simp only [hmul]
        by_cases hm : 2 < s.eps.length
        · left; simp [hm]
        · right; simp [hm]
  unfold Stack.transferMatrix FarInvalid
  simp only
  rcases hnu with ⟨h, msg, hm⟩ | ⟨h, nu, hm⟩
  · left
    exact ⟨Or.inl h, msg, by rw [hm]; rfl⟩
  · rw [hm]
    simp only [PyM.ok_bind]
    cases aq with
    | none =>
      cases ath with
      | none =>
        rcases hlast nu (lit 0) with ⟨h1, h2⟩ | ⟨h1, h2⟩
        · left; exact ⟨Or.inr (Or.inr h1), h2⟩
        · right; exact ⟨by simp only [ne_eq, not_true_eq_false, false_and, false_or, not_or]; exact ⟨h, h1⟩, h2⟩
      | some th =>
        rcases hlast nu (nu * RealOps.sin (RealOps.abs th)) with ⟨h1, h2⟩ | ⟨h1, h2⟩
        · left; exact ⟨Or.inr (Or.inr h1), h2⟩
        · right; exact ⟨by simp only [ne_eq, not_true_eq_false, false_and, false_or, not_or]; exact ⟨h, h1⟩, h2⟩
    | some q =>
      cases ath with
      | none =>
        rcases hlast nu q with ⟨h1, h2⟩ | ⟨h1, h2⟩
        · left; exact ⟨Or.inr (Or.inr h1), h2⟩
        · right; exact ⟨by simp only [ne_eq, not_true_eq_false, and_false, false_or, not_or]; exact ⟨h, h1⟩, h2⟩
      | some th =>
        left
        exact ⟨Or.inr (Or.inl ⟨by simp, by simp⟩), _, rfl⟩

theorem C24_coefs (s : Stack (FP ℝ) (FP ℂ)) (a : Stack.FarArgs (FP ℝ)) (hs : 2 ≤ s.eps.length) :
    (FarInvalid s a ∧ (∃ msg, s.reflCoef a = .error (.valueError msg)) ∧
      ∃ msg, s.transCoef a = .error (.valueError msg)) ∨
    (¬ FarInvalid s a ∧ (∃ r, s.reflCoef a = .ok r) ∧ ∃ t, s.transCoef a = .ok t) := by
  unfold Stack.reflCoef Stack.transCoef
  rcases C24_matrix s a hs with ⟨h, msg, hm⟩ | ⟨h, M, hm⟩
  · left; rw [hm]; exact ⟨h, ⟨msg, rfl⟩, msg, rfl⟩
  · right; rw [hm]; exact ⟨h, ⟨_, rfl⟩, _, rfl⟩

/-- A wavenumber given at the call wins; the one given at construction is used otherwise. -/
theorem C24_precedence (s : Stack (FP ℝ) (FP ℂ)) (a : Stack.FarArgs (FP ℝ)) (nu : FP ℝ)
    (other : Option (FP ℝ)) :
    { s with nuVac := other }.transferMatrix { a with nuVac := some nu } =
      s.transferMatrix { a with nuVac := some nu } ∧
    { s with nuVac := some nu }.transferMatrix { a with nuVac := none } =
      s.transferMatrix { a with nuVac := some nu } :=
  ⟨rfl, rfl⟩

example : ∃ msg, (layered 1 [(2, 3)] 4).transferMatrix {} = .error (.valueError msg) := by
  rcases C24_matrix (layered 1 [(2, 3)] 4) {} (by simp [layered]) with h | h
  · exact h.2
  · exact absurd (Or.inl ⟨rfl, rfl, by simp [layered]⟩) h.1
example : ∃ M, (layered 1 [(2, 3)] 4).transferMatrix (atQ 1 1 "s") = .ok M := by
  rcases C24_matrix (layered 1 [(2, 3)] 4) (atQ 1 1 "s") (by simp [layered]) with h | h
  · rcases h.1 with h | h | h <;> simp [atQ] at h
  · exact h.2

/-! ## C27 Far-field results depend only on nu*t and q/nu -/

theorem C27_scale (c : ℝ) (hc : 0 < c) (env : ℂ) (L : List (ℂ × ℝ)) (sub : ℂ) (snu snu' : Option ℝ)
    (nu q : ℝ) (pol : String) :
    (layered env (L.map fun l => (l.1, l.2 / c)) sub snu').transferMatrix (atQ (c * q) (c * nu) pol) =
      (layered env L sub snu).transferMatrix (atQ q nu pol) := by
  have hcc : (c : ℂ) ≠ 0 := by exact_mod_cast hc.ne'
  have hk : ∀ e, kz (c * nu) (c * q) e = c * kz nu q e := kz_scale hc nu q
  have hadm : ∀ e, adm pol (c * nu) (c * q) e = (c : ℂ)⁻¹ * adm pol nu q e := by
    intro e
    unfold adm
    rw [hk]
    split_ifs <;> rw [div_eq_mul_inv, div_eq_mul_inv, mul_inv] <;> ring
  refine transferMatrix_ext ?_ fun _ => ?_
  · unfold FarRegular
    simp only [List.mem_map, forall_exists_index, and_imp, forall_apply_eq_imp_iff₂, hk, ne_eq,
      mul_eq_zero, hcc, false_or]
  · unfold farMat
    simp only [hadm, hk, List.map_map, Function.comp_def]
    rw [← gen_scale (c : ℂ)⁻¹ (adm pol nu q env) _ _ (inv_ne_zero hcc), List.map_map]
    congr 1
    refine List.map_congr_left fun l _ => ?_
    simp only [Function.comp_apply]
    congr 1
    push_cast
    field_simp

theorem C27_angle (s : Stack (FP ℝ) (FP ℂ)) (theta nu : ℝ) (pol : String) :
    s.transferMatrix (atAngle (-theta) nu pol) = s.transferMatrix (atAngle theta nu pol) ∧
    s.transferMatrix (atAngle theta nu pol) = s.transferMatrix (atQ (nu * Real.sin |theta|) nu pol) := by
  refine ⟨?_, transferMatrix_atAngle s theta nu pol⟩
  rw [transferMatrix_atAngle, transferMatrix_atAngle, abs_neg]

/-- Wavenumbers in 1/m, or in 1/µm. -/
example : (layered 1 [(3, 2 / 1e6)] 4).transferMatrix (atQ (1e6 * 0.5) (1e6 * 1) "s") =
    (layered 1 [(3, 2)] 4).transferMatrix (atQ 0.5 1 "s") :=
  C27_scale 1e6 (by norm_num) 1 [(3, 2)] 4 none none 1 0.5 "s"

/-! ## C25 nu_vac has no effect for bulk samples -/

/-- Angle given. -/
theorem C25_angle (env sub : ℂ) (snu snu' : Option ℝ) (theta nu nu' : ℝ) (pol : String)
    (h : 0 < nu) (h' : 0 < nu') :
    (bulk env sub snu).transferMatrix (atAngle theta nu pol) =
      (bulk env sub snu').transferMatrix (atAngle theta nu' pol) := by
  rw [transferMatrix_atAngle, transferMatrix_atAngle]
  have h1 := C27_scale nu h env [] sub snu snu 1 (Real.sin |theta|) pol
  have h2 := C27_scale nu' h' env [] sub snu snu' 1 (Real.sin |theta|) pol
  rw [mul_one] at h1 h2
  exact h1.trans h2.symm

/-- Angle given, no wavenumber anywhere. -/
theorem C25_angle_default (env sub : ℂ) (theta nu : ℝ) (pol : String) (h : 0 < nu) :
    (bulk env sub).transferMatrix { thetaIn := some (FP.num theta), polarization := pol } =
      (bulk env sub).transferMatrix (atAngle theta nu pol) := by
  rw [C25_angle env sub none none theta nu 1 pol h one_pos]
  rfl

/-- No direction given. -/
theorem C25_none (env sub : ℂ) (snu snu' : Option ℝ) (nu nu' : ℝ) (pol : String)
    (h : 0 < nu) (h' : 0 < nu') :
    (bulk env sub snu).transferMatrix { nuVac := some (FP.num nu), polarization := pol } =
      (bulk env sub snu').transferMatrix { nuVac := some (FP.num nu'), polarization := pol } := by
  have e : ∀ (s : Stack (FP ℝ) (FP ℂ)) (nu : ℝ),
      s.transferMatrix { nuVac := some (FP.num nu), polarization := pol } =
        s.transferMatrix (atQ 0 nu pol) := fun s nu => rfl
  rw [e, e]
  have h1 := C27_scale nu h env [] sub snu snu 1 0 pol
  have h2 := C27_scale nu' h' env [] sub snu snu' 1 0 pol
  rw [mul_one, mul_zero] at h1 h2
  exact h1.trans h2.symm

/-- The reflection of a lossless bulk sample at momentum `q`, s polarization. -/
theorem bulk_s (env sub : ℝ) (snu : Option ℝ) (nu q : ℝ) (h0 : q ^ 2 < env * nu ^ 2)
    (hs : q ^ 2 < sub * nu ^ 2) :
    (bulk env sub snu).reflCoef (atQ q nu "s") =
      .ok (FP.num (((Real.sqrt (env * nu ^ 2 - q ^ 2) - Real.sqrt (sub * nu ^ 2 - q ^ 2)) /
        (Real.sqrt (env * nu ^ 2 - q ^ 2) + Real.sqrt (sub * nu ^ 2 - q ^ 2)) : ℝ) : ℂ)) := by
  have k0 := kz_real (nu := nu) (q := q) (e := env) (by linarith)
  have k1 := kz_real (nu := nu) (q := q) (e := sub) (by linarith)
  have p0 : 0 < Real.sqrt (env * nu ^ 2 - q ^ 2) := Real.sqrt_pos.2 (by linarith)
  have p1 : 0 < Real.sqrt (sub * nu ^ 2 - q ^ 2) := Real.sqrt_pos.2 (by linarith)
  have hsp : ("s" : String) ≠ "p" := by decide
  have hr : FarRegular "s" nu q env [] sub := by
    refine ⟨⟨?_, by simp⟩, fun h => absurd h hsp⟩
    rw [k0]; exact_mod_cast p0.ne'
  unfold bulk
  rw [reflCoef_eq "s" _ _ _ snu nu q (by simp) hr]
  simp only [farMat, gen, TM, adm, List.map_nil, hsp, if_false, k0, k1, Matrix.of_apply,
    Matrix.cons_val', Matrix.cons_val_zero, Matrix.cons_val_one, Matrix.cons_val_fin_one]
  generalize Real.sqrt (env * nu ^ 2 - q ^ 2) = a at *
  generalize Real.sqrt (sub * nu ^ 2 - q ^ 2) = b at *
  have e1 : (1 + 1 / (a : ℂ) / (1 / (b : ℂ))) / 2 = (((a + b) / (2 * a) : ℝ) : ℂ) := by
    have : (a : ℂ) ≠ 0 := by exact_mod_cast p0.ne'
    push_cast; field_simp
  have e2 : (1 - 1 / (a : ℂ) / (1 / (b : ℂ))) / 2 = (((a - b) / (2 * a) : ℝ) : ℂ) := by
    have : (a : ℂ) ≠ 0 := by exact_mod_cast p0.ne'
    push_cast; field_simp
  have hne : (a + b) / (2 * a) ≠ 0 := by positivity
  rw [e1, e2, FP.num_div _ (by exact_mod_cast hne), ← Complex.ofReal_div]
  congr 3
  field_simp

/-- The ratio of the wavevectors can be read off the reflection coefficient. -/
theorem fresnel_inj {A B C D : ℝ} (hA : 0 < A) (hB : 0 < B) (hC : 0 < C) (hD : 0 < D)
    (h : (√A - √B) / (√A + √B) = (√C - √D) / (√C + √D)) : A * D = B * C := by
  have pA := Real.sqrt_pos.2 hA
  have pB := Real.sqrt_pos.2 hB
  have pC := Real.sqrt_pos.2 hC
  have pD := Real.sqrt_pos.2 hD
  rw [div_eq_div_iff (by positivity) (by positivity)] at h
  have h1 : √A * √D = √B * √C := by linarith
  have h2 : (√A * √D) ^ 2 = (√B * √C) ^ 2 := by rw [h1]
  rwa [mul_pow, mul_pow, Real.sq_sqrt hA.le, Real.sq_sqrt hB.le, Real.sq_sqrt hC.le,
    Real.sq_sqrt hD.le] at h2

/-- With an explicit momentum the comment "nu_vac has no effect for bulk samples" is false. -/
theorem C25_explicit_q : ∃ (env sub q nu nu' : ℝ), 0 < nu ∧ 0 < nu' ∧
    (bulk env sub).reflCoef (atQ q nu "s") ≠ (bulk env sub).reflCoef (atQ q nu' "s") := by
  refine ⟨1, 2, 1 / 2, 1, 2, one_pos, two_pos, ?_⟩
  rw [bulk_s 1 2 none 1 (1 / 2) (by norm_num) (by norm_num),
    bulk_s 1 2 none 2 (1 / 2) (by norm_num) (by norm_num)]
  intro h
  have h := fresnel_inj (by norm_num) (by norm_num) (by norm_num) (by norm_num)
    (Complex.ofReal_injective (FP.num.inj (Except.ok.inj h)))
  norm_num at h

example : (bulk 1 4).reflCoef { thetaIn := some (FP.num 1), polarization := "p" } =
    (bulk 1 4).reflCoef (atAngle 1 1000 "p") :=
  (farCoefs_congr (C25_angle_default 1 4 1 1000 "p" (by norm_num))).1

/-! ## C26 theta_in is the angle of incidence in the environment

Full statement (false): for every environment of refractive index `n`, `theta_in = θ` means momentum
`n ν sin |θ|`.  The code takes `ν sin |θ|`, so it holds for `n = 1` only. -/

theorem C26_vacuum_partial (n : ℝ) (hn : n = 1) (L : List (ℂ × ℝ)) (sub : ℂ) (snu : Option ℝ)
    (theta nu : ℝ) (pol : String) :
    (layered ((n ^ 2 : ℝ) : ℂ) L sub snu).reflCoef (atAngle theta nu pol) =
      (layered ((n ^ 2 : ℝ) : ℂ) L sub snu).reflCoef (atQ (n * nu * Real.sin |theta|) nu pol) := by
  subst hn
  rw [one_mul]
  exact (farCoefs_congr (transferMatrix_atAngle _ theta nu pol)).1

/-- What the code computes: light whose angle `φ` in the environment is given by Snell's law with
`theta_in` as the angle in vacuum. -/
theorem C26_snell (n : ℝ) (L : List (ℂ × ℝ)) (sub : ℂ) (snu : Option ℝ)
    (theta phi nu : ℝ) (pol : String) (h : n * Real.sin |phi| = Real.sin |theta|) :
    (layered ((n ^ 2 : ℝ) : ℂ) L sub snu).reflCoef (atAngle theta nu pol) =
      (layered ((n ^ 2 : ℝ) : ℂ) L sub snu).reflCoef (atQ (n * nu * Real.sin |phi|) nu pol) := by
  rw [show n * nu * Real.sin |phi| = nu * Real.sin |theta| by rw [← h]; ring]
  exact (farCoefs_congr (transferMatrix_atAngle _ theta nu pol)).1

/-- In an environment of refractive index 2, 30° is not the angle of incidence. -/
theorem C26_false : ∃ (n sub theta nu : ℝ), 0 < n ∧ 0 < nu ∧
    (bulk ((n ^ 2 : ℝ) : ℂ) sub).reflCoef (atAngle theta nu "s") ≠
      (bulk ((n ^ 2 : ℝ) : ℂ) sub).reflCoef (atQ (n * nu * Real.sin |theta|) nu "s") := by
  refine ⟨2, 9, Real.pi / 6, 1, two_pos, one_pos, ?_⟩
  rw [(farCoefs_congr (transferMatrix_atAngle _ (Real.pi / 6) 1 "s")).1,
    abs_of_pos (by positivity), Real.sin_pi_div_six,
    bulk_s _ 9 none 1 (1 * (1 / 2)) (by norm_num) (by norm_num),
    bulk_s _ 9 none 1 (2 * 1 * (1 / 2)) (by norm_num) (by norm_num)]
  intro h
  have h := fresnel_inj (by norm_num) (by norm_num) (by norm_num) (by norm_num)
    (Complex.ofReal_injective (FP.num.inj (Except.ok.inj h)))
  norm_num at h

/-- Where it holds for a transparent bulk sample: in vacuum, at normal incidence, and without a sample. -/
theorem C26_exact (n sub theta nu : ℝ) (hn : 0 < n) (hnu : 0 < nu) (h1 : Real.sin |theta| ^ 2 < n ^ 2)
    (h2 : Real.sin |theta| ^ 2 < sub) (h3 : Real.sin |theta| ^ 2 < 1) (h4 : (n * Real.sin |theta|) ^ 2 < sub) :
    (bulk ((n ^ 2 : ℝ) : ℂ) sub).reflCoef (atAngle theta nu "s") =
      (bulk ((n ^ 2 : ℝ) : ℂ) sub).reflCoef (atQ (n * nu * Real.sin |theta|) nu "s") ↔
    n = 1 ∨ Real.sin |theta| = 0 ∨ sub = n ^ 2 := by
  generalize hs : Real.sin |theta| = σ at *
  have p2 : 0 < nu ^ 2 := by positivity
  have a1 : 0 < n ^ 2 * nu ^ 2 - (nu * σ) ^ 2 := by nlinarith
  have a2 : 0 < sub * nu ^ 2 - (nu * σ) ^ 2 := by nlinarith
  have a3 : 0 < n ^ 2 * nu ^ 2 - (n * nu * σ) ^ 2 := by
    have : 0 < n ^ 2 * nu ^ 2 * (1 - σ ^ 2) := by
      have : 0 < 1 - σ ^ 2 := by linarith
      positivity
    nlinarith
  have a4 : 0 < sub * nu ^ 2 - (n * nu * σ) ^ 2 := by nlinarith
  rw [(farCoefs_congr (transferMatrix_atAngle _ theta nu "s")).1, hs,
    bulk_s _ sub none nu (nu * σ) (sub_pos.1 a1) (sub_pos.1 a2),
    bulk_s _ sub none nu (n * nu * σ) (sub_pos.1 a3) (sub_pos.1 a4)]
  constructor
  · intro h
    have h := fresnel_inj a1 a2 a3 a4 (Complex.ofReal_injective (FP.num.inj (Except.ok.inj h)))
    have e : (n - 1) * (σ * (sub - n ^ 2)) = 0 := by
      have hz : (n + 1) * nu ^ 4 * σ ≠ 0 ∨ σ = 0 := by
        by_cases hσ : σ = 0
        · exact Or.inr hσ
        · left
          have : 0 < (n + 1) * nu ^ 4 := by positivity
          exact mul_ne_zero this.ne' hσ
      rcases hz with hz | hz
      · refine (mul_eq_zero.1 (?_ : (n + 1) * nu ^ 4 * σ * ((n - 1) * (σ * (sub - n ^ 2))) = 0)).resolve_left hz
        linear_combination h
      · rw [hz]; ring
    rcases mul_eq_zero.1 e with e | e
    · exact Or.inl (by linarith)
    · rcases mul_eq_zero.1 e with e | e
      · exact Or.inr (Or.inl e)
      · exact Or.inr (Or.inr (by linarith))
  · rintro (rfl | rfl | rfl)
    · simp
    · simp
    · simp

example : (bulk (((2 : ℝ) ^ 2 : ℝ) : ℂ) ((9 : ℝ) : ℂ)).reflCoef (atAngle (Real.pi / 6) 1 "s") ≠
    (bulk (((2 : ℝ) ^ 2 : ℝ) : ℂ) ((9 : ℝ) : ℂ)).reflCoef (atQ (2 * 1 * Real.sin |Real.pi / 6|) 1 "s") := by
  have h : Real.sin |Real.pi / 6| = 1 / 2 := by rw [abs_of_pos (by positivity), Real.sin_pi_div_six]
  rw [Ne, C26_exact 2 9 (Real.pi / 6) 1 two_pos one_pos (by rw [h]; norm_num) (by rw [h]; norm_num)
    (by rw [h]; norm_num) (by rw [h]; norm_num), h]
  norm_num

example : (layered (((1 : ℝ) ^ 2 : ℝ) : ℂ) [(3, 2)] 4).reflCoef (atAngle 1 5 "s") =
    (layered (((1 : ℝ) ^ 2 : ℝ) : ℂ) [(3, 2)] 4).reflCoef (atQ (1 * 5 * Real.sin |1|) 5 "s") :=
  C26_vacuum_partial 1 rfl [(3, 2)] 4 none 1 5 "s"

end Snompy.Props
