import Verif.Lemmas.FarClassic
import Verif.Props.FarPassive
import Mathlib.Analysis.SpecificLimits.Normed
import Mathlib.Analysis.SpecialFunctions.Trigonometric.Arctan

/-!
# C84–C86: classical results on plane waves in stacks
-/

namespace Snompy.Props

open Snompy

theorem kz_re_nonneg (nu q : ℝ) (e : ℂ) : 0 ≤ (kz nu q e).re := csqrt_re_nonneg _

theorem kz_re_im {nu q : ℝ} {e : ℂ} :
    (kz nu q e).re ^ 2 - (kz nu q e).im ^ 2 = e.re * nu ^ 2 - q ^ 2 ∧
      2 * ((kz nu q e).re * (kz nu q e).im) = e.im * nu ^ 2 := by
  have h := kz_sq nu q e
  have h1 : (kz nu q e ^ 2).re = e.re * nu ^ 2 - q ^ 2 := by rw [h]; simp [← Complex.ofReal_pow]
  have h2 : (kz nu q e ^ 2).im = e.im * nu ^ 2 := by rw [h]; simp [← Complex.ofReal_pow]
  rw [sq, Complex.mul_re] at h1
  rw [sq, Complex.mul_im] at h2
  constructor <;> nlinarith

/-- Flux of a unit wave, up to a positive factor. -/
theorem adm_inv_re (pol : String) (nu q : ℝ) (e : ℂ) (he : e ≠ 0) (hnu : nu ≠ 0) :
    ∃ c : ℝ, 0 ≤ c ∧ (kz nu q e ≠ 0 → 0 < c) ∧ (1 / adm pol nu q e).re = c * (kz nu q e).re := by
  unfold adm
  split_ifs
  · obtain ⟨h1, h2⟩ := kz_re_im (nu := nu) (q := q) (e := e)
    set k := kz nu q e
    have hn : 0 < Complex.normSq e := Complex.normSq_pos.2 he
    refine ⟨(k.re ^ 2 + k.im ^ 2 + q ^ 2) / (nu ^ 2 * Complex.normSq e), by positivity, fun hk => ?_, ?_⟩
    · have : 0 < k.re ^ 2 + k.im ^ 2 := by
        have := Complex.normSq_pos.2 hk
        rw [Complex.normSq_apply] at this
        nlinarith
      positivity
    · rw [one_div_div, Complex.div_re, ← add_div]
      have h3 : (k.re * e.re + k.im * e.im) * nu ^ 2 = k.re * (k.re ^ 2 + k.im ^ 2 + q ^ 2) := by
        linear_combination (-k.re) * h1 - k.im * h2
      field_simp
      linear_combination h3
  · exact ⟨1, zero_le_one, fun _ => one_pos, by rw [one_div_one_div, one_mul]⟩

/-- The same for the wave itself. -/
theorem adm_re_pos (pol : String) (nu q : ℝ) (e : ℂ) (he : e ≠ 0) (hnu : nu ≠ 0) (hk : 0 < (kz nu q e).re) :
    0 < (adm pol nu q e).re := by
  have hk0 : kz nu q e ≠ 0 := fun h => by rw [h] at hk; simp at hk
  obtain ⟨c, -, hc, h⟩ := adm_inv_re pol nu q e he hnu
  have h1 : 0 < (1 / adm pol nu q e).re := by rw [h]; exact mul_pos (hc hk0) hk
  rw [one_div, Complex.inv_re] at h1
  by_contra hn
  exact absurd h1 (not_lt.2 (div_nonpos_of_nonpos_of_nonneg (not_lt.1 hn) (Complex.normSq_nonneg _)))

/-- What the flux theorems need to know about the layers. -/
theorem passive_layer (pol : String) (nu q : ℝ) (e : ℂ) (he : Passive e) (hk : kz nu q e ≠ 0) :
    adm pol nu q e ≠ 0 ∧ 0 ≤ (kz nu q e * adm pol nu q e).im ∧ 0 ≤ (kz nu q e / adm pol nu q e).im := by
  have he0 : e ≠ 0 := posCone_upper.ne_zero he
  have hi : 0 ≤ e.im := by rcases he with h | ⟨h, _⟩ <;> linarith
  have hsq := kz_sq nu q e
  have him : (kz nu q e ^ 2).im = e.im * nu ^ 2 := by
    rw [hsq]
    simp [← Complex.ofReal_pow]
  simp only [adm]
  split_ifs
  · refine ⟨div_ne_zero he0 hk, ?_, ?_⟩
    · rw [mul_div_cancel₀ _ hk]
      exact hi
    · rw [div_div_eq_mul_div, ← sq, hsq]
      have e1 : (e * (nu : ℂ) ^ 2 - (q : ℂ) ^ 2) / e = ((nu ^ 2 : ℝ) : ℂ) - ((q ^ 2 : ℝ) : ℂ) * e⁻¹ := by
        push_cast
        field_simp
      rw [e1, Complex.sub_im, Complex.ofReal_im, Complex.im_ofReal_mul, Complex.inv_im]
      have : 0 ≤ q ^ 2 * (e.im / Complex.normSq e) :=
        mul_nonneg (sq_nonneg q) (div_nonneg hi (Complex.normSq_nonneg _))
      rw [neg_div, mul_neg]
      linarith
  · refine ⟨div_ne_zero one_ne_zero hk, ?_, ?_⟩
    · rw [mul_div_cancel₀ _ hk]
      simp
    · rw [div_div_eq_mul_div, div_one, ← sq, him]
      positivity

/-- A passive stack below a medium carrying energy has no resonance without loss. -/
theorem farMat_ne_zero (pol : String) (nu q : ℝ) (hnu : nu ≠ 0) (env : ℂ) (L : List (ℂ × ℝ)) (sub : ℂ)
    (h0 : env ≠ 0) (hk0 : 0 < (kz nu q env).re) (hL : ∀ l ∈ L, Passive l.1 ∧ 0 ≤ l.2 ∧ kz nu q l.1 ≠ 0)
    (hs : sub ≠ 0) : farMat pol nu q env L sub 0 0 ≠ 0 := by
  have hy0 := adm_re_pos pol nu q env h0 hnu hk0
  have hG := gen_flux (adm pol nu q env) (L.map fun l => (adm pol nu q l.1, kz nu q l.1, l.2)) (adm pol nu q sub) (by
    intro l hl
    obtain ⟨l', h1, rfl⟩ := List.mem_map.1 hl
    obtain ⟨h2, h3, h4⟩ := hL l' h1
    obtain ⟨a, b, c⟩ := passive_layer pol nu q l'.1 h2 h4
    exact ⟨a, b, c, h3⟩)
  have hne := gen_ne_zero (adm pol nu q env) (L.map fun l => (adm pol nu q l.1, -Complex.I * (kz nu q l.1 * l.2)))
    (adm pol nu q sub) (fun h => by rw [h] at hy0; simp at hy0) (by
      intro l hl
      obtain ⟨l', h1, rfl⟩ := List.mem_map.1 hl
      exact (passive_layer pol nu q l'.1 (hL l' h1).1 (hL l' h1).2.2).1)
  simp only [List.map_map, Function.comp_def] at hG
  change ¬ (farMat pol nu q env L sub 0 0 = 0 ∧ farMat pol nu q env L sub 1 0 = 0) at hne
  change ∃ G, farMat pol nu q env L sub 0 0 - farMat pol nu q env L sub 1 0 = _ ∧
    _ ≤ ((farMat pol nu q env L sub 0 0 + farMat pol nu q env L sub 1 0) * _).re at hG
  set A := farMat pol nu q env L sub 0 0
  set B := farMat pol nu q env L sub 1 0
  obtain ⟨G, hG1, hG2⟩ := hG
  intro hA
  refine hne ⟨hA, ?_⟩
  rw [hA, zero_sub] at hG1
  have hB : B = -(adm pol nu q env * G) := by linear_combination -hG1
  obtain ⟨c, hc, -, hs1⟩ := adm_inv_re pol nu q sub hs hnu
  have hs2 : 0 ≤ (1 / adm pol nu q sub).re := by rw [hs1]; exact mul_nonneg hc (kz_re_nonneg _ _ _)
  have e1 : ((A + B) * star G).re = -((adm pol nu q env).re * Complex.normSq G) := by
    rw [hA, hB, zero_add, neg_mul, Complex.neg_re, mul_assoc, Complex.star_def, Complex.mul_conj, Complex.mul_re]
    simp
  rw [e1] at hG2
  have h5 : (adm pol nu q env).re * Complex.normSq G ≤ 0 := by linarith
  have h6 : Complex.normSq G = 0 := by
    by_contra hn
    exact absurd (mul_pos hy0 (lt_of_le_of_ne (Complex.normSq_nonneg G) (Ne.symm hn))) (not_lt.2 h5)
  rw [hB, Complex.normSq_eq_zero.1 h6, mul_zero, neg_zero]

/-! ## C85 Far-field coefficients as repeated reflections -/

theorem C85_recursion (env : ℂ) (L : List (ℂ × ℝ)) (sub : ℂ) (snu : Option ℝ) (nu q : ℝ) (pol : String)
    (hpol : pol = "p" ∨ pol = "s") (h0 : env * (nu : ℂ) ^ 2 ≠ (q : ℂ) ^ 2)
    (hL : ∀ l ∈ L, l.1 ≠ 0 ∧ l.1 * (nu : ℂ) ^ 2 ≠ (q : ℂ) ^ 2) (hs : sub ≠ 0) (r t : ℂ)
    (h : (Medium.at nu q env).stackCoefs pol (L.map fun l => (Medium.at nu q l.1, l.2)) (Medium.at nu q sub) =
      some (r, t)) :
    (layered env L sub snu).reflCoef (atQ q nu pol) = .ok (FP.num r) ∧
      (layered env L sub snu).transCoef (atQ q nu pol) = .ok (FP.num t) := by
  have hk : ∀ e : ℂ, e * (nu : ℂ) ^ 2 ≠ (q : ℂ) ^ 2 → kz nu q e ≠ 0 := fun e he => by
    rw [Ne, kz_eq_zero, sub_eq_zero]; exact he
  have hr : FarRegular pol nu q env L sub :=
    ⟨⟨hk _ h0, fun l hl => hk _ (hL l hl).2⟩, fun _ => ⟨fun l hl => (hL l hl).1, hs⟩⟩
  obtain ⟨h1, h2, h3⟩ := farMat_stackCoefs pol nu q env L sub hr r t h
  rw [reflCoef_eq pol _ _ _ snu nu q hpol hr, transCoef_eq pol _ _ _ snu nu q hpol hr, FP.num_div _ h1,
    FP.num_div _ h1, h2, mul_div_cancel_right₀ _ h1, ← h3, mul_div_cancel_right₀ _ h1]
  exact ⟨rfl, rfl⟩

/-- The recursion divides by zero nowhere if no medium above the substrate is both lossless and
evanescent. -/
theorem C85_defined (env : ℂ) (L : List (ℂ × ℝ)) (sub : ℂ) (nu q : ℝ) (pol : String) (hnu : nu ≠ 0)
    (he : Passive env) (h0 : 0 < env.im ∨ q ^ 2 < env.re * nu ^ 2)
    (hL : ∀ l ∈ L, Passive l.1 ∧ 0 ≤ l.2 ∧ (0 < l.1.im ∨ q ^ 2 < l.1.re * nu ^ 2)) (hs : Passive sub) :
    ∃ r t, (Medium.at nu q env).stackCoefs pol (L.map fun l => (Medium.at nu q l.1, l.2)) (Medium.at nu q sub) =
      some (r, t) := by
  have hpn : ∀ e : ℂ, Passive e → e ≠ 0 := fun e he => posCone_upper.ne_zero he
  have hnu2 : 0 < nu ^ 2 := by positivity
  have hk : ∀ e : ℂ, (0 < e.im ∨ q ^ 2 < e.re * nu ^ 2) → 0 < (kz nu q e).re := by
    intro e he
    obtain ⟨h1, h2⟩ := kz_re_im (nu := nu) (q := q) (e := e)
    refine lt_of_le_of_ne (kz_re_nonneg _ _ _) fun h => ?_
    rw [← h] at h1 h2
    rcases he with h3 | h3
    · have := mul_pos h3 hnu2
      linarith
    · nlinarith [sq_nonneg (kz nu q e).im]
  have hk0 : ∀ e : ℂ, (0 < e.im ∨ q ^ 2 < e.re * nu ^ 2) → kz nu q e ≠ 0 := fun e he h => by
    have := hk e he
    rw [h] at this
    simp at this
  have hden : ∀ a b : ℂ, Passive a → (0 < a.im ∨ q ^ 2 < a.re * nu ^ 2) → Passive b →
      (Medium.at nu q a).fresnelDen pol (Medium.at nu q b) ≠ 0 := by
    intro a b ha ha' hb
    have h := farMat_ne_zero pol nu q hnu a [] b (hpn _ ha) (hk _ ha') (by simp) (hpn _ hb)
    refine (adm_ratio pol nu q a b (hk0 _ ha') fun _ => hpn _ hb).1.1 fun hz => h ?_
    simp only [farMat, gen, TM, List.map_nil, Matrix.of_apply, Matrix.cons_val', Matrix.cons_val_zero,
      Matrix.cons_val_fin_one]
    rw [hz, zero_div]
  induction L generalizing env with
  | nil =>
    rw [List.map_nil, Medium.stackCoefs, if_neg (hden env sub he h0 hs)]
    exact ⟨_, _, rfl⟩
  | cons l L ih =>
    obtain ⟨e, s⟩ := l
    obtain ⟨h1, h2, h3⟩ := hL (e, s) (by simp)
    simp only at h1 h2 h3
    have hL' : ∀ l ∈ L, Passive l.1 ∧ 0 ≤ l.2 ∧ (0 < l.1.im ∨ q ^ 2 < l.1.re * nu ^ 2) := fun l hl =>
      hL l (by simp [hl])
    obtain ⟨ρ, τ, hc⟩ := ih e h1 h3 hL'
    have hr : FarRegular pol nu q env ((e, s) :: L) sub :=
      ⟨⟨hk0 _ h0, fun l hl => hk0 _ (hL l hl).2.2⟩, fun _ => ⟨fun l hl => hpn _ (hL l hl).1, hpn _ hs⟩⟩
    obtain ⟨i1, i2, i3⟩ := farMat_stackCoefs pol nu q e L sub hr.tail ρ τ hc
    have hA := farMat_ne_zero pol nu q hnu env ((e, s) :: L) sub (hpn _ he) (hk _ h0)
      (fun l hl => ⟨(hL l hl).1, (hL l hl).2.1, hk0 _ (hL l hl).2.2⟩) (hpn _ hs)
    obtain ⟨j1, j2⟩ := adm_ratio pol nu q env e (hk0 _ h0) fun _ => hpn _ h1
    have hD : ¬ 1 + (Medium.at nu q env).fresnel pol (Medium.at nu q e) * ρ *
        Complex.exp (Complex.I * ((Medium.at nu q e).k * s)) ^ 2 = 0 := by
      intro hz
      apply hA
      have hu : Complex.exp (Complex.I * ((Medium.at nu q e).k * s)) =
          Complex.exp (-(-Complex.I * (kz nu q e * s))) := by
        rw [neg_mul, neg_neg]; rfl
      rw [hu, ← j2] at hz
      have ha := j1.2 (hden env e he h0 h1)
      have es := gen_cons_sum (adm pol nu q env) (adm pol nu q e) (-Complex.I * (kz nu q e * s)) (adm pol nu q sub)
        (L.map fun l => (adm pol nu q l.1, -Complex.I * (kz nu q l.1 * l.2)))
      have ed := gen_cons_diff (adm pol nu q env) (adm pol nu q e) (-Complex.I * (kz nu q e * s)) (adm pol nu q sub)
        (L.map fun l => (adm pol nu q l.1, -Complex.I * (kz nu q l.1 * l.2)))
      have huv : Complex.exp (-Complex.I * (kz nu q e * s)) * Complex.exp (-(-Complex.I * (kz nu q e * s))) = 1 := by
        rw [← Complex.exp_add, add_neg_cancel, Complex.exp_zero]
      change farMat pol nu q env ((e, s) :: L) sub 0 0 + farMat pol nu q env ((e, s) :: L) sub 1 0 =
        _ * farMat pol nu q e L sub 0 0 + _ * farMat pol nu q e L sub 1 0 at es
      change farMat pol nu q env ((e, s) :: L) sub 0 0 - farMat pol nu q env ((e, s) :: L) sub 1 0 =
        _ * (_ * farMat pol nu q e L sub 0 0 - _ * farMat pol nu q e L sub 1 0) at ed
      rw [i2] at es ed
      generalize farMat pol nu q env ((e, s) :: L) sub 0 0 = A at *
      generalize farMat pol nu q env ((e, s) :: L) sub 1 0 = B at *
      generalize farMat pol nu q e L sub 0 0 = A' at *
      generalize Complex.exp (-(-Complex.I * (kz nu q e * s))) = u at *
      generalize Complex.exp (-Complex.I * (kz nu q e * s)) = v at *
      generalize adm pol nu q env / adm pol nu q e = a at *
      have hvu : v * u ^ 2 = u := by rw [sq, ← mul_assoc, huv, one_mul]
      have e1 : A = (1 + a) / 2 * v * A' + (1 - a) / 2 * u * ρ * A' := by
        linear_combination es / 2 + ed / 2
      have e2 : (1 + a) + (1 - a) * ρ * u ^ 2 = 0 := by
        have : (1 + a) * (1 + (1 - a) / (1 + a) * ρ * u ^ 2) = (1 + a) + (1 - a) * ρ * u ^ 2 := by
          field_simp
        rw [← this, hz, mul_zero]
      rw [e1, ← hvu]
      linear_combination (v * A' / 2) * e2
    simp only [List.map_cons, Medium.stackCoefs, hc]
    rw [if_neg (not_or.2 ⟨hden env e he h0 h1, hD⟩)]
    exact ⟨_, _, rfl⟩

/-- Both together: in passive stacks the code computes the recursion. -/
theorem C85_passive (env : ℂ) (L : List (ℂ × ℝ)) (sub : ℂ) (snu : Option ℝ) (nu q : ℝ) (pol : String)
    (hpol : pol = "p" ∨ pol = "s") (hnu : nu ≠ 0)
    (he : Passive env) (h0 : 0 < env.im ∨ q ^ 2 < env.re * nu ^ 2)
    (hL : ∀ l ∈ L, Passive l.1 ∧ 0 ≤ l.2 ∧ (0 < l.1.im ∨ q ^ 2 < l.1.re * nu ^ 2)) (hs : Passive sub) :
    ∃ r t, (Medium.at nu q env).stackCoefs pol (L.map fun l => (Medium.at nu q l.1, l.2)) (Medium.at nu q sub) =
        some (r, t) ∧
      (layered env L sub snu).reflCoef (atQ q nu pol) = .ok (FP.num r) ∧
      (layered env L sub snu).transCoef (atQ q nu pol) = .ok (FP.num t) := by
  obtain ⟨r, t, h⟩ := C85_defined env L sub nu q pol hnu he h0 hL hs
  have hk : ∀ e : ℂ, (0 < e.im ∨ q ^ 2 < e.re * nu ^ 2) → e * (nu : ℂ) ^ 2 ≠ (q : ℂ) ^ 2 := by
    intro e he h
    have h1 := congrArg Complex.re h
    have h2 := congrArg Complex.im h
    rw [← Complex.ofReal_pow, ← Complex.ofReal_pow, Complex.re_mul_ofReal, Complex.ofReal_re] at h1
    rw [← Complex.ofReal_pow, ← Complex.ofReal_pow, Complex.im_mul_ofReal, Complex.ofReal_im] at h2
    have hnu2 : 0 < nu ^ 2 := by positivity
    rcases he with h3 | h3
    · have := mul_pos h3 hnu2
      linarith
    · linarith
  exact ⟨r, t, h, C85_recursion env L sub snu nu q pol hpol (hk _ h0)
    (fun l hl => ⟨posCone_upper.ne_zero (hL l hl).1, hk _ (hL l hl).2.2⟩) (posCone_upper.ne_zero hs) r t h⟩

/-- An absorbing film on glass, p-polarized light at an angle. -/
example : ∃ r t, (Medium.at 1 (1 / 2) 1).stackCoefs "p"
      ([((3 : ℂ) + Complex.I, (2 : ℝ))].map fun l => (Medium.at 1 (1 / 2) l.1, l.2)) (Medium.at 1 (1 / 2) (9 / 4)) =
        some (r, t) ∧
      (layered 1 [(3 + Complex.I, 2)] (9 / 4)).reflCoef (atQ (1 / 2) 1 "p") = .ok (FP.num r) ∧
      (layered 1 [(3 + Complex.I, 2)] (9 / 4)).transCoef (atQ (1 / 2) 1 "p") = .ok (FP.num t) :=
  C85_passive 1 [(3 + Complex.I, 2)] (9 / 4) none 1 (1 / 2) "p" (by simp) one_ne_zero
    (Or.inr ⟨by simp, by simp⟩) (Or.inr (by norm_num))
    (by
      intro l hl
      simp only [List.mem_singleton] at hl
      subst hl
      exact ⟨Or.inl (by simp), by norm_num, Or.inl (by simp)⟩)
    (Or.inr ⟨by norm_num, by norm_num⟩)

/-- The reflection of a stack is the sum over all paths of the light in its top layer: once reflected at
the surface, or into the layer, `k + 1` times back from below with `k` internal reflections at the surface,
and out again. -/
theorem C85_bounces (env e : ℂ) (t : ℝ) (L : List (ℂ × ℝ)) (sub : ℂ) (snu : Option ℝ) (nu q : ℝ) (pol : String)
    (hpol : pol = "p" ∨ pol = "s") (h0 : env * (nu : ℂ) ^ 2 ≠ (q : ℂ) ^ 2)
    (he : e ≠ 0 ∧ e * (nu : ℂ) ^ 2 ≠ (q : ℂ) ^ 2)
    (hL : ∀ l ∈ L, l.1 ≠ 0 ∧ l.1 * (nu : ℂ) ^ 2 ≠ (q : ℂ) ^ 2) (hs : sub ≠ 0) (ρ : ℂ)
    (hρ : (layered e L sub snu).reflCoef (atQ q nu pol) = .ok (FP.num ρ))
    (hd : (Medium.at nu q env).fresnelDen pol (Medium.at nu q e) ≠ 0)
    (r01 u : ℂ) (hr01 : r01 = (Medium.at nu q env).fresnel pol (Medium.at nu q e))
    (hu : u = Complex.exp (Complex.I * ((Medium.at nu q e).k * t))) (hlt : ‖r01 * ρ * u ^ 2‖ < 1) :
    ∃ r, (layered env ((e, t) :: L) sub snu).reflCoef (atQ q nu pol) = .ok (FP.num r) ∧
      HasSum (fun k : ℕ => (1 + r01) * (ρ * u ^ 2) * ((-r01) * (ρ * u ^ 2)) ^ k * (1 - r01)) (r - r01) := by
  have hk : ∀ e : ℂ, e * (nu : ℂ) ^ 2 ≠ (q : ℂ) ^ 2 → kz nu q e ≠ 0 := fun e he => by
    rw [Ne, kz_eq_zero, sub_eq_zero]; exact he
  have hr : FarRegular pol nu q env ((e, t) :: L) sub := by
    refine ⟨⟨hk _ h0, ?_⟩, fun _ => ⟨?_, hs⟩⟩
    · simp only [List.mem_cons, forall_eq_or_imp]
      exact ⟨hk _ he.2, fun l hl => hk _ (hL l hl).2⟩
    · simp only [List.mem_cons, forall_eq_or_imp]
      exact ⟨he.1, fun l hl => (hL l hl).1⟩
  rw [reflCoef_eq pol _ _ _ snu nu q hpol hr.tail] at hρ
  have hA' : farMat pol nu q e L sub 0 0 ≠ 0 := by
    intro h
    rw [h, FP.num_div_eq] at hρ
    simp at hρ
  rw [FP.num_div _ hA'] at hρ
  have hB' : farMat pol nu q e L sub 1 0 = ρ * farMat pol nu q e L sub 0 0 := by
    rw [← FP.num.inj (Except.ok.inj hρ), div_mul_cancel₀ _ hA']
  obtain ⟨j1, j2⟩ := adm_ratio pol nu q env e (hk _ h0) fun _ => he.1
  have hu' : u = Complex.exp (-(-Complex.I * (kz nu q e * t))) := by
    rw [hu, neg_mul, neg_neg]; rfl
  have hD : 1 + r01 * ρ * u ^ 2 ≠ 0 := by
    intro h
    rw [show r01 * ρ * u ^ 2 = -1 by linear_combination h] at hlt
    simp at hlt
  obtain ⟨k1, k2, -⟩ := gen_step (adm pol nu q env) (adm pol nu q e) (-Complex.I * (kz nu q e * t)) (adm pol nu q sub)
    _ ρ (1 / farMat pol nu q e L sub 0 0) hA' hB' (one_div_mul_cancel hA') (j1.2 hd)
    (by rw [j2, ← hr01, ← hu']; exact hD)
  rw [j2, ← hr01, ← hu'] at k2
  refine ⟨(r01 + ρ * u ^ 2) / (1 + r01 * ρ * u ^ 2), ?_, ?_⟩
  · rw [reflCoef_eq pol _ _ _ snu nu q hpol hr]
    change farMat pol nu q env ((e, t) :: L) sub 0 0 ≠ 0 at k1
    change farMat pol nu q env ((e, t) :: L) sub 1 0 = _ * farMat pol nu q env ((e, t) :: L) sub 0 0 at k2
    rw [FP.num_div _ k1, k2, mul_div_cancel_right₀ _ k1]
  · have hg := (hasSum_geometric_of_norm_lt_one (ξ := -r01 * (ρ * u ^ 2)) (by
      rw [neg_mul, norm_neg, ← mul_assoc]; exact hlt)).mul_left ((1 + r01) * (ρ * u ^ 2) * (1 - r01))
    have e1 : (r01 + ρ * u ^ 2) / (1 + r01 * ρ * u ^ 2) - r01 =
        (1 + r01) * (ρ * u ^ 2) * (1 - r01) * (1 - -r01 * (ρ * u ^ 2))⁻¹ := by
      have : 1 - -r01 * (ρ * u ^ 2) = 1 + r01 * ρ * u ^ 2 := by ring
      rw [this]
      field_simp
      ring
    have e2 : (fun k : ℕ => (1 + r01) * (ρ * u ^ 2) * ((-r01) * (ρ * u ^ 2)) ^ k * (1 - r01)) =
        fun k : ℕ => (1 + r01) * (ρ * u ^ 2) * (1 - r01) * (-r01 * (ρ * u ^ 2)) ^ k := by
      funext k
      ring
    rw [e1, e2]
    exact hg

/-- For propagating light the sum converges whatever passive media lie below the top layer. -/
theorem C85_bounces_passive (env e t : ℝ) (L : List (ℂ × ℝ)) (sub : ℂ) (snu : Option ℝ) (nu q : ℝ) (pol : String)
    (hpol : pol = "p" ∨ pol = "s") (h0 : q ^ 2 < env * nu ^ 2) (he : q ^ 2 < e * nu ^ 2)
    (hL : ∀ l ∈ L, Passive l.1 ∧ 0 ≤ l.2 ∧ l.1 * (nu : ℂ) ^ 2 ≠ (q : ℂ) ^ 2) (hs : Passive sub)
    (r01 u : ℂ) (hr01 : r01 = (Medium.at nu q env).fresnel pol (Medium.at nu q e))
    (hu : u = Complex.exp (Complex.I * ((Medium.at nu q e).k * t))) :
    ∃ ρ r, (layered e L sub snu).reflCoef (atQ q nu pol) = .ok (FP.num ρ) ∧
      (layered env ((e, t) :: L) sub snu).reflCoef (atQ q nu pol) = .ok (FP.num r) ∧
      HasSum (fun k : ℕ => (1 + r01) * (ρ * u ^ 2) * ((-r01) * (ρ * u ^ 2)) ^ k * (1 - r01)) (r - r01) := by
  have pos : ∀ e : ℝ, q ^ 2 < e * nu ^ 2 → 0 < e := by
    intro e he
    by_contra h
    exact absurd he (not_lt.2 ((mul_nonpos_of_nonpos_of_nonneg (not_lt.1 h) (sq_nonneg nu)).trans (sq_nonneg q)))
  have henv := pos _ h0
  have he0 := pos _ he
  obtain ⟨ρ, h1, h2⟩ := C65_reflect e L sub snu nu q pol hpol he hL hs
  have k0 : (Medium.at nu q env).k = (Real.sqrt (env * nu ^ 2 - q ^ 2) : ℝ) := kz_real (by linarith)
  have k1 : (Medium.at nu q e).k = (Real.sqrt (e * nu ^ 2 - q ^ 2) : ℝ) := kz_real (by linarith)
  have p0 : 0 < Real.sqrt (env * nu ^ 2 - q ^ 2) := Real.sqrt_pos.2 (by linarith)
  have p1 : 0 < Real.sqrt (e * nu ^ 2 - q ^ 2) := Real.sqrt_pos.2 (by linarith)
  have hun : ‖u‖ = 1 := by
    rw [hu, k1, show Complex.I * (((Real.sqrt (e * nu ^ 2 - q ^ 2) : ℝ) : ℂ) * (t : ℂ)) =
      ((Real.sqrt (e * nu ^ 2 - q ^ 2) * t : ℝ) : ℂ) * Complex.I by push_cast; ring, Complex.norm_exp_ofReal_mul_I]
  obtain ⟨x, y, hx, hy, hnum, hden⟩ : ∃ x y : ℝ, 0 < x ∧ 0 < y ∧
      (Medium.at nu q env).fresnelNum pol (Medium.at nu q e) = ((x - y : ℝ) : ℂ) ∧
      (Medium.at nu q env).fresnelDen pol (Medium.at nu q e) = ((x + y : ℝ) : ℂ) := by
    unfold Medium.fresnelNum Medium.fresnelDen
    rw [k0, k1]
    split_ifs
    · refine ⟨_, _, mul_pos he0 p0, mul_pos henv p1, ?_, ?_⟩ <;> (push_cast; rfl)
    · refine ⟨_, _, p0, p1, ?_, ?_⟩ <;> (push_cast; rfl)
  have hrn : ‖r01‖ < 1 := by
    rw [hr01, Medium.fresnel, hnum, hden, ← Complex.ofReal_div, Complex.norm_real, Real.norm_eq_abs, abs_div,
      abs_of_pos (add_pos hx hy), div_lt_one (add_pos hx hy), abs_lt]
    constructor <;> linarith
  have hlt : ‖r01 * ρ * u ^ 2‖ < 1 := by
    rw [norm_mul, norm_mul, norm_pow, hun, one_pow, mul_one]
    nlinarith [norm_nonneg r01, norm_nonneg ρ]
  obtain ⟨r, h3, h4⟩ := C85_bounces env e t L sub snu nu q pol hpol (by exact_mod_cast h0.ne')
    ⟨Complex.ofReal_ne_zero.2 he0.ne', by exact_mod_cast he.ne'⟩
    (fun l hl => ⟨posCone_upper.ne_zero (hL l hl).1, (hL l hl).2.2⟩) (posCone_upper.ne_zero hs) ρ h1
    (by rw [hden]; exact Complex.ofReal_ne_zero.2 (by positivity)) r01 u hr01 hu hlt
  exact ⟨ρ, r, h1, h3, h4⟩

/-- A film on an absorbing substrate. -/
example : ∃ ρ r r01 u : ℂ, (layered (2 : ℝ) [] (3 + Complex.I)).reflCoef (atQ (1 / 2) 1 "p") = .ok (FP.num ρ) ∧
    (layered (1 : ℝ) [((2 : ℝ), 5)] (3 + Complex.I)).reflCoef (atQ (1 / 2) 1 "p") = .ok (FP.num r) ∧
    HasSum (fun k : ℕ => (1 + r01) * (ρ * u ^ 2) * ((-r01) * (ρ * u ^ 2)) ^ k * (1 - r01)) (r - r01) := by
  obtain ⟨ρ, r, h⟩ := C85_bounces_passive 1 2 5 [] (3 + Complex.I) none 1 (1 / 2) "p" (by simp) (by norm_num)
    (by norm_num) (by simp) (Or.inl (by simp)) _ _ rfl rfl
  exact ⟨ρ, r, _, _, h⟩

/-! ## C84 Half-wave and quarter-wave layers

Full statement (false): for light of vacuum wavelength `λ` and `nu_vac = 1/λ` (the wavenumber in inverse
metres of the documentation), a layer of refractive index `n` and thickness `λ/(2n)` does not change the
reflection at normal incidence, and a layer of thickness `λ/(4n)` with `n² = n₀ n₂` suppresses it.  The phase
in the code is `nu_z * t`, without `2π`, so the theorems hold for `nu_vac = 2π/λ`. -/

/-- A layer whose phase is a multiple of `π` does not change the reflection of a stack, at any angle. -/
theorem C84_invisible (env : ℂ) (L₁ L₂ : List (ℂ × ℝ)) (e : ℂ) (t : ℝ) (sub : ℂ) (snu : Option ℝ) (nu q : ℝ)
    (pol : String) (he : e ≠ 0) (hk : e * (nu : ℂ) ^ 2 ≠ (q : ℂ) ^ 2) (m : ℤ)
    (hm : (Medium.at nu q e).k * t = m * Real.pi) :
    (layered env (L₁ ++ (e, t) :: L₂) sub snu).reflCoef (atQ q nu pol) =
      (layered env (L₁ ++ L₂) sub snu).reflCoef (atQ q nu pol) := by
  by_cases hpol : pol = "p" ∨ pol = "s"
  swap
  · simp only [Stack.reflCoef, transferMatrix_badpol _ _ _ _ hpol]
  have hk' : kz nu q e ≠ 0 := by rw [Ne, kz_eq_zero, sub_eq_zero]; exact hk
  have ha : adm pol nu q e ≠ 0 := by
    unfold adm
    split_ifs
    · exact div_ne_zero he hk'
    · exact div_ne_zero one_ne_zero hk'
  have hr : FarRegular pol nu q env (L₁ ++ (e, t) :: L₂) sub ↔ FarRegular pol nu q env (L₁ ++ L₂) sub := by
    unfold FarRegular
    simp only [List.mem_append, List.mem_cons, or_imp, forall_and, forall_eq]
    tauto
  by_cases h : FarRegular pol nu q env (L₁ ++ L₂) sub
  · rw [reflCoef_eq pol _ _ _ snu nu q hpol (hr.2 h), reflCoef_eq pol _ _ _ snu nu q hpol h]
    have hm' : kz nu q e * t = m * Real.pi := hm
    have e1 : Complex.exp (-Complex.I * (kz nu q e * t)) = (-1 : ℂ) ^ m := by
      rw [hm', show -Complex.I * ((m : ℂ) * Real.pi) = (m : ℂ) * (-(Real.pi * Complex.I)) by ring,
        Complex.exp_int_mul, Complex.exp_neg, Complex.exp_pi_mul_I]
      norm_num
    have e2 : Complex.exp (-(-Complex.I * (kz nu q e * t))) = (-1 : ℂ) ^ m := by
      rw [hm', show -(-Complex.I * ((m : ℂ) * Real.pi)) = (m : ℂ) * (Real.pi * Complex.I) by ring,
        Complex.exp_int_mul, Complex.exp_pi_mul_I]
    have hmat : farMat pol nu q env (L₁ ++ (e, t) :: L₂) sub =
        ((-1 : ℂ) ^ m) • farMat pol nu q env (L₁ ++ L₂) sub := by
      unfold farMat
      simp only [List.map_append, List.map_cons]
      exact gen_half _ _ _ _ _ _ ha _ e1 e2
    have hs : ((-1 : ℂ) ^ m) ≠ 0 := zpow_ne_zero _ (by norm_num)
    rw [hmat]
    simp only [Matrix.smul_apply, smul_eq_mul, FP.num_div_eq, mul_eq_zero, hs, false_or]
    split_ifs
    · rfl
    · rw [mul_div_mul_left _ _ hs]
  · have h' : ¬ FarRegular pol nu q env (L₁ ++ (e, t) :: L₂) sub := fun x => h (hr.1 x)
    simp only [Stack.reflCoef, transferMatrix_singular pol _ _ _ snu nu q hpol h,
      transferMatrix_singular pol _ _ _ snu nu q hpol h']

/-- Normal incidence on a lossless medium. -/
theorem kz_normal {nu n : ℝ} (hnu : 0 < nu) (hn : 0 < n) : kz nu 0 ((n ^ 2 : ℝ) : ℂ) = ((n * nu : ℝ) : ℂ) := by
  rw [kz_real (by rw [zero_pow two_ne_zero, sub_zero]; positivity)]
  congr 1
  rw [show n ^ 2 * nu ^ 2 - 0 ^ 2 = (n * nu) ^ 2 by ring, Real.sqrt_sq (by positivity)]

theorem C84_half_partial (env : ℂ) (L₁ L₂ : List (ℂ × ℝ)) (sub : ℂ) (snu : Option ℝ) (lam n : ℝ) (hl : 0 < lam)
    (hn : 0 < n) (m : ℕ) (pol : String) (nu : ℝ) (hnu : nu = 2 * Real.pi / lam) :
    (layered env (L₁ ++ (((n ^ 2 : ℝ) : ℂ), m * (lam / (2 * n))) :: L₂) sub snu).reflCoef (atQ 0 nu pol) =
      (layered env (L₁ ++ L₂) sub snu).reflCoef (atQ 0 nu pol) := by
  have hnu0 : 0 < nu := by rw [hnu]; positivity
  refine C84_invisible env L₁ L₂ _ _ sub snu nu 0 pol ?_ ?_ m ?_
  · exact_mod_cast (pow_pos hn 2).ne'
  · have : n ^ 2 * nu ^ 2 ≠ 0 ^ 2 := by rw [zero_pow two_ne_zero]; positivity
    exact_mod_cast this
  · change kz nu 0 ((n ^ 2 : ℝ) : ℂ) * _ = _
    rw [kz_normal hnu0 hn, ← Complex.ofReal_mul, hnu]
    have hl' : (lam : ℂ) ≠ 0 := by exact_mod_cast hl.ne'
    have hn' : (n : ℂ) ≠ 0 := by exact_mod_cast hn.ne'
    push_cast
    field_simp

/-- A film in a stack, two half waves thick. -/
example : (layered 1 [(3, 2), (((2 ^ 2 : ℝ) : ℂ), (2 : ℕ) * (5 / (2 * 2)))] 4).reflCoef
      (atQ 0 (2 * Real.pi / 5) "s") = (layered 1 [(3, 2)] 4).reflCoef (atQ 0 (2 * Real.pi / 5) "s") :=
  C84_half_partial 1 [(3, 2)] [] 4 none 5 2 (by norm_num) (by norm_num) 2 "s" _ rfl

/-- Ratios of the admittances of two media at normal incidence. -/
noncomputable def normalRatio (pol : String) (n0 n1 : ℝ) : ℝ := if pol = "p" then n0 / n1 else n1 / n0

/-- One film at normal incidence. -/
theorem film_normal (pol : String) (nu n0 n1 n2 t : ℝ) (hnu : 0 < nu) (h0 : 0 < n0) (h1 : 0 < n1) (h2 : 0 < n2)
    (hpol : pol = "p" ∨ pol = "s") (snu : Option ℝ) (a b φ : ℝ) (ha : a = normalRatio pol n0 n1)
    (hb : b = normalRatio pol n1 n2) (hφ : φ = n1 * nu * t) :
    (layered ((n0 ^ 2 : ℝ) : ℂ) [(((n1 ^ 2 : ℝ) : ℂ), t)] ((n2 ^ 2 : ℝ) : ℂ) snu).reflCoef (atQ 0 nu pol) =
      .ok (FP.num ⟨(1 - a * b) / 2 * Real.cos φ, (a - b) / 2 * Real.sin φ⟩ /
        FP.num ⟨(1 + a * b) / 2 * Real.cos φ, -((a + b) / 2 * Real.sin φ)⟩) := by
  have hk : ∀ n : ℝ, 0 < n → kz nu 0 ((n ^ 2 : ℝ) : ℂ) ≠ 0 := by
    intro n hn
    rw [kz_normal hnu hn]
    exact_mod_cast (mul_pos hn hnu).ne'
  have hne : ∀ n : ℝ, 0 < n → ((n ^ 2 : ℝ) : ℂ) ≠ 0 := fun n hn => by exact_mod_cast (pow_pos hn 2).ne'
  have hr : FarRegular pol nu 0 ((n0 ^ 2 : ℝ) : ℂ) [(((n1 ^ 2 : ℝ) : ℂ), t)] ((n2 ^ 2 : ℝ) : ℂ) :=
    ⟨⟨hk _ h0, by simpa using hk _ h1⟩, fun _ => ⟨by simpa using h1.ne', hne _ h2⟩⟩
  have hrat : ∀ m n : ℝ, 0 < m → 0 < n → adm pol nu 0 ((m ^ 2 : ℝ) : ℂ) / adm pol nu 0 ((n ^ 2 : ℝ) : ℂ) =
      (normalRatio pol m n : ℝ) := by
    intro m n hm hn
    have hm' : (m : ℂ) ≠ 0 := by exact_mod_cast hm.ne'
    have hn' : (n : ℂ) ≠ 0 := by exact_mod_cast hn.ne'
    have hnu' : (nu : ℂ) ≠ 0 := by exact_mod_cast hnu.ne'
    unfold adm normalRatio
    rw [kz_normal hnu hm, kz_normal hnu hn]
    split_ifs
    · push_cast
      field_simp
    · push_cast
      field_simp
  rw [reflCoef_eq pol _ _ _ snu nu 0 hpol hr]
  have hx : -Complex.I * (kz nu 0 ((n1 ^ 2 : ℝ) : ℂ) * t) = ((-φ : ℝ) : ℂ) * Complex.I := by
    rw [kz_normal hnu h1, hφ]
    push_cast
    ring
  have hx' : -(((-φ : ℝ) : ℂ) * Complex.I) = (φ : ℂ) * Complex.I := by push_cast; ring
  have hm : farMat pol nu 0 ((n0 ^ 2 : ℝ) : ℂ) [(((n1 ^ 2 : ℝ) : ℂ), t)] ((n2 ^ 2 : ℝ) : ℂ) =
      TM a * (PM (((-φ : ℝ) : ℂ) * Complex.I) * TM b) := by
    simp only [farMat, List.map_cons, List.map_nil, gen]
    rw [hrat _ _ h0 h1, hrat _ _ h1 h2, hx, ha, hb]
  have c1 : Complex.exp (((-φ : ℝ) : ℂ) * Complex.I) = ⟨Real.cos φ, -Real.sin φ⟩ :=
    Complex.ext (by rw [Complex.exp_ofReal_mul_I_re, Real.cos_neg])
      (by rw [Complex.exp_ofReal_mul_I_im, Real.sin_neg])
  have c2 : Complex.exp ((φ : ℂ) * Complex.I) = ⟨Real.cos φ, Real.sin φ⟩ :=
    Complex.ext (Complex.exp_ofReal_mul_I_re _) (Complex.exp_ofReal_mul_I_im _)
  have tm : ∀ c : ℝ, TM c = !![((((1 + c) / 2 : ℝ)) : ℂ), (((1 - c) / 2 : ℝ) : ℂ); (((1 - c) / 2 : ℝ) : ℂ), (((1 + c) / 2 : ℝ) : ℂ)] := by
    intro c
    unfold TM
    push_cast
    rfl
  congr 3
  · rw [hm]
    simp only [tm, PM, Matrix.mul_apply, Fin.sum_univ_two, Matrix.of_apply, Matrix.cons_val', Matrix.cons_val_zero,
      Matrix.cons_val_one, Matrix.cons_val_fin_one, hx', c1, c2]
    apply Complex.ext <;> simp <;> ring
  · rw [hm]
    simp only [tm, PM, Matrix.mul_apply, Fin.sum_univ_two, Matrix.of_apply, Matrix.cons_val', Matrix.cons_val_zero,
      Matrix.cons_val_one, Matrix.cons_val_fin_one, hx', c1, c2]
    apply Complex.ext <;> simp <;> ring

/-- A quarter-wave layer has the reflection `(n₁² - n₀ n₂) / (n₁² + n₀ n₂)`, which vanishes for
`n₁² = n₀ n₂`. -/
theorem C84_quarter_partial (n0 n1 n2 lam : ℝ) (h0 : 0 < n0) (h1 : 0 < n1) (h2 : 0 < n2) (hl : 0 < lam)
    (snu : Option ℝ) (nu : ℝ) (hnu : nu = 2 * Real.pi / lam) :
    (layered ((n0 ^ 2 : ℝ) : ℂ) [(((n1 ^ 2 : ℝ) : ℂ), lam / (4 * n1))] ((n2 ^ 2 : ℝ) : ℂ) snu).reflCoef
        (atQ 0 nu "p") = .ok (FP.num (((n1 ^ 2 - n0 * n2) / (n1 ^ 2 + n0 * n2) : ℝ) : ℂ)) ∧
      (layered ((n0 ^ 2 : ℝ) : ℂ) [(((n1 ^ 2 : ℝ) : ℂ), lam / (4 * n1))] ((n2 ^ 2 : ℝ) : ℂ) snu).reflCoef
        (atQ 0 nu "s") = .ok (FP.num ((-((n1 ^ 2 - n0 * n2) / (n1 ^ 2 + n0 * n2)) : ℝ) : ℂ)) := by
  have hnu0 : 0 < nu := by rw [hnu]; positivity
  have hφ : Real.pi / 2 = n1 * nu * (lam / (4 * n1)) := by
    rw [hnu]
    field_simp
    ring
  have hd : ∀ a b : ℝ, 0 < a → 0 < b → (⟨0, (a - b) / 2⟩ : ℂ) / ⟨0, -((a + b) / 2)⟩ = (((b - a) / (a + b) : ℝ) : ℂ) ∧
      (⟨0, -((a + b) / 2)⟩ : ℂ) ≠ 0 := by
    intro a b ha hb
    have hne : (⟨0, -((a + b) / 2)⟩ : ℂ) ≠ 0 := by
      intro h
      have := congrArg Complex.im h
      simp only [Complex.zero_im] at this
      linarith
    refine ⟨?_, hne⟩
    rw [div_eq_iff hne]
    apply Complex.ext
    · simp only [Complex.mul_re, Complex.ofReal_re, Complex.ofReal_im, zero_mul, mul_zero, sub_zero]
    · simp only [Complex.mul_im, Complex.ofReal_re, Complex.ofReal_im, zero_mul, add_zero]
      field_simp
      ring
  have hsp : ("s" : String) ≠ "p" := by decide
  constructor
  · rw [film_normal "p" nu n0 n1 n2 _ hnu0 h0 h1 h2 (by simp) snu _ _ _ rfl rfl hφ, Real.cos_pi_div_two,
      Real.sin_pi_div_two]
    simp only [mul_zero, mul_one, normalRatio, if_true]
    obtain ⟨e1, e2⟩ := hd (n0 / n1) (n1 / n2) (by positivity) (by positivity)
    rw [FP.num_div _ e2, e1]
    congr 3
    field_simp
    ring
  · rw [film_normal "s" nu n0 n1 n2 _ hnu0 h0 h1 h2 (by simp) snu _ _ _ rfl rfl hφ, Real.cos_pi_div_two,
      Real.sin_pi_div_two]
    simp only [mul_zero, mul_one, normalRatio, if_neg hsp]
    obtain ⟨e1, e2⟩ := hd (n1 / n0) (n2 / n1) (by positivity) (by positivity)
    rw [FP.num_div _ e2, e1]
    congr 3
    field_simp
    ring

/-- An antireflection coating of refractive index 2 on a substrate of index 4, for light of wavelength 5. -/
example : (layered ((1 ^ 2 : ℝ) : ℂ) [(((2 ^ 2 : ℝ) : ℂ), 5 / (4 * 2))] ((4 ^ 2 : ℝ) : ℂ)).reflCoef
    (atQ 0 (2 * Real.pi / 5) "p") = .ok (FP.num (((2 ^ 2 - 1 * 4) / (2 ^ 2 + 1 * 4) : ℝ) : ℂ)) :=
  (C84_quarter_partial 1 2 4 5 (by norm_num) (by norm_num) (by norm_num) (by norm_num) none _ rfl).1

theorem num_div_ne_zero {z w : ℂ} (hz : z ≠ 0) : (FP.num z / FP.num w : FP ℂ) ≠ FP.num 0 := by
  rw [FP.num_div_eq]
  split_ifs with h
  · simp
  · intro h'
    exact (div_ne_zero hz h) (FP.num.inj h')

/-- With `nu_vac = 1/λ` no film of half a wavelength in vacuum is invisible. -/
theorem C84_half_false (n lam : ℝ) (hn : 0 < n) (hn1 : n ≠ 1) (hl : 0 < lam) (pol : String)
    (hpol : pol = "p" ∨ pol = "s") :
    (layered ((1 ^ 2 : ℝ) : ℂ) [(((n ^ 2 : ℝ) : ℂ), lam / (2 * n))] ((1 ^ 2 : ℝ) : ℂ)).reflCoef (atQ 0 (1 / lam) pol) ≠
      .ok (FP.num 0) := by
  have hφ : (1 / 2 : ℝ) = n * (1 / lam) * (lam / (2 * n)) := by
    field_simp
  rw [film_normal pol (1 / lam) 1 n 1 _ (by positivity) one_pos hn one_pos hpol none _ _ _ rfl rfl hφ]
  intro h
  refine num_div_ne_zero ?_ (Except.ok.inj h)
  intro h'
  have h2 := congrArg Complex.im h'
  simp only [Complex.zero_im] at h2
  have hs : Real.sin (1 / 2) ≠ 0 := by
    have := Real.sin_pos_of_pos_of_lt_pi (x := 1 / 2) (by norm_num) (by linarith [Real.two_le_pi])
    exact this.ne'
  have h3 := (mul_eq_zero.1 h2).resolve_right hs
  apply hn1
  unfold normalRatio at h3
  have key : n ^ 2 = 1 := by
    split_ifs at h3
    · field_simp at h3
      linarith
    · field_simp at h3
      linarith
  nlinarith

/-- Nor does any coating of a quarter of a wavelength suppress the reflection. -/
theorem C84_quarter_false (n0 n1 n2 lam : ℝ) (h0 : 0 < n0) (h1 : 0 < n1) (h2 : 0 < n2) (hn : n0 ≠ n1)
    (h : n1 ^ 2 = n0 * n2) (hl : 0 < lam) (pol : String) (hpol : pol = "p" ∨ pol = "s") :
    (layered ((n0 ^ 2 : ℝ) : ℂ) [(((n1 ^ 2 : ℝ) : ℂ), lam / (4 * n1))] ((n2 ^ 2 : ℝ) : ℂ)).reflCoef
      (atQ 0 (1 / lam) pol) ≠ .ok (FP.num 0) := by
  have hφ : (1 / 4 : ℝ) = n1 * (1 / lam) * (lam / (4 * n1)) := by
    field_simp
  rw [film_normal pol (1 / lam) n0 n1 n2 _ (by positivity) h0 h1 h2 hpol none _ _ _ rfl rfl hφ]
  intro h'
  refine num_div_ne_zero ?_ (Except.ok.inj h')
  intro h'
  have h3 := congrArg Complex.re h'
  simp only [Complex.zero_re] at h3
  have hs : Real.cos (1 / 4) ≠ 0 := by
    have := Real.cos_pos_of_mem_Ioo (x := 1 / 4) ⟨by linarith [Real.two_le_pi], by linarith [Real.two_le_pi]⟩
    exact this.ne'
  have h4 := (mul_eq_zero.1 h3).resolve_right hs
  have h5 : n2 = n0 := by
    unfold normalRatio at h4
    split_ifs at h4
    · field_simp at h4
      linarith
    · field_simp at h4
      linarith
  apply hn
  rw [h5] at h
  nlinarith

/-! ## C86 Brewster's angle, total reflection and tunnelling -/

/-- Energy in lossless stacks, evanescent layers and substrates included. -/
theorem C86_energy (env : ℝ) (L : List (ℝ × ℝ)) (sub : ℝ) (snu : Option ℝ) (nu q : ℝ) (pol : String)
    (hpol : pol = "p" ∨ pol = "s") (h0 : q ^ 2 < env * nu ^ 2)
    (hL : ∀ l ∈ L, l.1 ≠ 0 ∧ l.1 * nu ^ 2 ≠ q ^ 2 ∧ 0 ≤ l.2) (hs : sub ≠ 0) :
    ∃ r t : ℂ, (layered env (L.map fun l => ((l.1 : ℂ), l.2)) sub snu).reflCoef (atQ q nu pol) = .ok (FP.num r) ∧
      (layered env (L.map fun l => ((l.1 : ℂ), l.2)) sub snu).transCoef (atQ q nu pol) = .ok (FP.num t) ∧
      ‖r‖ ^ 2 + fluxInto pol nu q env sub * ‖t‖ ^ 2 = 1 := by
  have hnu : 0 < nu ^ 2 := by
    refine lt_of_le_of_ne (sq_nonneg nu) fun h => ?_
    rw [← h, mul_zero] at h0
    exact absurd h0 (not_lt.2 (sq_nonneg q))
  have henv : 0 < env := by
    by_contra h
    exact absurd h0 (not_lt.2 ((mul_nonpos_of_nonpos_of_nonneg (not_lt.1 h) hnu.le).trans (sq_nonneg q)))
  have hk0 : kz nu q (env : ℂ) = (Real.sqrt (env * nu ^ 2 - q ^ 2) : ℝ) := kz_real (by linarith)
  have hkp : 0 < Real.sqrt (env * nu ^ 2 - q ^ 2) := Real.sqrt_pos.2 (by linarith)
  have hkl : ∀ l ∈ L, kz nu q (l.1 : ℂ) ≠ 0 := fun l hl => by
    rw [Ne, kz_eq_zero, sub_eq_zero]; exact_mod_cast (hL l hl).2.1
  have hkr : ∀ e : ℝ, (kz nu q (e : ℂ) ^ 2).im = 0 := by
    intro e
    rw [kz_sq]
    simp [← Complex.ofReal_pow]
  have hr : FarRegular pol nu q env (L.map fun l => ((l.1 : ℂ), l.2)) sub := by
    refine ⟨⟨by rw [hk0]; exact_mod_cast hkp.ne', ?_⟩, fun _ => ⟨?_, by exact_mod_cast hs⟩⟩
    · intro l hl
      obtain ⟨l', h1, rfl⟩ := List.mem_map.1 hl
      exact hkl l' h1
    · intro l hl
      obtain ⟨l', h1, rfl⟩ := List.mem_map.1 hl
      exact Complex.ofReal_ne_zero.2 (hL l' h1).1
  obtain ⟨y0, hy0, hadm0, hflux⟩ : ∃ y0 : ℝ, 0 < y0 ∧ adm pol nu q (env : ℂ) = (y0 : ℂ) ∧
      fluxInto pol nu q env sub = y0 * (1 / adm pol nu q sub).re := by
    rcases hpol with rfl | rfl
    · refine ⟨env / Real.sqrt (env * nu ^ 2 - q ^ 2), div_pos henv hkp, ?_, ?_⟩
      · simp only [adm, if_true, hk0]
        push_cast
        rfl
      · simp only [fluxInto, if_true, adm, one_div_div]
        rw [show kz nu q sub = Complex.sqrt (sub * (nu : ℂ) ^ 2 - (q : ℂ) ^ 2) from rfl]
        field_simp
    · have : ("s" : String) ≠ "p" := by decide
      refine ⟨1 / Real.sqrt (env * nu ^ 2 - q ^ 2), div_pos one_pos hkp, ?_, ?_⟩
      · simp only [adm, if_neg this, hk0]
        push_cast
        rfl
      · simp only [fluxInto, if_neg this, adm, one_div_one_div]
        rw [show kz nu q sub = Complex.sqrt (sub * (nu : ℂ) ^ 2 - (q : ℂ) ^ 2) from rfl]
        field_simp
  have hlay : ∀ l ∈ L, adm pol nu q (l.1 : ℂ) ≠ 0 ∧ (kz nu q (l.1 : ℂ) * adm pol nu q (l.1 : ℂ)).im = 0 ∧
      (kz nu q (l.1 : ℂ) / adm pol nu q (l.1 : ℂ)).im = 0 := by
    intro l hl
    have hk := hkl l hl
    have he : (l.1 : ℂ) ≠ 0 := Complex.ofReal_ne_zero.2 (hL l hl).1
    have him := hkr l.1
    simp only [adm]
    split_ifs
    · refine ⟨div_ne_zero he hk, ?_, ?_⟩
      · rw [mul_div_cancel₀ _ hk]
        simp
      · rw [div_div_eq_mul_div, ← sq, Complex.div_ofReal_im, him, zero_div]
    · refine ⟨div_ne_zero one_ne_zero hk, ?_, ?_⟩
      · rw [mul_div_cancel₀ _ hk]
        simp
      · rw [div_div_eq_mul_div, div_one, ← sq, him]
  have hG := gen_flux_eq (adm pol nu q env) (L.map fun l => (adm pol nu q (l.1 : ℂ), kz nu q (l.1 : ℂ), l.2))
    (adm pol nu q sub) (by
      intro l hl
      obtain ⟨l', h1, rfl⟩ := List.mem_map.1 hl
      exact ⟨(hlay l' h1).1, (hlay l' h1).2.1, (hlay l' h1).2.2, (hL l' h1).2.2⟩)
  have hne := gen_ne_zero (adm pol nu q env)
    (L.map fun l => (adm pol nu q (l.1 : ℂ), -Complex.I * (kz nu q (l.1 : ℂ) * l.2)))
    (adm pol nu q sub) (by rw [hadm0]; exact_mod_cast hy0.ne') (by
      intro l hl
      obtain ⟨l', h1, rfl⟩ := List.mem_map.1 hl
      exact (hlay l' h1).1)
  have hfar : farMat pol nu q env (L.map fun l => ((l.1 : ℂ), l.2)) sub = gen (adm pol nu q env)
    (L.map fun l => (adm pol nu q (l.1 : ℂ), -Complex.I * (kz nu q (l.1 : ℂ) * l.2))) (adm pol nu q sub) := by
    simp only [farMat, List.map_map, Function.comp_def]
  simp only [List.map_map, Function.comp_def] at hG
  rw [← hfar] at hG hne
  set A := farMat pol nu q env (L.map fun l => ((l.1 : ℂ), l.2)) sub 0 0 with hA
  set B := farMat pol nu q env (L.map fun l => ((l.1 : ℂ), l.2)) sub 1 0 with hB
  obtain ⟨G, hG1, hG2⟩ := hG
  have hen : fluxInto pol nu q env sub = ‖A‖ ^ 2 - ‖B‖ ^ 2 := by
    rw [← Complex.normSq_eq_norm_sq, ← Complex.normSq_eq_norm_sq, normSq_add_sub, hG1, hadm0, star_mul',
      Complex.star_def, Complex.conj_ofReal, mul_left_comm, Complex.re_ofReal_mul, hflux]
    rw [hG2]
    rfl
  have hfn : 0 ≤ fluxInto pol nu q env sub := by
    obtain ⟨c, hc, -, h⟩ := adm_inv_re pol nu q (sub : ℂ) (Complex.ofReal_ne_zero.2 hs)
      (fun h => by rw [h] at hnu; simp at hnu)
    rw [hflux, h]
    exact mul_nonneg hy0.le (mul_nonneg hc (kz_re_nonneg _ _ _))
  have hA0 : A ≠ 0 := by
    intro h
    rw [h, norm_zero] at hen
    have hb : ‖B‖ ^ 2 ≤ 0 := by linarith
    exact hne ⟨h, norm_eq_zero.1 (pow_eq_zero_iff two_ne_zero |>.1 (le_antisymm hb (sq_nonneg _)))⟩
  have hAn : 0 < ‖A‖ := norm_pos_iff.2 hA0
  refine ⟨B / A, 1 / A, ?_, ?_, ?_⟩
  · rw [reflCoef_eq pol _ _ _ snu nu q hpol hr, ← hA, ← hB, FP.num_div _ hA0]
  · rw [transCoef_eq pol _ _ _ snu nu q hpol hr, ← hA, FP.num_div _ hA0]
  · rw [norm_div, norm_div, norm_one, div_pow, div_pow, one_pow, mul_one_div, ← add_div, hen]
    rw [div_eq_one_iff_eq (by positivity)]
    ring

/-- Tunnelling through an air gap between two prisms. -/
example : ∃ r t : ℂ, (layered (4 : ℝ) ([((1 : ℝ), (7 : ℝ))].map fun l => ((l.1 : ℂ), l.2)) (4 : ℝ)).reflCoef
      (atQ (3 / 2) 1 "p") = .ok (FP.num r) ∧
    (layered (4 : ℝ) ([((1 : ℝ), (7 : ℝ))].map fun l => ((l.1 : ℂ), l.2)) (4 : ℝ)).transCoef
      (atQ (3 / 2) 1 "p") = .ok (FP.num t) ∧
    ‖r‖ ^ 2 + fluxInto "p" 1 (3 / 2) 4 (4 : ℝ) * ‖t‖ ^ 2 = 1 :=
  C86_energy 4 [(1, 7)] 4 none 1 (3 / 2) "p" (by simp) (by norm_num)
    (by intro l hl; simp only [List.mem_singleton] at hl; subst hl; norm_num) (by norm_num)

/-- Nothing is carried away by an evanescent wave in a lossless substrate. -/
theorem fluxInto_evanescent (pol : String) (nu q env sub : ℝ) (h : sub * nu ^ 2 ≤ q ^ 2) :
    fluxInto pol nu q env sub = 0 := by
  have hre : (Complex.sqrt ((sub : ℂ) * (nu : ℂ) ^ 2 - (q : ℂ) ^ 2)).re = 0 := by
    obtain ⟨h1, h2⟩ := kz_re_im (nu := nu) (q := q) (e := (sub : ℂ))
    change (kz nu q (sub : ℂ)).re = 0
    rw [Complex.ofReal_re] at h1
    rw [Complex.ofReal_im, zero_mul] at h2
    by_contra hne
    have h3 : (kz nu q (sub : ℂ)).im = 0 := by
      have := mul_eq_zero.1 (show (kz nu q (sub : ℂ)).re * (kz nu q (sub : ℂ)).im = 0 by linarith)
      exact this.resolve_left hne
    rw [h3] at h1
    have : 0 < (kz nu q (sub : ℂ)).re ^ 2 := by positivity
    nlinarith
  unfold fluxInto
  split_ifs
  · rw [Complex.div_ofReal_re, hre, zero_div, zero_div]
  · rw [hre, zero_div]

/-- Total reflection: light of momentum `q ≥ n ν` on a lossless stack on a substrate of refractive index
`n`, in particular at any angle beyond the critical angle. -/
theorem C86_total (env : ℝ) (L : List (ℝ × ℝ)) (sub : ℝ) (snu : Option ℝ) (nu q : ℝ) (pol : String)
    (hpol : pol = "p" ∨ pol = "s") (h0 : q ^ 2 < env * nu ^ 2)
    (hL : ∀ l ∈ L, l.1 ≠ 0 ∧ l.1 * nu ^ 2 ≠ q ^ 2 ∧ 0 ≤ l.2) (hs : sub ≠ 0) (hq : sub * nu ^ 2 ≤ q ^ 2) :
    ∃ r : ℂ, (layered env (L.map fun l => ((l.1 : ℂ), l.2)) sub snu).reflCoef (atQ q nu pol) = .ok (FP.num r) ∧
      ‖r‖ = 1 := by
  obtain ⟨r, t, h1, -, h2⟩ := C86_energy env L sub snu nu q pol hpol h0 hL hs
  rw [fluxInto_evanescent pol nu q env sub hq, zero_mul, add_zero] at h2
  exact ⟨r, h1, (pow_eq_one_iff_of_nonneg (norm_nonneg r) two_ne_zero).1 h2⟩

/-- A prism of index 2 with a coating, in air. -/
example : ∃ r : ℂ, (layered (4 : ℝ) ([((2 : ℝ), (3 : ℝ))].map fun l => ((l.1 : ℂ), l.2)) (1 : ℝ)).reflCoef
    (atQ (3 / 2) 1 "s") = .ok (FP.num r) ∧ ‖r‖ = 1 :=
  C86_total 4 [(2, 3)] 1 none 1 (3 / 2) "s" (by simp) (by norm_num)
    (by intro l hl; simp only [List.mem_singleton] at hl; subst hl; norm_num) (by norm_num) (by norm_num)

/-- The reflection of a lossless bulk sample at momentum `q`, p polarization. -/
theorem bulk_p (env sub : ℝ) (snu : Option ℝ) (nu q : ℝ) (h0 : q ^ 2 < env * nu ^ 2) (hs : q ^ 2 < sub * nu ^ 2) :
    (bulk env sub snu).reflCoef (atQ q nu "p") =
      .ok (FP.num (((sub * Real.sqrt (env * nu ^ 2 - q ^ 2) - env * Real.sqrt (sub * nu ^ 2 - q ^ 2)) /
        (sub * Real.sqrt (env * nu ^ 2 - q ^ 2) + env * Real.sqrt (sub * nu ^ 2 - q ^ 2)) : ℝ) : ℂ)) := by
  have pos : ∀ e : ℝ, q ^ 2 < e * nu ^ 2 → 0 < e := by
    intro e he
    by_contra h
    exact absurd he (not_lt.2 ((mul_nonpos_of_nonpos_of_nonneg (not_lt.1 h) (sq_nonneg nu)).trans (sq_nonneg q)))
  have k0 := kz_real (nu := nu) (q := q) (e := env) (by linarith)
  have k1 := kz_real (nu := nu) (q := q) (e := sub) (by linarith)
  have p0 : 0 < Real.sqrt (env * nu ^ 2 - q ^ 2) := Real.sqrt_pos.2 (by linarith)
  have p1 : 0 < Real.sqrt (sub * nu ^ 2 - q ^ 2) := Real.sqrt_pos.2 (by linarith)
  have henv := pos _ h0
  have hsub := pos _ hs
  have n0 : (env : ℂ) * (nu : ℂ) ^ 2 ≠ (q : ℂ) ^ 2 := by exact_mod_cast h0.ne'
  have hden : env * Real.sqrt (sub * nu ^ 2 - q ^ 2) + sub * Real.sqrt (env * nu ^ 2 - q ^ 2) ≠ 0 := by positivity
  refine (C85_recursion env [] sub snu nu q "p" (by simp) n0 (by simp) (Complex.ofReal_ne_zero.2 hsub.ne') _
    (1 + (Medium.at nu q env).fresnel "p" (Medium.at nu q sub)) ?_).1
  have e1 : (Medium.at nu q env).fresnelDen "p" (Medium.at nu q sub) =
      ((sub * Real.sqrt (env * nu ^ 2 - q ^ 2) + env * Real.sqrt (sub * nu ^ 2 - q ^ 2) : ℝ) : ℂ) := by
    simp only [Medium.fresnelDen, if_true, Medium.at]
    change (sub : ℂ) * kz nu q env + env * kz nu q sub = _
    rw [k0, k1]
    push_cast
    rfl
  have e2 : (Medium.at nu q env).fresnelNum "p" (Medium.at nu q sub) =
      ((sub * Real.sqrt (env * nu ^ 2 - q ^ 2) - env * Real.sqrt (sub * nu ^ 2 - q ^ 2) : ℝ) : ℂ) := by
    simp only [Medium.fresnelNum, if_true, Medium.at]
    change (sub : ℂ) * kz nu q env - env * kz nu q sub = _
    rw [k0, k1]
    push_cast
    rfl
  have hden' : (Medium.at nu q env).fresnelDen "p" (Medium.at nu q sub) ≠ 0 := by
    rw [e1]
    exact Complex.ofReal_ne_zero.2 (by positivity)
  rw [List.map_nil, Medium.stackCoefs, if_neg hden']
  congr 2
  rw [Medium.fresnel, e1, e2]
  push_cast
  rfl

/-- Brewster's condition. -/
theorem C86_brewster (env sub : ℝ) (snu : Option ℝ) (nu q : ℝ) (h0 : q ^ 2 < env * nu ^ 2)
    (hs : q ^ 2 < sub * nu ^ 2) :
    (bulk env sub snu).reflCoef (atQ q nu "p") = .ok (FP.num 0) ↔
      env = sub ∨ q ^ 2 * (env + sub) = nu ^ 2 * (env * sub) := by
  have pos : ∀ e : ℝ, q ^ 2 < e * nu ^ 2 → 0 < e := by
    intro e he
    by_contra h
    exact absurd he (not_lt.2 ((mul_nonpos_of_nonpos_of_nonneg (not_lt.1 h) (sq_nonneg nu)).trans (sq_nonneg q)))
  have henv := pos _ h0
  have hsub := pos _ hs
  have p0 : 0 < env * nu ^ 2 - q ^ 2 := by linarith
  have p1 : 0 < sub * nu ^ 2 - q ^ 2 := by linarith
  have s0 := Real.sqrt_pos.2 p0
  have s1 := Real.sqrt_pos.2 p1
  have key : sub * Real.sqrt (env * nu ^ 2 - q ^ 2) - env * Real.sqrt (sub * nu ^ 2 - q ^ 2) = 0 ↔
      env = sub ∨ q ^ 2 * (env + sub) = nu ^ 2 * (env * sub) := by
    rw [sub_eq_zero, ← sq_eq_sq₀ (by positivity) (by positivity), mul_pow, mul_pow, Real.sq_sqrt p0.le,
      Real.sq_sqrt p1.le, ← sub_eq_zero,
      show sub ^ 2 * (env * nu ^ 2 - q ^ 2) - env ^ 2 * (sub * nu ^ 2 - q ^ 2) =
        (env - sub) * (q ^ 2 * (env + sub) - nu ^ 2 * (env * sub)) by ring, mul_eq_zero, sub_eq_zero, sub_eq_zero]
  rw [bulk_p env sub snu nu q h0 hs, ← key]
  constructor
  · intro h
    have h1 := FP.num.inj (Except.ok.inj h)
    have h2 := (div_eq_zero_iff.1 (Complex.ofReal_eq_zero.1 h1)).resolve_right (by positivity)
    exact h2
  · intro h
    rw [h, zero_div, Complex.ofReal_zero]

/-- s-polarized light is reflected at every interface. -/
theorem C86_s (env sub : ℝ) (snu : Option ℝ) (nu q : ℝ) (h0 : q ^ 2 < env * nu ^ 2) (hs : q ^ 2 < sub * nu ^ 2) :
    (bulk env sub snu).reflCoef (atQ q nu "s") = .ok (FP.num 0) ↔ env = sub := by
  have p0 : 0 < env * nu ^ 2 - q ^ 2 := by linarith
  have p1 : 0 < sub * nu ^ 2 - q ^ 2 := by linarith
  have s0 := Real.sqrt_pos.2 p0
  have s1 := Real.sqrt_pos.2 p1
  have hnu : nu ^ 2 ≠ 0 := by
    intro h
    rw [h, mul_zero] at h0
    exact absurd h0 (not_lt.2 (sq_nonneg q))
  rw [bulk_s env sub snu nu q h0 hs]
  constructor
  · intro h
    have h1 := FP.num.inj (Except.ok.inj h)
    have h2 := (div_eq_zero_iff.1 (Complex.ofReal_eq_zero.1 h1)).resolve_right (by positivity)
    have h3 := (Real.sqrt_inj p0.le p1.le).1 (sub_eq_zero.1 h2)
    have h4 : env * nu ^ 2 = sub * nu ^ 2 := by linarith
    exact mul_right_cancel₀ hnu h4
  · intro h
    rw [h, sub_self, zero_div, Complex.ofReal_zero]

/-- From vacuum, p-polarized light is not reflected at exactly the angle whose tangent is the refractive
index. -/
theorem C86_brewster_angle (n : ℝ) (hn : 1 < n) (snu : Option ℝ) (nu theta : ℝ) (hnu : 0 < nu) (h1 : 0 ≤ theta)
    (h2 : theta < Real.pi / 2) :
    (bulk 1 ((n ^ 2 : ℝ) : ℂ) snu).reflCoef (atAngle theta nu "p") = .ok (FP.num 0) ↔ Real.tan theta = n := by
  have hcos : 0 < Real.cos theta := Real.cos_pos_of_mem_Ioo ⟨by linarith, h2⟩
  have hsin : 0 ≤ Real.sin theta := Real.sin_nonneg_of_nonneg_of_le_pi h1 (by linarith)
  have hsc := Real.sin_sq_add_cos_sq theta
  rw [(farCoefs_congr (transferMatrix_atAngle _ theta nu "p")).1, abs_of_nonneg h1]
  have hb := C86_brewster 1 (n ^ 2) snu nu (nu * Real.sin theta) (by
      have : 0 < nu ^ 2 * Real.cos theta ^ 2 := by positivity
      nlinarith) (by
      have : 0 < nu ^ 2 * Real.cos theta ^ 2 := by positivity
      have : nu ^ 2 * 1 < nu ^ 2 * n ^ 2 := mul_lt_mul_of_pos_left (by nlinarith) (by positivity)
      nlinarith)
  rw [Complex.ofReal_one] at hb
  rw [hb, Real.tan_eq_sin_div_cos, div_eq_iff hcos.ne', ← sq_eq_sq₀ hsin (by positivity)]
  have hnu2 : nu ^ 2 ≠ 0 := by positivity
  constructor
  · rintro (h | h)
    · nlinarith
    · have h3 : nu ^ 2 * (Real.sin theta ^ 2 * (1 + n ^ 2)) = nu ^ 2 * n ^ 2 := by linear_combination h
      have h4 := mul_left_cancel₀ hnu2 h3
      linear_combination h4 - n ^ 2 * hsc
  · intro h
    right
    linear_combination nu ^ 2 * (h + n ^ 2 * hsc)

/-- Glass. -/
example : (bulk 1 (((3 / 2) ^ 2 : ℝ) : ℂ)).reflCoef (atAngle (Real.arctan (3 / 2)) 1 "p") = .ok (FP.num 0) :=
  (C86_brewster_angle (3 / 2) (by norm_num) none 1 _ one_pos (Real.arctan_nonneg.2 (by norm_num))
    (Real.arctan_lt_pi_div_two _)).2 (Real.tan_arctan _)

end Snompy.Props
