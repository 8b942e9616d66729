import Verif.Lemmas.Examples
import Verif.Props.Harmonics
import Verif.Props.BulkSample

/-!
# C106: the normalised approach curves of `docs/examples/scripts/si_approach.py`
-/

namespace Snompy.Props

open Snompy Examples

/-- Height number `k`, harmonic number `h`. -/
def at2 (k h : ℕ) : ℕ → ℕ
  | 0 => h
  | 1 => k
  | _ => 0

/-- A default tip is a perfectly conducting sphere. -/
private theorem default_tip (env : Env) (s : Stack (FP ℝ) (FP ℂ)) (A n : FP ℝ) (z : Option (FP ℝ)) (N : Option ℕ) :
    Pdm.effPolN env s A n z N {} =
      Pdm.effPolN env s A n z N (tip env.defaults.rTip ((4 * Real.pi * env.defaults.rTip ^ 3 : ℝ) : ℂ)) := by
  have h : env.defaults.pdm ({} : PdmArgs (FP ℝ) (FP ℂ)) =
      env.defaults.pdm (tip env.defaults.rTip ((4 * Real.pi * env.defaults.rTip ^ 3 : ℝ) : ℂ)) := rfl
  unfold Pdm.effPolN Pdm.effPol
  rw [h]

private theorem curve (env : Env) (s : Stack (FP ℝ) (FP ℂ)) (b : ℝ) (hb : s.reflCoefQs = .ok (FP.num (b : ℂ)))
    (hb0 : 0 < b) (hb1 : b < 1) (r A : ℝ) (hr : 0 < r) (hA : 0 < A) (n : ℤ) (N : ℕ) (hN : N ≠ 0) :
    ∃ v : ℝ → ℝ, (∀ z, 0 ≤ z → Pdm.effPolN env s (FP.num A) (FP.num n) (some (FP.num z)) (some N)
        (tip r ((4 * Real.pi * r ^ 3 : ℝ) : ℂ)) = .ok (FP.num (((-1 : ℝ) ^ n * v z : ℝ) : ℂ))) ∧
      (∀ z, 0 ≤ z → 0 < v z) ∧ ∀ z₁ z₂, 0 ≤ z₂ → z₂ < z₁ → v z₁ < v z₂ := by
  have hpi := Real.pi_pos
  have hα : 0 < 4 * Real.pi * r ^ 3 := by positivity
  have hres : ∀ w, r * (99 / 100) ≤ w → 4 * Real.pi * r ^ 3 * b < 16 * Real.pi * w ^ 3 := fun w hw => by
    have h1 := pow_le_pow_left₀ (by positivity) hw 3
    have h2 : 4 * Real.pi * r ^ 3 * b < 4 * Real.pi * r ^ 3 * 1 := mul_lt_mul_of_pos_left hb1 hα
    have h3 : 0 < Real.pi * r ^ 3 := by positivity
    have h4 : 16 * Real.pi * (r * (99 / 100)) ^ 3 ≤ 16 * Real.pi * w ^ 3 := by gcongr
    rw [mul_pow] at h4
    norm_num at h4
    nlinarith
  have hz : ∀ z₁ z₂, -(r * (1 / 100)) ≤ z₂ → z₂ < z₁ → _ := fun z₁ z₂ h0 h =>
    C72_pdm env s s b b hb hb r (4 * Real.pi * r ^ 3) z₁ z₂ A hA n N hN hα h.le (by linarith) hb0 le_rfl (.inr h)
      (hres _ (by linarith))
  have ex : ∀ z, ∃ v : ℝ, 0 ≤ z → 0 < v ∧ Pdm.effPolN env s (FP.num A) (FP.num n) (some (FP.num z)) (some N)
      (tip r ((4 * Real.pi * r ^ 3 : ℝ) : ℂ)) = .ok (FP.num (((-1 : ℝ) ^ n * v : ℝ) : ℂ)) := fun z => by
    by_cases h : 0 ≤ z
    · obtain ⟨v₁, -, q, -, q', -⟩ := hz z (z - r * (1 / 100)) (by linarith) (by linarith [mul_pos hr (by norm_num : (0 : ℝ) < 1 / 100)])
      refine ⟨v₁, fun _ => ⟨lt_of_le_of_lt ?_ q', q⟩⟩
      split <;> positivity
    · exact ⟨0, fun h' => absurd h' h⟩
  choose v hv using ex
  refine ⟨v, fun z h => (hv z h).2, fun z h => (hv z h).1, fun z₁ z₂ h0 h => ?_⟩
  obtain ⟨v₁, v₂, q₁, q₂, -, q⟩ := hz z₁ z₂ (by nlinarith) h
  have inj : ∀ x y : ℝ, (.ok (FP.num (((-1 : ℝ) ^ n * x : ℝ) : ℂ)) : PyM (FP ℂ)) = .ok (FP.num (((-1 : ℝ) ^ n * y : ℝ) : ℂ)) → x = y :=
    fun x y e => by
      injection e with e
      injection e with e
      exact mul_left_cancel₀ (zpow_ne_zero n (by norm_num : (-1 : ℝ) ≠ 0)) (Complex.ofReal_injective e)
  rw [inj _ _ ((hv z₁ (by linarith)).2.symm.trans q₁), inj _ _ ((hv z₂ h0).2.symm.trans q₂)]
  exact q

/-- The curves of a lossless dielectric under the default tip: one column for each harmonic; each is real and positive, starts at
1 and falls with the height. -/
theorem C106_approach (env : Env) (e ε : ℝ) (he : env.defaults.epsEnv = e) (e0 : 0 < e) (hε : e < ε) (hr : 0 < env.defaults.rTip)
    (hN : env.defaults.nTrapz ≠ 0) (A : ℝ) (hA : 0 < A) (z : List ℝ) (hz : z ≠ []) (hz0 : ∀ x ∈ z, 0 ≤ x) (n : List ℤ) (hn : n ≠ []) :
    ∃ E, approachPdm env z A (n.map (↑)) ε = .ok E ∧ E.rshape = [n.length, z.length] ∧ ∃ c : ℕ → ℕ → ℝ,
      (∀ k < z.length, ∀ h < n.length, E.get (at2 k h) = FP.num (c k h : ℂ)) ∧
      ∀ h < n.length, c 0 h = 1 ∧ (∀ k < z.length, 0 < c k h) ∧
        ∀ (j k : ℕ) (hj : j < z.length) (hk : k < z.length), z[j] < z[k] → c k h < c j h := by
  set N := env.defaults.nTrapz with hNd
  set r := env.defaults.rTip with hrd
  have hL : z.length ≠ 0 := by simpa using hz
  have hb := C91_eps env.defaults (NDArray.scalar (FP.num (ε : ℂ))) none none
  have hsh : bshape (Option.getD none (NDArray.scalar (FP.num env.defaults.epsEnv))).rshape
      (NDArray.scalar (FP.num (ε : ℂ))).rshape = some [] := by simp [NDArray.scalar]
  rw [hsh] at hb
  obtain ⟨o, B, C, ho, o1, o2, o3, hB, hC, hCi, hBi⟩ := hb
  simp only at hBi
  let T : ArrSample := ⟨[B, C], [], [], [], by simp [hB, hC], by simp, fun _ => rfl, rfl⟩
  have hT : o.stack = T.stack none := by
    unfold SampleObj.stack ArrSample.stack
    rw [o1, o2, o3]
    rfl
  have hat : ∀ i, T.at_ i = bulk (e : ℂ) (ε : ℂ) := fun i => by
    have : (NDArray.scalar (FP.num (ε : ℂ))).get i = FP.num (ε : ℂ) := rfl
    simp [T, ArrSample.at_, bulk, layered, hBi, hCi, he, this]
  have hrefl : (bulk (e : ℂ) (ε : ℂ)).reflCoefQs = .ok (FP.num (((ε - e) / (ε + e) : ℝ) : ℂ)) := by
    rw [C09_refl _ _ none _ (by exact_mod_cast (by linarith : ε ≠ 0)) (by exact_mod_cast (by linarith : ε + e ≠ 0))]
    push_cast
    rfl
  have hβ0 : 0 < (ε - e) / (ε + e) := div_pos (by linarith) (by linarith)
  have hβ1 : (ε - e) / (ε + e) < 1 := by rw [div_lt_one (by linarith)]; linarith
  have hv := fun m : ℤ => curve env _ _ hrefl hβ0 hβ1 r A hr hA m N hN
  choose v hv1 hv2 hv3 using hv
  set Z := NDArray.padFront (z.map FP.num) 1 (FP.nan : FP ℝ) with hZ
  set H := NDArray.padFront ((n.map (↑) : List ℝ).map FP.num) 0 (FP.nan : FP ℝ) with hH
  have hden := C61_pdm_eff_pol_n env T {} none (some Z) (NDArray.scalar (FP.num A)) H none
  have hjoin : joinAll [optShape (some Z), some (NDArray.scalar (FP.num A)).rshape, some H.rshape,
      optShape (none : Option (NDArray (FP ℝ))), optShape (none : Option (NDArray (FP ℂ))), optShape (none : Option (NDArray (FP ℂ))),
      some T.epsShape, some T.tShape] = some [n.length, z.length] := by
    simp only [joinAll, optShape, NDArray.scalar, T, Z, H, NDArray.padFront, List.replicate, List.length_map, List.nil_append,
      List.cons_append, Shape.some_join_some, Option.elim, bshape_nil_left, bshape_nil_right, bshape_cons]
    unfold bdim
    split_ifs <;> simp_all
  rw [hjoin] at hden
  have hZi : ∀ k < z.length, ∀ h, Z.get (at2 k h) = FP.num (z.getD k 0) := fun k hk h => by
    have := padFront_get (z.map FP.num) 1 (FP.nan : FP ℝ) (at2 k h) k (by simpa using hk)
    rw [Function.update_eq_self_iff.2 (show k = at2 k h 1 from rfl)] at this
    rw [hZ, this, List.getD_eq_getElem?_getD, List.getD_eq_getElem?_getD, List.getElem?_map, List.getElem?_eq_getElem hk]
    rfl
  have hHi : ∀ k, ∀ h < n.length, H.get (at2 k h) = FP.num ((n.getD h 0 : ℤ) : ℝ) := fun k h hh => by
    have := padFront_get ((n.map (↑) : List ℝ).map FP.num) 0 (FP.nan : FP ℝ) (at2 k h) h (by simpa using hh)
    rw [Function.update_eq_self_iff.2 (show h = at2 k h 0 from rfl)] at this
    rw [hH, this, List.getD_eq_getElem?_getD, List.getD_eq_getElem?_getD, List.getElem?_map, List.getElem?_map,
      List.getElem?_eq_getElem hh]
    rfl
  have hmem : ∀ k < z.length, 0 ≤ z.getD k 0 := fun k hk => by
    rw [List.getD_eq_getElem?_getD, List.getElem?_eq_getElem hk]
    exact hz0 _ (List.getElem_mem hk)
  have hsig : ∀ k < z.length, ∀ h < n.length, Pdm.effPolN env (T.at_ (at2 k h)) ((NDArray.scalar (FP.num A)).get (at2 k h))
      (H.get (at2 k h)) ((some Z).map (·.get (at2 k h))) none (Pdm.argsAt {} (at2 k h)) =
      .ok (FP.num (((-1 : ℝ) ^ n.getD h 0 * v (n.getD h 0) (z.getD k 0) : ℝ) : ℂ)) := fun k hk h hh => by
    rw [hat, hHi k h hh, Option.map_some, hZi k hk h, ← hv1 _ _ (hmem k hk)]
    exact default_tip env _ _ _ _ _
  have h00 : ∀ h < n.length, (0 : ℕ) < z.length := fun _ _ => Nat.pos_of_ne_zero hL
  have harr : ∃ E, Pdm.effPolN env o.stack (.ok (NDArray.scalar (FP.num A)) : RArr) (.ok H) (some (.ok Z)) none {} = .ok (.ok E) ∧
      E.rshape = [n.length, z.length] ∧ ∀ k < z.length, ∀ h < n.length,
        E.get (at2 k h) = FP.num (((-1 : ℝ) ^ n.getD h 0 * v (n.getD h 0) (z.getD k 0) : ℝ) : ℂ) := by
    rcases hden with ⟨x, hx, hx'⟩ | ⟨E, g, hE, hs, hEi⟩
    · have := (hx' (at2 0 0)).symm.trans (hsig 0 (Nat.pos_of_ne_zero hL) 0 (List.length_pos_of_ne_nil hn))
      simp at this
    · rw [hT]
      refine ⟨E, hE, hs, fun k hk h hh => ?_⟩
      have := (hEi (at2 k h)).1.symm.trans (hsig k hk h hh)
      injection this with this
      rw [(hEi (at2 k h)).2, this]
  obtain ⟨E, hE, hs, hEi⟩ := harr
  have hfirst : first E = .ok ⟨[n.length], fun i => E.get (Function.update i 1 0)⟩ := by
    unfold first NDArray.ndim
    rw [if_neg (by simp [hs, dimAt, hL])]
    simp [hs]
  have hnorm : normalise E = .ok ⟨[n.length, z.length], fun i => E.get i /
      (⟨[n.length], fun i => E.get (Function.update i 1 0)⟩ : NDArray (FP ℂ)).get i⟩ := by
    unfold normalise
    rw [hfirst]
    simp only [PyM.ok_bind, NDArray.zipWith, hs, bshape_cons, bshape_nil_right]
    simp [bdim]
  refine ⟨⟨[n.length, z.length], fun i => E.get i /
    (⟨[n.length], fun i => E.get (Function.update i 1 0)⟩ : NDArray (FP ℂ)).get i⟩, ?_, rfl, fun k h => v (n.getD h 0) (z.getD k 0) / v (n.getD h 0) (z.getD 0 0), fun k hk h hh => ?_, fun h hh => ?_⟩
  · unfold approachPdm
    rw [ho]
    simp only [PyM.ok_bind]
    rw [hE]
    exact hnorm
  · have c1 : canon [n.length, z.length] (at2 k h) = at2 k h := by
      funext m
      match m with
      | 0 => simp only [canon, dimAt, List.getD_cons_zero, at2]; split <;> omega
      | 1 => simp only [canon, dimAt, List.getD_cons_succ, List.getD_cons_zero, at2]; split <;> omega
      | m + 2 => simp [canon, at2]
    have c2 : Function.update (canon [n.length] (at2 k h)) 1 0 = at2 0 h := by
      funext m
      match m with
      | 0 => simp only [canon, dimAt, List.getD_cons_zero, at2, Function.update]; simp; omega
      | 1 => simp [Function.update, at2]
      | m + 2 => simp [canon, at2, Function.update]
    simp only [NDArray.get, c1, c2]
    have e1 := hEi k hk h hh
    have e2 := hEi 0 (h00 h hh) h hh
    unfold NDArray.get at e1 e2
    rw [e1, e2]
    have hp : v (n.getD h 0) (z.getD 0 0) ≠ 0 := (hv2 _ _ (hmem 0 (h00 h hh))).ne'
    have hs : (-1 : ℝ) ^ n.getD h 0 ≠ 0 := zpow_ne_zero _ (by norm_num)
    rw [FP.num_div _ (by exact_mod_cast mul_ne_zero hs hp), ← Complex.ofReal_div, mul_div_mul_left _ _ hs]
  · have hp : 0 < v (n.getD h 0) (z.getD 0 0) := hv2 _ _ (hmem 0 (h00 h hh))
    refine ⟨div_self hp.ne', fun k hk => div_pos (hv2 _ _ (hmem k hk)) hp, fun j k hj hk hlt => ?_⟩
    apply div_lt_div_of_pos_right _ hp
    apply hv3 _ _ _ (hmem j hj)
    rwa [List.getD_eq_getElem?_getD, List.getD_eq_getElem?_getD, List.getElem?_eq_getElem hj, List.getElem?_eq_getElem hk]

example (lag : ℕ → List (ℝ × ℝ)) := C106_approach ⟨Defaults.initial, lag⟩ 1 2 (by simp [Defaults.initial]) one_pos (by norm_num)
  (by norm_num [Defaults.initial]) (by norm_num [Defaults.initial]) 1e-8 (by norm_num) [0, 2e-9, 1e-9] (by simp)
  (by intro x hx; simp at hx; rcases hx with rfl | rfl | rfl <;> norm_num) [1, 2] (by simp)

/-- The script runs and plots falling curves. -/
theorem C106_script (lag : ℕ → List (ℝ × ℝ)) :
    ∃ E, siApproachPdm ⟨Defaults.initial, lag⟩ = .ok E ∧ E.rshape = [3, 512] ∧ ∃ c : ℕ → ℕ → ℝ,
      (∀ k < 512, ∀ h < 3, E.get (at2 k h) = FP.num (c k h : ℂ)) ∧
      ∀ h < 3, c 0 h = 1 ∧ (∀ k < 512, 0 < c k h) ∧ ∀ j k, j < k → k < 512 → c k h < c j h := by
  obtain ⟨L, hL⟩ : ∃ L, L = linspace 0 60e-9 512 := ⟨_, rfl⟩
  have hlen : L.length = 512 := by rw [hL]; simp [linspace]
  have hget : ∀ k (hk : k < L.length), L[k] = k * (60e-9 / 511) := fun k hk => by
    simp [hL, linspace]
  obtain ⟨E, h1, h2, c, h3, h4⟩ := C106_approach ⟨Defaults.initial, lag⟩ 1 11.7 (by simp [Defaults.initial]) one_pos (by norm_num)
    (by norm_num [Defaults.initial]) (by norm_num [Defaults.initial]) 20e-9 (by norm_num) L
    (List.ne_nil_of_length_pos (by omega)) (fun x hx => by
      obtain ⟨k, hk, rfl⟩ := List.getElem_of_mem hx
      rw [hget]
      positivity) [2, 3, 4] (by simp)
  rw [hlen] at h2 h3
  refine ⟨E, ?_, h2, c, h3, fun h hh => ⟨(h4 h hh).1, fun k hk => (h4 h hh).2.1 k (by omega), fun j k hjk hk => ?_⟩⟩
  · unfold siApproachPdm
    rw [← h1, ← hL]
    norm_num
  · refine (h4 h hh).2.2 j k (by omega) (by omega) ?_
    rw [hget, hget]
    gcongr

end Snompy.Props
