import Verif.Lemmas.Quad

/-!
# `demod` under a change of length unit and of the unit of the signal
-/

namespace Snompy

open Finset

theorem trapz_scale (k : ℂ) (l : List (FP ℂ)) :
    FP.trapz (l.map (FP.num k * ·)) = FP.num k * FP.trapz l := by
  unfold FP.trapz
  rw [← List.map_tail, ← List.map_dropLast]
  generalize l.tail = a
  generalize l.dropLast = b
  rw [FP.sum_eq, FP.sum_eq]
  induction a generalizing b with
  | nil => simp [FP.zero_eq]
  | cons x a ih =>
    cases b with
    | nil => simp [FP.zero_eq]
    | cons y b =>
      simp only [List.map_cons, List.zipWith_cons_cons, List.sum_cons]
      rw [ih, ← FP.num_mul_add, FP.num_mul_div, FP.num_mul_add]

theorem mapM_bind_map {α β γ : Type} (l : List α) (F : α → PyM β) (G : β → γ) :
    (l.mapM fun a => (do let b ← F a; pure (G b) : PyM γ)) =
      (do let bs ← l.mapM F; pure (bs.map G)) := by
  induction l with
  | nil => rfl
  | cons a l ih =>
    rw [List.mapM_cons, List.mapM_cons, ih]
    cases F a with
    | error e => rfl
    | ok b =>
      simp only [PyM.ok_bind, PyM.pure_eq_ok]
      cases l.mapM F with
      | error e => rfl
      | ok bs => rfl

theorem demod_scale (env : Env) (f f' : FP ℝ → PyM (FP ℂ)) (c : ℝ) (k : ℂ) (x0 amp : ℝ) (n : FP ℝ)
    (nT : Option ℕ)
    (h : ∀ x, f' (FP.num (c * x)) = f (FP.num x) >>= fun v => .ok (FP.num k * v)) :
    demod env f' (FP.num (c * x0)) (FP.num (c * amp)) n nT =
      demod env f (FP.num x0) (FP.num amp) n nT >>= fun v => .ok (FP.num k * v) := by
  have hc : ∀ u : ℝ, f' (FP.num (c * x0) + FP.num u * FP.num (c * amp)) =
      f (FP.num x0 + FP.num u * FP.num amp) >>= fun v => .ok (FP.num k * v) := by
    intro u
    rw [FP.num_mul, FP.num_add, FP.num_mul, FP.num_add, ← h]
    ring_nf
  rw [demod_unfold, demod_unfold, hc]
  cases f (FP.num x0 + FP.num 0 * FP.num amp) with
  | error e => rfl
  | ok v =>
    simp only [PyM.ok_bind, hc]
    generalize thetaGrid (nT.getD env.defaults.nTrapz) = grid
    have hb : ∀ θ : ℝ, ((f (FP.num x0 + FP.num (Real.cos θ) * FP.num amp) >>= fun v =>
          (.ok (FP.num k * v) : PyM (FP ℂ))) >>= fun fx =>
          (pure (fx * CplxOps.exp (FP.num (-Complex.I) * ofR n * FP.num (θ : ℂ))) : PyM (FP ℂ))) =
        ((do
          let fx ← f (FP.num x0 + FP.num (Real.cos θ) * FP.num amp)
          pure (fx * CplxOps.exp (FP.num (-Complex.I) * ofR n * FP.num (θ : ℂ))) : PyM (FP ℂ)) >>=
            fun b => pure (FP.num k * b)) := by
      intro θ
      cases f (FP.num x0 + FP.num (Real.cos θ) * FP.num amp) with
      | error e => rfl
      | ok fx =>
        simp only [PyM.ok_bind, PyM.pure_eq_ok]
        congr 1
        generalize CplxOps.exp (FP.num (-Complex.I) * ofR n * FP.num (θ : ℂ)) = w
        cases fx <;> cases w <;> simp [mul_assoc]
    simp only [hb]
    rw [mapM_bind_map]
    generalize (List.mapM (m := PyM) (β := FP ℂ) _ grid) = vals
    cases vals with
    | error e => rfl
    | ok vals =>
      simp only [PyM.ok_bind, PyM.pure_eq_ok]
      rw [trapz_scale, FP.num_mul_div]

end Snompy
