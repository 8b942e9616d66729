import Verif.Lemmas.DenStack

/-!
# The quadrature methods of an array-valued sample, elementwise
-/

namespace Snompy

namespace ArrSample

variable (S : ArrSample)

/-- The scalar reflection coefficient of a valid sample never raises. -/
theorem at_reflCoefQs_ok (i : ℕ → ℕ) (nu : Option (FP ℝ)) (q : FP ℝ) :
    ∃ v, (S.at_ i nu).reflCoefQs q = .ok v := by
  have h := S.pairs_ne_nil
  unfold Stack.reflCoefQs Stack.transferMatrixQs
  cases hl : List.map Stack.interface
      (List.zipWith (· / ·) (S.at_ i nu).eps.dropLast (S.at_ i nu).eps.tail) with
  | nil =>
    exfalso
    have h' := congrArg List.length hl
    have hlen := S.layers
    simp [at_, hlen] at h'
  | cons T0 Ts =>
    simp only [hl]
    split_ifs
    · exact ⟨_, rfl⟩
    · exact ⟨_, rfl⟩

theorem reflCoefQs_dep {sb : Shape} (h : S.shape ≤ᵇ sb) :
    Dep sb fun i => (S.at_ i none).reflCoefQs := fun s0 hs i j hij => by
  have := S.at_dep h s0 hs i j hij
  simp only at this
  simp only [this]

theorem dep_map {α β : Type} {sb : Shape} {f : (ℕ → ℕ) → α} (h : Dep sb f) (g : α → β) :
    Dep sb fun i => g (f i) := fun s0 hs i j hij => by
  simp only [h s0 hs i j hij]

theorem dep_map2 {α β γ : Type} {sb : Shape} {f : (ℕ → ℕ) → α} {f' : (ℕ → ℕ) → β}
    (h : Dep sb f) (h' : Dep sb f') (g : α → β → γ) :
    Dep sb fun i => g (f i) (f' i) := fun s0 hs i j hij => by
  simp only [h s0 hs i j hij, h' s0 hs i j hij]

/-- One quadrature sum over the reflection coefficient, elementwise. -/
theorem quad_den (rule : List (ℝ × ℝ)) {zQ : RArr} {sz : Shape} {Z : (ℕ → ℕ) → FP ℝ}
    (hz : Den zQ sz Z) {like : CArr} {L : (ℕ → ℕ) → FP ℂ} (hl : Den like (sz ⊔ᵇ S.shape) L)
    (wt : ∀ {R : Type} [RealOps R], R → R → R)
    (hwt : ∀ (x w : RArr) (sx : Shape) (X W : (ℕ → ℕ) → FP ℝ), Den x sx X → Den w sx W →
      Den (wt x w) sx fun i => wt (X i) (W i)) (nu : Option RArr) :
    DenM (CplxOps.quad0 rule [.inr like] fun x w => do
        let betaQ ← (S.stack nu).reflCoefQs (x / (lit 2 * zQ))
        pure (ofR (wt x w) * betaQ)) (sz ⊔ᵇ S.shape)
      (fun i => CplxOps.quad0 rule [.inr (L i)] fun x w => do
        let betaQ ← (S.at_ i none).reflCoefQs (x / (lit 2 * Z i))
        pure (ofR (wt x w) * betaQ)) := by
  refine DenM.quad0 (shapes := [sz ⊔ᵇ S.shape]) (likesS := fun i => [.inr (L i)]) rule ?_ ?_ ?_ ?_ ?_
  · exact List.Forall₂.cons ⟨L, hl⟩ List.Forall₂.nil
  · simp [joinAll]
  · intro x w sx X W hx hw
    have hq := hx.rdiv ((Den.lit 2).rmul hz)
    refine DenM.seq (S.reflCoefQs_den hq nu fun _ => none) ?_ ?_
    · simp only [Shape.unit_join]
      rw [Shape.join_assoc]
      exact Shape.le_refl _
    · intro y g hy
      refine DenM.ok (((hwt x w sx X W hx hw).ofR.cmul hy).congr ?_ fun i => rfl)
      simp only [Shape.unit_join]
      ac_rfl
  · have h1 := S.at_dep (sb := sz ⊔ᵇ S.shape) (Shape.le_join_right _ _)
    have h2 := Dep.of_den hz (sb := sz ⊔ᵇ S.shape) (Shape.le_join_left _ _)
    exact dep_map2 h1 h2 fun st z => fun x w => (do
        let betaQ ← st.reflCoefQs (x / (lit 2 * z))
        pure (ofR (wt x w) * betaQ))
  · refine Or.inr fun i x w => ?_
    obtain ⟨v, hv⟩ := S.at_reflCoefQs_ok i none (x / (lit 2 * Z i))
    exact ⟨_, by rw [hv]; rfl⟩

/-- `refl_coef_qs_above_surf`, elementwise. -/
theorem reflCoefQsAboveSurf_den (env : Env) (nLag : Option ℕ) {zQ : RArr} {sz : Shape}
    {Z : (ℕ → ℕ) → FP ℝ} (hz : Den zQ sz Z) (nu : Option RArr) :
    DenM ((S.stack nu).reflCoefQsAboveSurf env zQ nLag) (sz ⊔ᵇ S.shape)
      (fun i => (S.at_ i none).reflCoefQsAboveSurf env (Z i) nLag) := by
  unfold Stack.reflCoefQsAboveSurf
  cases hr : env.lagRule (nLag.getD env.defaults.nLag) with
  | error e => exact DenM.err e _
  | ok rule =>
    simp only [PyM.ok_bind]
    refine DenM.seq (S.reflCoefQs_den hz nu fun _ => none) (Shape.le_refl _) fun like L hl => ?_
    exact S.quad_den rule hz hl (fun x w => w * x)
      (fun x w sx X W hx hw => (hw.rmul hx).congr (Shape.join_self _) fun i => rfl) nu

/-- `surf_pot_and_field`, elementwise, in continuation form. -/
theorem surfPotAndField_den (env : Env) (nLag : Option ℕ) {zQ : RArr} {sz : Shape}
    {Z : (ℕ → ℕ) → FP ℝ} (hz : Den zQ sz Z) (nu : Option RArr) {β : Type} {s' : Shape}
    (hs' : sz ⊔ᵇ S.shape ≤ᵇ s') (k : CArr × CArr → PyM (PyM (NDArray β)))
    (kS : (ℕ → ℕ) → FP ℂ × FP ℂ → PyM β)
    (hk : ∀ x y f g, Den x (sz ⊔ᵇ S.shape) f → Den y (sz ⊔ᵇ S.shape) g →
      DenM (k (x, y)) s' (fun i => kS i (f i, g i))) :
    DenM ((S.stack nu).surfPotAndField env zQ nLag >>= k) s'
      (fun i => (S.at_ i none).surfPotAndField env (Z i) nLag >>= kS i) := by
  unfold Stack.surfPotAndField
  cases hr : env.lagRule (nLag.getD env.defaults.nLag) with
  | error e => exact DenM.err e _
  | ok rule =>
    simp only [PyM.ok_bind, bind_assoc, pure_bind]
    refine DenM.seq (S.reflCoefQs_den hz nu fun _ => none) hs' fun like L hl => ?_
    refine DenM.seq (S.quad_den rule hz hl (fun x w => w)
      (fun x w sx X W hx hw => hw) nu) hs' fun phi f hf => ?_
    refine DenM.seq (S.quad_den rule hz hl (fun x w => w * x)
      (fun x w sx X W hx hw => (hw.rmul hx).congr (Shape.join_self _) fun i => rfl) nu)
      hs' fun e g hg => ?_
    refine hk _ _ _ _ ((hf.cdiv ((Den.lit 2).rmul hz).ofR).congr ?_ fun i => rfl)
      ((hg.cdiv ((Den.lit 4).rmul (hz.npow 2)).ofR).congr ?_ fun i => rfl)
    · simp only [Shape.unit_join]; ac_rfl
    · simp only [Shape.unit_join]; ac_rfl

/-- `image_depth_and_charge`, elementwise, in continuation form. -/
theorem imageDepthAndCharge_den (env : Env) (nLag : Option ℕ) {zQ : RArr} {sz : Shape}
    {Z : (ℕ → ℕ) → FP ℝ} (hz : Den zQ sz Z) (nu : Option RArr) {β : Type} {s' : Shape}
    (hs' : sz ⊔ᵇ S.shape ≤ᵇ s') (k : RArr × CArr → PyM (PyM (NDArray β)))
    (kS : (ℕ → ℕ) → FP ℝ × FP ℂ → PyM β)
    (hk : ∀ x y f g, Den x (sz ⊔ᵇ S.shape) f → Den y (sz ⊔ᵇ S.shape) g →
      DenM (k (x, y)) s' (fun i => kS i (f i, g i))) :
    DenM ((S.stack nu).imageDepthAndCharge env zQ nLag >>= k) s'
      (fun i => (S.at_ i none).imageDepthAndCharge env (Z i) nLag >>= kS i) := by
  unfold Stack.imageDepthAndCharge
  simp only [bind_assoc, pure_bind]
  refine S.surfPotAndField_den env nLag hz nu hs' _ (fun i p =>
    kS i (CplxOps.cabs (p.1 / p.2) - Z i, CplxOps.cpow p.1 2 / p.2)) fun x y f g hf hg => ?_
  refine hk _ _ _ _ (((hf.cdiv hg).cabs.rsub hz).congr ?_ fun i => rfl)
    (((hf.cpow 2).cdiv hg).congr ?_ fun i => rfl)
  · rw [Shape.join_self]; ac_rfl
  · rw [Shape.join_self]

end ArrSample

end Snompy
