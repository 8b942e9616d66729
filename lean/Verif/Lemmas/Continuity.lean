import Verif.Lemmas.Far
import Verif.Spec.Continuity
import Verif.Model.Fdm
import Verif.Model.Pdm
import Mathlib.Topology.List
import Mathlib.Analysis.SpecialFunctions.Complex.Log
import Mathlib.Analysis.SpecialFunctions.Pow.Continuity
import Mathlib.Topology.Algebra.GroupWithZero

/-!
# Convergence of numbers, lists and computations

Arithmetic that returns `nan` whenever it is not defined is continuous wherever it returns a number.  The relations below say so for a
family indexed by `α` that converges along a filter.
-/

namespace Snompy

open Filter Topology

variable {α : Type} {F : Filter α} {β γ δ : Type}

/-- If the limit is a number then so are the values, eventually, and they converge to it. -/
def FPT [TopologicalSpace β] (F : Filter α) (x : α → FP β) (x0 : FP β) : Prop :=
  ∀ v0, x0 = .num v0 → ∃ v : α → β, (∀ᶠ a in F, x a = .num (v a)) ∧ Tendsto v F (𝓝 v0)

namespace FPT

section basic
variable [TopologicalSpace β] [TopologicalSpace γ] [TopologicalSpace δ]

theorem num {v : α → β} {v0 : β} (h : Tendsto v F (𝓝 v0)) : FPT F (fun a => .num (v a)) (.num v0) := by
  intro w hw
  obtain rfl := FP.num.inj hw
  exact ⟨v, Eventually.of_forall fun _ => rfl, h⟩

theorem const (x : FP β) : FPT F (fun _ => x) x := by
  intro w hw
  subst hw
  exact ⟨fun _ => w, Eventually.of_forall fun _ => rfl, tendsto_const_nhds⟩

theorem congr {x y : α → FP β} {x0 : FP β} (h : FPT F x x0) (e : ∀ᶠ a in F, y a = x a) : FPT F y x0 := by
  intro w hw
  obtain ⟨v, h1, h2⟩ := h w hw
  exact ⟨v, by filter_upwards [h1, e] with a ha hb; rw [hb, ha], h2⟩

theorem map {x : α → FP β} {x0 : FP β} {f : β → γ} (hf : Continuous f) (h : FPT F x x0) :
    FPT F (fun a => (x a).map f) (x0.map f) := by
  intro w hw
  cases x0 with
  | nan => cases hw
  | num b =>
    obtain rfl := FP.num.inj hw
    obtain ⟨v, h1, h2⟩ := h b rfl
    exact ⟨fun a => f (v a), by filter_upwards [h1] with a ha; rw [ha]; rfl, (hf.tendsto b).comp h2⟩

theorem bind {x : α → FP β} {x0 : FP β} {f : β → FP γ} (hf : ∀ b, FPT (𝓝 b) f (f b)) (h : FPT F x x0) :
    FPT F (fun a => (x a).bind f) (x0.bind f) := by
  intro w hw
  cases x0 with
  | nan => cases hw
  | num b =>
    obtain ⟨v, h1, h2⟩ := h b rfl
    obtain ⟨u, h3, h4⟩ := hf b w hw
    exact ⟨fun a => u (v a), by filter_upwards [h1, h2.eventually h3] with a ha hb; rw [ha, FP.bind_num, hb], h4.comp h2⟩

theorem op2 {x : α → FP β} {x0 : FP β} {y : α → FP γ} {y0 : FP γ} {op : FP β → FP γ → FP δ} {f : β → γ → δ}
    (hop : ∀ a b, op (.num a) (.num b) = .num (f a b)) (hn1 : ∀ b, op .nan b = .nan) (hn2 : ∀ a, op a .nan = .nan)
    (hf : Continuous fun p : β × γ => f p.1 p.2) (hx : FPT F x x0) (hy : FPT F y y0) :
    FPT F (fun a => op (x a) (y a)) (op x0 y0) := by
  intro w hw
  cases x0 with
  | nan => rw [hn1] at hw; cases hw
  | num b =>
    cases y0 with
    | nan => rw [hn2] at hw; cases hw
    | num c =>
      rw [hop] at hw
      obtain rfl := FP.num.inj hw
      obtain ⟨v, h1, h2⟩ := hx b rfl
      obtain ⟨u, h3, h4⟩ := hy c rfl
      exact ⟨fun a => f (v a) (u a), by filter_upwards [h1, h3] with a ha hb; rw [ha, hb, hop],
        (hf.tendsto (b, c)).comp (h2.prodMk_nhds h4)⟩

theorem add [Add β] [ContinuousAdd β] {x y : α → FP β} {x0 y0 : FP β} (hx : FPT F x x0) (hy : FPT F y y0) :
    FPT F (fun a => x a + y a) (x0 + y0) :=
  op2 (op := (· + ·)) (fun _ _ => rfl) FP.nan_add FP.add_nan continuous_add hx hy

theorem sub [Sub β] [ContinuousSub β] {x y : α → FP β} {x0 y0 : FP β} (hx : FPT F x x0) (hy : FPT F y y0) :
    FPT F (fun a => x a - y a) (x0 - y0) :=
  op2 (op := (· - ·)) (fun _ _ => rfl) FP.nan_sub FP.sub_nan continuous_sub hx hy

theorem mul [Mul β] [ContinuousMul β] {x y : α → FP β} {x0 y0 : FP β} (hx : FPT F x x0) (hy : FPT F y y0) :
    FPT F (fun a => x a * y a) (x0 * y0) :=
  op2 (op := (· * ·)) (fun _ _ => rfl) FP.nan_mul FP.mul_nan continuous_mul hx hy

end basic

theorem div [NormedField β] {x y : α → FP β} {x0 y0 : FP β} (hx : FPT F x x0) (hy : FPT F y y0) :
    FPT F (fun a => x a / y a) (x0 / y0) := by
  intro w hw
  cases x0 with
  | nan => rw [FP.nan_div] at hw; cases hw
  | num b =>
    cases y0 with
    | nan => rw [FP.div_nan] at hw; cases hw
    | num c =>
      by_cases hc : c = 0
      · subst hc
        rw [FP.num_div_zero] at hw
        cases hw
      · rw [FP.num_div _ hc] at hw
        obtain rfl := FP.num.inj hw
        obtain ⟨v, h1, h2⟩ := hx b rfl
        obtain ⟨u, h3, h4⟩ := hy c rfl
        refine ⟨fun a => v a / u a, ?_, h2.div h4 hc⟩
        filter_upwards [h1, h3, h4.eventually_ne hc] with a ha hb hc
        rw [ha, hb, FP.num_div _ hc]

theorem rlog {x : α → FP ℝ} {x0 : FP ℝ} (hx : FPT F x x0) : FPT F (fun a => FP.rlog (x a)) (FP.rlog x0) := by
  refine bind (fun b => ?_) hx
  intro w hw
  by_cases hb : 0 < b
  · rw [if_pos hb] at hw
    obtain rfl := FP.num.inj hw
    exact ⟨Real.log, by filter_upwards [lt_mem_nhds hb] with a ha; rw [if_pos ha], (Real.continuousAt_log hb.ne')⟩
  · rw [if_neg hb] at hw
    cases hw

theorem zpow (j : ℤ) {x : α → FP ℂ} {x0 : FP ℂ} (hx : FPT F x x0) : FPT F (fun a => FP.zpow (x a) j) (FP.zpow x0 j) := by
  refine bind (fun b => ?_) hx
  intro w hw
  by_cases hb : b = 0 ∧ j < 0
  · rw [if_pos hb] at hw
    cases hw
  · rw [if_neg hb] at hw
    obtain rfl := FP.num.inj hw
    have h' : b ≠ 0 ∨ 0 ≤ j := by
      by_contra hcon
      push Not at hcon
      exact hb hcon
    refine ⟨fun a => a ^ j, ?_, continuousAt_zpow₀ b j h'⟩
    rcases h' with h' | h'
    · filter_upwards [isOpen_ne.mem_nhds h'] with a ha
      rw [if_neg fun h => ha h.1]
    · exact Eventually.of_forall fun a => if_neg fun h => absurd h.2 (not_lt.2 h')

end FPT

/-! ## Lists -/

/-- The lists have the length of the limit, eventually, and their entries converge. -/
def LT (F : Filter α) (T : (α → β) → β → Prop) : (α → List β) → List β → Prop
  | l, [] => ∀ᶠ a in F, l a = []
  | l, b :: l0 => ∃ (h : α → β) (t : α → List β), (∀ᶠ a in F, l a = h a :: t a) ∧ T h b ∧ LT F T t l0

variable {T : (α → β) → β → Prop} {U : (α → γ) → γ → Prop} {V : (α → δ) → δ → Prop}

theorem LT.congr {l m : α → List β} {l0 : List β} (h : LT F T l l0) (e : ∀ᶠ a in F, m a = l a) : LT F T m l0 := by
  cases l0 with
  | nil => filter_upwards [h, e] with a h1 h2; rw [h2, h1]
  | cons b l0 =>
    obtain ⟨x, t, h1, h2, h3⟩ := h
    exact ⟨x, t, by filter_upwards [h1, e] with a h1 h2; rw [h2, h1], h2, h3⟩

theorem LT.length {l : α → List β} {l0 : List β} (h : LT F T l l0) : ∀ᶠ a in F, (l a).length = l0.length := by
  induction l0 generalizing l with
  | nil => filter_upwards [h] with a h1; rw [h1]
  | cons b l0 ih =>
    obtain ⟨x, t, h1, h2, h3⟩ := h
    filter_upwards [h1, ih h3] with a h1 h2
    rw [h1, List.length_cons, h2, List.length_cons]

theorem LT.map {l : α → List β} {l0 : List β} {f : α → β → γ} {f0 : β → γ}
    (hf : ∀ x x0, T x x0 → U (fun a => f a (x a)) (f0 x0)) (h : LT F T l l0) : LT F U (fun a => (l a).map (f a)) (l0.map f0) := by
  induction l0 generalizing l with
  | nil =>
    refine (?_ : ∀ᶠ a in F, _)
    filter_upwards [h] with a h1
    rw [h1]
    rfl
  | cons b l0 ih =>
    obtain ⟨x, t, h1, h2, h3⟩ := h
    exact ⟨fun a => f a (x a), fun a => (t a).map (f a), by filter_upwards [h1] with a h1; rw [h1]; rfl, hf x b h2, ih h3⟩

theorem LT.zipWith {l : α → List β} {l0 : List β} {m : α → List γ} {m0 : List γ} {f : α → β → γ → δ} {f0 : β → γ → δ}
    (hf : ∀ x x0 y y0, T x x0 → U y y0 → V (fun a => f a (x a) (y a)) (f0 x0 y0)) (h : LT F T l l0) (h' : LT F U m m0) :
    LT F V (fun a => List.zipWith (f a) (l a) (m a)) (List.zipWith f0 l0 m0) := by
  induction l0 generalizing l m m0 with
  | nil =>
    refine (?_ : ∀ᶠ a in F, _)
    filter_upwards [h] with a h1
    rw [h1]
    rfl
  | cons b l0 ih =>
    obtain ⟨x, t, h1, h2, h3⟩ := h
    cases m0 with
    | nil =>
      refine (?_ : ∀ᶠ a in F, _)
      filter_upwards [h'] with a h1
      rw [h1, List.zipWith_nil_right]
    | cons c m0 =>
      obtain ⟨y, u, g1, g2, g3⟩ := h'
      exact ⟨fun a => f a (x a) (y a), fun a => List.zipWith (f a) (t a) (u a),
        by filter_upwards [h1, g1] with a h1 g1; rw [h1, g1]; rfl, hf x b y c h2 g2, ih h3 g3⟩

theorem LT.tail {l : α → List β} {l0 : List β} (h : LT F T l l0) : LT F T (fun a => (l a).tail) l0.tail := by
  cases l0 with
  | nil =>
    refine (?_ : ∀ᶠ a in F, _)
    filter_upwards [h] with a h1
    rw [h1]
    rfl
  | cons b l0 =>
    obtain ⟨x, t, h1, h2, h3⟩ := h
    exact h3.congr (by filter_upwards [h1] with a h1; rw [h1]; rfl)

theorem LT.dropLast {l : α → List β} {l0 : List β} (h : LT F T l l0) : LT F T (fun a => (l a).dropLast) l0.dropLast := by
  induction l0 generalizing l with
  | nil =>
    refine (?_ : ∀ᶠ a in F, _)
    filter_upwards [h] with a h1
    rw [h1]
    rfl
  | cons b l0 ih =>
    obtain ⟨x, t, h1, h2, h3⟩ := h
    cases l0 with
    | nil =>
      refine (?_ : ∀ᶠ a in F, _)
      filter_upwards [h1, h3] with a h1 h3
      rw [h1, h3]
      rfl
    | cons c l0 =>
      have := h3.length
      refine ⟨x, fun a => (t a).dropLast, ?_, h2, ih h3⟩
      filter_upwards [h1, this] with a h1 h4
      rw [h1]
      cases ht : t a with
      | nil => rw [ht] at h4; simp at h4
      | cons d t => rfl

theorem LT.foldl {l : α → List β} {l0 : List β} {f : γ → β → γ}
    (hf : ∀ x x0 y y0, U x x0 → T y y0 → U (fun a => f (x a) (y a)) (f x0 y0)) (hU : ∀ x y x0, U x x0 → (∀ᶠ a in F, y a = x a) → U y x0)
    (h : LT F T l l0) {s : α → γ} {s0 : γ} (hs : U s s0) : U (fun a => (l a).foldl f (s a)) (l0.foldl f s0) := by
  induction l0 generalizing l s s0 with
  | nil => exact hU _ _ _ hs (by filter_upwards [h] with a h1; rw [h1]; rfl)
  | cons b l0 ih =>
    obtain ⟨x, t, h1, h2, h3⟩ := h
    exact hU _ _ _ (ih h3 (hf _ _ _ _ hs h2)) (by filter_upwards [h1] with a h1; rw [h1]; rfl)

theorem LT.sum [TopologicalSpace β] [AddMonoid β] [ContinuousAdd β] {l : α → List (FP β)} {l0 : List (FP β)} (h : LT F (FPT F) l l0) :
    FPT F (fun a => FP.sum (l a)) (FP.sum l0) := by
  induction l0 generalizing l with
  | nil => exact (FPT.const _).congr (by filter_upwards [h] with a h1; rw [h1])
  | cons b l0 ih =>
    obtain ⟨x, t, h1, h2, h3⟩ := h
    exact (h2.add (ih h3)).congr (by filter_upwards [h1] with a h1; rw [h1]; rfl)

theorem LT.trapz {l : α → List (FP ℂ)} {l0 : List (FP ℂ)} (h : LT F (FPT F) l l0) : FPT F (fun a => FP.trapz (l a)) (FP.trapz l0) :=
  LT.sum (LT.zipWith (f := fun _ a b => (a + b) / FP.num 2) (fun _ _ _ _ h1 h2 => (h1.add h2).div (FPT.const _)) h.tail h.dropLast)

theorem LT.of_forall (l0 : List β) {l : α → List β} (h : ∀ a, l a = l0) (hT : ∀ b ∈ l0, T (fun _ => b) b) : LT F T l l0 := by
  induction l0 generalizing l with
  | nil => exact Eventually.of_forall h
  | cons b l0 ih =>
    exact ⟨fun _ => b, fun _ => l0, Eventually.of_forall h, hT b (by simp), ih (fun _ => rfl) fun b hb => hT b (by simp [hb])⟩

/-! ## Computations -/

/-- If the limit raises nothing then neither do the computations, eventually, and their values converge. -/
def PyT (F : Filter α) (T : (α → β) → β → Prop) (x : α → PyM β) (x0 : PyM β) : Prop :=
  ∀ v0, x0 = .ok v0 → ∃ v : α → β, (∀ᶠ a in F, x a = .ok (v a)) ∧ T v v0

theorem PyT.ok {v : α → β} {v0 : β} (h : T v v0) : PyT F T (fun a => .ok (v a)) (.ok v0) := by
  intro w hw
  cases hw
  exact ⟨v, Eventually.of_forall fun _ => rfl, h⟩

theorem PyT.error {x : α → PyM β} {e : PyErr} : PyT F T x (.error e) := fun _ h => by cases h

theorem PyT.congr {x y : α → PyM β} {x0 : PyM β} (h : PyT F T x x0) (e : ∀ᶠ a in F, y a = x a) : PyT F T y x0 := by
  intro w hw
  obtain ⟨v, h1, h2⟩ := h w hw
  exact ⟨v, by filter_upwards [h1, e] with a ha hb; rw [hb, ha], h2⟩

theorem PyT.bind {x : α → PyM β} {x0 : PyM β} {f : α → β → PyM γ} {f0 : β → PyM γ} (hx : PyT F T x x0)
    (hf : ∀ v v0, T v v0 → PyT F U (fun a => f a (v a)) (f0 v0)) : PyT F U (fun a => x a >>= f a) (x0 >>= f0) := by
  cases x0 with
  | error e => exact PyT.error
  | ok v0 =>
    obtain ⟨v, h1, h2⟩ := hx v0 rfl
    exact (hf v v0 h2).congr (by filter_upwards [h1] with a ha; rw [ha]; rfl)

theorem PyT.mapM {ι : Type} (l : List ι) {f : α → ι → PyM β} {f0 : ι → PyM β} (h : ∀ i ∈ l, PyT F T (fun a => f a i) (f0 i)) :
    PyT F (LT F T) (fun a => l.mapM (f a)) (l.mapM f0) := by
  induction l with
  | nil => exact PyT.ok (v := fun _ => []) (Eventually.of_forall fun _ => rfl)
  | cons i l ih =>
    simp only [List.mapM_cons]
    refine (h i (by simp)).bind fun v v0 hv => (ih fun i hi => h i (by simp [hi])).bind fun u u0 hu => ?_
    exact PyT.ok (v := fun a => v a :: u a) ⟨v, u, Eventually.of_forall fun _ => rfl, hv, hu⟩

theorem PyT.mono {T' : (α → β) → β → Prop} {x : α → PyM β} {x0 : PyM β} (h : PyT F T x x0) (hT : ∀ v v0, T v v0 → T' v v0) : PyT F T' x x0 :=
  fun w hw => by
    obtain ⟨v, h1, h2⟩ := h w hw
    exact ⟨v, h1, hT _ _ h2⟩

/-- What convergence says about a number. -/
theorem PyT.finite [TopologicalSpace β] {x : α → PyM (FP β)} {x0 : PyM (FP β)} (h : PyT F (FPT F) x x0) {v0 : β}
    (h0 : x0 = .ok (.num v0)) : Converges F x v0 := by
  obtain ⟨v, h1, h2⟩ := h _ h0
  obtain ⟨u, h3, h4⟩ := h2 _ rfl
  exact ⟨u, by filter_upwards [h1, h3] with a h1 h3; rw [h1, h3], h4⟩

/-! ## Operations of the interface -/

theorem FPT.ofR {x : α → FP ℝ} {x0 : FP ℝ} (h : FPT F x x0) : FPT F (fun a => (ofR (x a) : FP ℂ)) (ofR x0) :=
  h.map Complex.continuous_ofReal

theorem FPT.exp {x : α → FP ℂ} {x0 : FP ℂ} (h : FPT F x x0) : FPT F (fun a => CplxOps.exp (x a)) (CplxOps.exp x0) :=
  h.map Complex.continuous_exp

theorem FPT.cabs {x : α → FP ℂ} {x0 : FP ℂ} (h : FPT F x x0) : FPT F (fun a => (CplxOps.cabs (x a) : FP ℝ)) (CplxOps.cabs x0) :=
  h.map continuous_norm

theorem FPT.cpow (n : ℕ) {x : α → FP ℂ} {x0 : FP ℂ} (h : FPT F x x0) : FPT F (fun a => CplxOps.cpow (x a) n) (CplxOps.cpow x0 n) :=
  h.map (continuous_pow n)

theorem FPT.npow (n : ℕ) {x : α → FP ℝ} {x0 : FP ℝ} (h : FPT F x x0) : FPT F (fun a => RealOps.npow (x a) n) (RealOps.npow x0 n) :=
  h.map (continuous_pow n)

theorem FPT.log {x : α → FP ℝ} {x0 : FP ℝ} (h : FPT F x x0) : FPT F (fun a => RealOps.log (x a)) (RealOps.log x0) := h.rlog

theorem FPT.clip (lo hi : ℝ) {x : α → FP ℝ} {x0 : FP ℝ} (h : FPT F x x0) :
    FPT F (fun a => RealOps.clip lo hi (x a)) (RealOps.clip lo hi x0) :=
  h.map ((continuous_id.max continuous_const).min continuous_const)

theorem FPT.jpow (j : ℤ) {x : α → FP ℂ} {x0 : FP ℂ} (h : FPT F x x0) : FPT F (fun a => CplxOps.jpow (x a) j) (CplxOps.jpow x0 j) :=
  h.zpow j

/-- Convergence of the entries of a matrix. -/
def M4T (F : Filter α) (M : α → Mat2 (FP ℂ)) (M0 : Mat2 (FP ℂ)) : Prop :=
  FPT F (fun a => (M a).m00) M0.m00 ∧ FPT F (fun a => (M a).m01) M0.m01 ∧ FPT F (fun a => (M a).m10) M0.m10 ∧
    FPT F (fun a => (M a).m11) M0.m11

theorem M4T.congr {M N : α → Mat2 (FP ℂ)} {M0 : Mat2 (FP ℂ)} (h : M4T F M M0) (e : ∀ᶠ a in F, N a = M a) : M4T F N M0 :=
  ⟨h.1.congr (by filter_upwards [e] with a h; rw [h]), h.2.1.congr (by filter_upwards [e] with a h; rw [h]),
    h.2.2.1.congr (by filter_upwards [e] with a h; rw [h]), h.2.2.2.congr (by filter_upwards [e] with a h; rw [h])⟩

theorem M4T.matmul {M N : α → Mat2 (FP ℂ)} {M0 N0 : Mat2 (FP ℂ)} (h : M4T F M M0) (h' : M4T F N N0) :
    M4T F (fun a => (M a).matmul (N a)) (M0.matmul N0) :=
  ⟨(h.1.mul h'.1).add (h.2.1.mul h'.2.2.1), (h.1.mul h'.2.1).add (h.2.1.mul h'.2.2.2), (h.2.2.1.mul h'.1).add (h.2.2.2.mul h'.2.2.1),
    (h.2.2.1.mul h'.2.1).add (h.2.2.2.mul h'.2.2.2)⟩

theorem M4T.interface {x : α → FP ℂ} {x0 : FP ℂ} (h : FPT F x x0) : M4T F (fun a => Stack.interface (x a)) (Stack.interface x0) := by
  have c : ∀ z : ℂ, FPT F (fun _ => (clit z : FP ℂ)) (clit z) := fun z => FPT.const _
  exact ⟨((c 1).add ((c 1).mul h)).div (c 2), ((c 1).add ((c (-1)).mul h)).div (c 2), ((c 1).add ((c (-1)).mul h)).div (c 2),
    ((c 1).add ((c 1).mul h)).div (c 2)⟩

theorem M4T.propagation (u v : ℂ) {x : α → FP ℂ} {x0 : FP ℂ} (h : FPT F x x0) :
    M4T F (fun a => Stack.propagation u v (x a)) (Stack.propagation u v x0) := by
  have c : ∀ z : ℂ, FPT F (fun _ => (clit z : FP ℂ)) (clit z) := fun z => FPT.const _
  exact ⟨((c u).mul h).exp.mul (c 1), ((c v).mul h).exp.mul (c 0), ((c u).mul h).exp.mul (c 0), ((c v).mul h).exp.mul (c 1)⟩

theorem M4T.chain {M : α → Mat2 (FP ℂ)} {M0 : Mat2 (FP ℂ)} (h : M4T F M M0) {Ts Ps : α → List (Mat2 (FP ℂ))} {Ts0 Ps0 : List (Mat2 (FP ℂ))}
    (hT : LT F (M4T F) Ts Ts0) (hP : LT F (M4T F) Ps Ps0) :
    M4T F (fun a => Stack.chain (M a) ((Ts a).zip (Ps a))) (Stack.chain M0 (Ts0.zip Ps0)) := by
  have hz : LT F (fun (x : α → Mat2 (FP ℂ) × Mat2 (FP ℂ)) x0 => M4T F (fun a => (x a).1) x0.1 ∧ M4T F (fun a => (x a).2) x0.2)
      (fun a => (Ts a).zip (Ps a)) (Ts0.zip Ps0) :=
    LT.zipWith (f := fun _ => Prod.mk) (fun _ _ _ _ h1 h2 => ⟨h1, h2⟩) hT hP
  exact LT.foldl (U := M4T F) (f := fun M tp => (M.matmul tp.2).matmul tp.1) (fun _ _ _ _ hM ht => (hM.matmul ht.2).matmul ht.1)
    (fun _ _ _ h e => h.congr e) hz h

/-! ## Samples -/

/-- Convergence of the permittivities and thicknesses. -/
structure STends (F : Filter α) (s : α → Stack (FP ℝ) (FP ℂ)) (s0 : Stack (FP ℝ) (FP ℂ)) : Prop where
  eps : LT F (FPT F) (fun a => (s a).eps) s0.eps
  t : LT F (FPT F) (fun a => (s a).t) s0.t

variable {s : α → Stack (FP ℝ) (FP ℂ)} {s0 : Stack (FP ℝ) (FP ℂ)}

theorem STends.multilayer (h : STends F s s0) : ∀ᶠ a in F, (s a).multilayer = s0.multilayer := by
  filter_upwards [h.eps.length] with a ha
  simp [Stack.multilayer, Stack.nLayers, ha]

theorem PyT.ite {c : α → Prop} {c0 : Prop} [∀ a, Decidable (c a)] [Decidable c0] (hc : ∀ᶠ a in F, c a ↔ c0) {x y : α → PyM β}
    {x0 y0 : PyM β} (hx : PyT F T x x0) (hy : PyT F T y y0) :
    PyT F T (fun a => if c a then x a else y a) (if c0 then x0 else y0) := by
  by_cases h0 : c0
  · rw [if_pos h0]
    exact hx.congr (by filter_upwards [hc] with a ha; rw [if_pos (ha.2 h0)])
  · rw [if_neg h0]
    exact hy.congr (by filter_upwards [hc] with a ha; rw [if_neg fun h => h0 (ha.1 h)])

/-- `transfer_matrix_qs` after the matrices of the interfaces. -/
noncomputable def qsRest (s : Stack (FP ℝ) (FP ℂ)) (q : FP ℝ) : List (Mat2 (FP ℂ)) → PyM (Mat2 (FP ℂ))
  | [] => .error .indexError
  | T0 :: Ts =>
    if s.multilayer then
      .ok (Stack.chain T0 (Ts.zip ((s.t.map fun t => RealOps.clip (-maxExpArg) maxExpArg (q * t)).map
        fun p => Stack.propagation 1 (-1) (ofR p : FP ℂ))))
    else .ok ⟨T0.m00 * ofR (RealOps.onesLike q), T0.m01 * ofR (RealOps.onesLike q), T0.m10 * ofR (RealOps.onesLike q),
      T0.m11 * ofR (RealOps.onesLike q)⟩

theorem transferMatrixQs_rest (s : Stack (FP ℝ) (FP ℂ)) (q : FP ℝ) :
    s.transferMatrixQs q = qsRest s q ((List.zipWith (· / ·) s.eps.dropLast s.eps.tail).map Stack.interface) := by
  unfold Stack.transferMatrixQs
  dsimp only
  generalize hl : List.map Stack.interface (List.zipWith (· / ·) s.eps.dropLast s.eps.tail) = l
  cases l with
  | nil => simp only [qsRest]
  | cons T0 Ts => simp only [qsRest]

theorem STends.transferMatrixQs (h : STends F s s0) {q : α → FP ℝ} {q0 : FP ℝ} (hq : FPT F q q0) :
    PyT F (M4T F) (fun a => (s a).transferMatrixQs (q a)) (s0.transferMatrixQs q0) := by
  have hT : LT F (M4T F) (fun a => (List.zipWith (· / ·) (s a).eps.dropLast (s a).eps.tail).map Stack.interface)
      ((List.zipWith (· / ·) s0.eps.dropLast s0.eps.tail).map Stack.interface) :=
    LT.map (f := fun _ => Stack.interface) (fun _ _ h => M4T.interface h)
      (LT.zipWith (f := fun _ => (· / ·)) (fun _ _ _ _ h1 h2 => h1.div h2) h.eps.dropLast h.eps.tail)
  have hP : LT F (M4T F) (fun a => ((s a).t.map fun t => RealOps.clip (-maxExpArg) maxExpArg (q a * t)).map
      fun p => Stack.propagation 1 (-1) (ofR p : FP ℂ))
      ((s0.t.map fun t => RealOps.clip (-maxExpArg) maxExpArg (q0 * t)).map fun p => Stack.propagation 1 (-1) (ofR p : FP ℂ)) :=
    LT.map (f := fun _ p => Stack.propagation 1 (-1) (ofR p : FP ℂ)) (fun _ _ h => M4T.propagation 1 (-1) h.ofR)
      (LT.map (U := FPT F) (f := fun a t => RealOps.clip (-maxExpArg) maxExpArg (q a * t)) (fun _ _ h => (hq.mul h).clip _ _) h.t)
  have hm := h.multilayer
  simp only [transferMatrixQs_rest]
  revert hT
  generalize (List.zipWith (· / ·) s0.eps.dropLast s0.eps.tail).map Stack.interface = l0
  intro hT
  cases l0 with
  | nil => exact PyT.error
  | cons T0 Ts0 =>
    obtain ⟨T, Ts, e, h1, h2⟩ := hT
    have key : PyT F (M4T F) (fun a => qsRest (s a) (q a) (T a :: Ts a)) (qsRest s0 q0 (T0 :: Ts0)) := by
      refine PyT.ite (by filter_upwards [hm] with a ha; rw [ha]) (PyT.ok (h1.chain h2 hP)) (PyT.ok ?_)
      have one : FPT F (fun a => (ofR (RealOps.onesLike (q a)) : FP ℂ)) (ofR (RealOps.onesLike q0)) := FPT.const (ofR (FP.num 1))
      exact ⟨h1.1.mul one, h1.2.1.mul one, h1.2.2.1.mul one, h1.2.2.2.mul one⟩
    refine key.congr ?_
    filter_upwards [e] with a ha
    rw [ha]

theorem STends.reflCoefQs (h : STends F s s0) {q : α → FP ℝ} {q0 : FP ℝ} (hq : FPT F q q0) :
    PyT F (FPT F) (fun a => (s a).reflCoefQs (q a)) (s0.reflCoefQs q0) :=
  (h.transferMatrixQs hq).bind fun _ _ hM => PyT.ok (hM.2.2.1.div hM.1)

theorem STends.transCoefQs (h : STends F s s0) {q : α → FP ℝ} {q0 : FP ℝ} (hq : FPT F q q0) :
    PyT F (FPT F) (fun a => (s a).transCoefQs (q a)) (s0.transCoefQs q0) :=
  (h.transferMatrixQs hq).bind fun _ _ hM => PyT.ok ((FPT.const _).div hM.1)

theorem PyT.const (x : PyM β) (hT : ∀ b, T (fun _ => b) b) : PyT F T (fun _ => x) x := by
  intro w hw
  subst hw
  exact ⟨fun _ => w, Eventually.of_forall fun _ => rfl, hT w⟩

theorem PyT.quad0 (rule : List (ℝ × ℝ)) (p : α → List (FP ℝ ⊕ FP ℂ)) (p0 : List (FP ℝ ⊕ FP ℂ)) {body : α → FP ℝ → FP ℝ → PyM (FP ℂ)}
    {body0 : FP ℝ → FP ℝ → PyM (FP ℂ)} (h : ∀ x w : ℝ, PyT F (FPT F) (fun a => body a (.num x) (.num w)) (body0 (.num x) (.num w))) :
    PyT F (FPT F) (fun a => CplxOps.quad0 rule (p a) (body a)) (CplxOps.quad0 rule p0 body0) :=
  (PyT.mapM (T := FPT F) rule (f := fun a xw => body a (.num xw.1) (.num xw.2)) fun i _ => h i.1 i.2).bind fun _ _ hv => PyT.ok hv.sum

theorem PyT.trapz0 (grid : List ℝ) (p : α → List (FP ℝ ⊕ FP ℂ)) (p0 : List (FP ℝ ⊕ FP ℂ)) {body : α → FP ℝ → PyM (FP ℂ)}
    {body0 : FP ℝ → PyM (FP ℂ)} (h : ∀ x : ℝ, PyT F (FPT F) (fun a => body a (.num x)) (body0 (.num x))) :
    PyT F (FPT F) (fun a => CplxOps.trapz0 grid (p a) (body a)) (CplxOps.trapz0 grid p0 body0) :=
  (PyT.mapM (T := FPT F) grid (f := fun a x => body a (.num x)) fun i _ => h i).bind fun _ _ hv => PyT.ok hv.trapz

theorem PyT.series0 (n : ℕ) (p : α → List (FP ℝ ⊕ FP ℂ)) (p0 : List (FP ℝ ⊕ FP ℂ)) {body : α → ℤ → PyM (FP ℂ)}
    {body0 : ℤ → PyM (FP ℂ)} (h : ∀ j : ℕ, PyT F (FPT F) (fun a => body a j) (body0 j)) :
    PyT F (FPT F) (fun a => CplxOps.series0 n (p a) (body a)) (CplxOps.series0 n p0 body0) :=
  (PyT.mapM (T := FPT F) (List.range n) (f := fun a (j : ℕ) => body a j) fun i _ => h i).bind fun _ _ hv => PyT.ok hv.sum

theorem STends.reflCoefQsAboveSurf (h : STends F s s0) (env : Env) {z : α → FP ℝ} {z0 : FP ℝ} (hz : FPT F z z0) (nLag : Option ℕ) :
    PyT F (FPT F) (fun a => (s a).reflCoefQsAboveSurf env (z a) nLag) (s0.reflCoefQsAboveSurf env z0 nLag) := by
  refine (PyT.const (T := fun r r0 => r = fun _ => r0) (env.lagRule (nLag.getD env.defaults.nLag)) fun _ => rfl).bind fun r r0 hr => ?_
  subst hr
  refine (h.reflCoefQs hz).bind fun like like0 _ => ?_
  refine PyT.quad0 r0 (fun a => [.inr (like a)]) _ fun x w => ?_
  refine (h.reflCoefQs (q := fun a => FP.num x / (lit 2 * z a)) ((FPT.const _).div ((FPT.const _).mul hz))).bind fun b b0 hb => ?_
  exact PyT.ok ((FPT.const _).mul hb)

theorem STends.surfPotAndField (h : STends F s s0) (env : Env) {z : α → FP ℝ} {z0 : FP ℝ} (hz : FPT F z z0) (nLag : Option ℕ) :
    PyT F (fun x x0 => FPT F (fun a => (x a).1) x0.1 ∧ FPT F (fun a => (x a).2) x0.2) (fun a => (s a).surfPotAndField env (z a) nLag)
      (s0.surfPotAndField env z0 nLag) := by
  refine (PyT.const (T := fun r r0 => r = fun _ => r0) (env.lagRule (nLag.getD env.defaults.nLag)) fun _ => rfl).bind fun r r0 hr => ?_
  subst hr
  refine (h.reflCoefQs hz).bind fun like like0 _ => ?_
  have hq : ∀ x : ℝ, FPT F (fun a => FP.num x / (lit 2 * z a)) (FP.num x / (lit 2 * z0)) := fun x =>
    (FPT.const _).div ((FPT.const _).mul hz)
  refine (PyT.quad0 r0 (fun a => [.inr (like a)]) _ fun x w => ?_).bind fun phi phi0 hphi => ?_
  · exact (h.reflCoefQs (hq x)).bind fun b b0 hb => PyT.ok ((FPT.const _).mul hb)
  refine (PyT.quad0 r0 (fun a => [.inr (like a)]) _ fun x w => ?_).bind fun e e0 he => ?_
  · exact (h.reflCoefQs (hq x)).bind fun b b0 hb => PyT.ok ((FPT.const _).mul hb)
  exact PyT.ok ⟨hphi.div ((FPT.const _).mul hz).ofR, he.div ((FPT.const _).mul (hz.npow 2)).ofR⟩

theorem STends.imageDepthAndCharge (h : STends F s s0) (env : Env) {z : α → FP ℝ} {z0 : FP ℝ} (hz : FPT F z z0) (nLag : Option ℕ) :
    PyT F (fun x x0 => FPT F (fun a => (x a).1) x0.1 ∧ FPT F (fun a => (x a).2) x0.2) (fun a => (s a).imageDepthAndCharge env (z a) nLag)
      (s0.imageDepthAndCharge env z0 nLag) := by
  refine (h.surfPotAndField env hz nLag).bind fun v v0 hv => ?_
  exact PyT.ok ⟨(hv.1.div hv.2).cabs.sub hz, (hv.1.cpow 2).div hv.2⟩

/-! ## Lists of numbers -/

theorem LT.of_tendsto [TopologicalSpace β] {P : β → Prop} {l : α → List β} {l0 : List β} (h : Tendsto l F (𝓝 l0))
    (hP : ∀ᶠ a in F, ∀ b ∈ l a, P b) : LT F (fun x x0 => Tendsto x F (𝓝 x0) ∧ ∀ᶠ a in F, P (x a)) l l0 := by
  induction l0 generalizing l with
  | nil =>
    rw [nhds_nil] at h
    exact tendsto_pure.1 h
  | cons b l0 ih =>
    have h1 : Tendsto (fun l : List β => l.headD b) (𝓝 (b :: l0)) (𝓝 b) := List.tendsto_cons_iff.2 tendsto_fst
    have h2 : Tendsto (fun l : List β => l.tail) (𝓝 (b :: l0)) (𝓝 l0) := List.tendsto_cons_iff.2 tendsto_snd
    have h3 : ∀ᶠ l in 𝓝 (b :: l0), l = l.headD b :: l.tail := by
      have : Tendsto (fun l : List β => l) (𝓝 (b :: l0)) (𝓟 {l | l = l.headD b :: l.tail}) :=
        List.tendsto_cons_iff.2 (tendsto_principal.2 (Eventually.of_forall fun p => rfl))
      exact tendsto_principal.1 this
    have e := h.eventually h3
    refine ⟨fun a => (l a).headD b, fun a => (l a).tail, e, ⟨h1.comp h, ?_⟩, ih (h2.comp h) ?_⟩
    · filter_upwards [e, hP] with a ha hp
      exact hp _ (by rw [ha]; simp)
    · filter_upwards [hP] with a hp b hb
      exact hp b (List.mem_of_mem_tail hb)

theorem LT.mono {T' : (α → β) → β → Prop} {l : α → List β} {l0 : List β} (hT : ∀ x x0, T x x0 → T' x x0) (h : LT F T l l0) :
    LT F T' l l0 := by
  induction l0 generalizing l with
  | nil => exact h
  | cons b l0 ih =>
    obtain ⟨x, t, h1, h2, h3⟩ := h
    exact ⟨x, t, h1, hT _ _ h2, ih h3⟩

theorem LT.append {l m : α → List β} {l0 m0 : List β} (h : LT F T l l0) (h' : LT F T m m0) :
    LT F T (fun a => l a ++ m a) (l0 ++ m0) := by
  induction l0 generalizing l with
  | nil => exact h'.congr (by filter_upwards [h] with a h1; rw [h1]; rfl)
  | cons b l0 ih =>
    obtain ⟨x, t, h1, h2, h3⟩ := h
    exact ⟨x, fun a => t a ++ m a, by filter_upwards [h1] with a h1; rw [h1]; rfl, h2, ih h3⟩

/-- Permittivities that converge, and that absorb. -/
def PassT (F : Filter α) (x : α → FP ℂ) (x0 : FP ℂ) : Prop := FPT F x x0 ∧ ∀ᶠ a in F, ∀ v, x a = .num v → 0 ≤ v.im

theorem layered_lists (P : ℂ → Prop) {env sub : α → ℂ} {env0 sub0 : ℂ} {L : α → List (ℂ × ℝ)} {L0 : List (ℂ × ℝ)} {nu : α → Option ℝ}
    {nu0 : Option ℝ} (he : Tendsto env F (𝓝 env0)) (hL : Tendsto L F (𝓝 L0)) (hs : Tendsto sub F (𝓝 sub0))
    (hP : ∀ᶠ a in F, P (env a) ∧ (∀ l ∈ L a, P l.1) ∧ P (sub a)) :
    LT F (fun x x0 => FPT F x x0 ∧ ∀ᶠ a in F, ∀ v, x a = .num v → P v) (fun a => (layered (env a) (L a) (sub a) (nu a)).eps)
        (layered env0 L0 sub0 nu0).eps ∧
      LT F (FPT F) (fun a => (layered (env a) (L a) (sub a) (nu a)).t) (layered env0 L0 sub0 nu0).t := by
  have h := LT.of_tendsto (P := fun l : ℂ × ℝ => P l.1) hL (by filter_upwards [hP] with a ha; exact ha.2.1)
  constructor
  · refine ⟨fun a => .num (env a), _, Eventually.of_forall fun _ => rfl, ⟨FPT.num he, ?_⟩, ?_⟩
    · filter_upwards [hP] with a ha v hv
      rw [← FP.num.inj hv]
      exact ha.1
    · refine LT.append (m := fun a => [.num (sub a)]) (LT.map (f := fun _ l => FP.num l.1) (fun x x0 hx => ?_) h) ?_
      · refine ⟨FPT.num ((continuous_fst.tendsto x0).comp hx.1), ?_⟩
        filter_upwards [hx.2] with a ha v hv
        rw [← FP.num.inj hv]
        exact ha
      · refine ⟨fun a => .num (sub a), fun _ => [], Eventually.of_forall fun _ => rfl, ⟨FPT.num hs, ?_⟩, Eventually.of_forall fun _ => rfl⟩
        filter_upwards [hP] with a ha v hv
        rw [← FP.num.inj hv]
        exact ha.2.2
  · exact LT.map (f := fun _ l => FP.num l.2) (fun x x0 hx => FPT.num ((continuous_snd.tendsto x0).comp hx.1)) h

theorem STends.layered {env sub : α → ℂ} {env0 sub0 : ℂ} {L : α → List (ℂ × ℝ)} {L0 : List (ℂ × ℝ)} {nu : α → Option ℝ}
    {nu0 : Option ℝ} (he : Tendsto env F (𝓝 env0)) (hL : Tendsto L F (𝓝 L0)) (hs : Tendsto sub F (𝓝 sub0)) :
    STends F (fun a => layered (env a) (L a) (sub a) (nu a)) (layered env0 L0 sub0 nu0) := by
  obtain ⟨h1, h2⟩ := layered_lists (nu := nu) (nu0 := nu0) (fun _ => True) he hL hs (Eventually.of_forall fun _ => by simp)
  exact ⟨h1.mono fun _ _ h => h.1, h2⟩

/-! ## The square root -/

theorem csqrt_tendsto {v : α → ℂ} {v0 : ℂ} (h : Tendsto v F (𝓝 v0)) (hp : ∀ᶠ a in F, 0 ≤ (v a).im) :
    Tendsto (fun a => Complex.sqrt (v a)) F (𝓝 (Complex.sqrt v0)) := by
  have hw : Tendsto v F (𝓝[{z | 0 ≤ z.im}] v0) := tendsto_nhdsWithin_iff.2 ⟨h, hp⟩
  by_cases h0 : v0 = 0
  · subst h0
    have e : ∀ z : ℂ, ‖Complex.sqrt z‖ = Real.sqrt ‖z‖ := fun z => by
      have h2 : Complex.sqrt z ^ 2 = z := by unfold Complex.sqrt; simp
      rw [← h2, norm_pow, Real.sqrt_sq (norm_nonneg _), h2]
    have e0 : Complex.sqrt 0 = 0 := by
      rw [← norm_eq_zero, e]
      simp
    rw [e0, tendsto_zero_iff_norm_tendsto_zero]
    simp only [e]
    have := (Real.continuous_sqrt.tendsto _).comp h.norm
    simpa [Function.comp_def] using this
  · have hl : Tendsto (fun a => Complex.log (v a)) F (𝓝 (Complex.log v0)) := by
      by_cases hs : v0 ∈ Complex.slitPlane
      · exact (continuousAt_clog hs).tendsto.comp h
      · rw [Complex.mem_slitPlane_iff] at hs
        push Not at hs
        have hre : v0.re < 0 := lt_of_le_of_ne hs.1 fun h => h0 (Complex.ext h hs.2)
        exact (Complex.continuousWithinAt_log_of_re_neg_of_im_zero hre hs.2).tendsto.comp hw
    have e : ∀ z : ℂ, z ≠ 0 → Complex.sqrt z = Complex.exp (Complex.log z * (1 / 2)) := fun z hz => by
      unfold Complex.sqrt
      rw [Complex.cpow_def_of_ne_zero hz]
      norm_num
    rw [e v0 h0]
    refine ((Complex.continuous_exp.tendsto _).comp (hl.mul_const (1 / 2))).congr' ?_
    filter_upwards [h.eventually_ne h0] with a ha
    rw [e _ ha]
    rfl

/-! ## Optional arguments -/

theorem ArgTends.getD [TopologicalSpace β] {x : α → Option (FP β)} {x0 : Option (FP β)} (h : ArgTends F x x0) {d : α → FP β} {d0 : FP β}
    (hd : FPT F d d0) : FPT F (fun a => (x a).getD (d a)) (x0.getD d0) := by
  cases h with
  | omitted => exact hd
  | given h => exact FPT.num h

/-- Convergence of the tip of the finite dipole model. -/
structure FdmTipTends (F : Filter α) (p : α → FdmTip (FP ℝ) (FP ℂ)) (p0 : FdmTip (FP ℝ) (FP ℂ)) : Prop where
  rTip : FPT F (fun a => (p a).rTip) p0.rTip
  lTip : FPT F (fun a => (p a).lTip) p0.lTip
  gFactor : FPT F (fun a => (p a).gFactor) p0.gFactor
  dQ0 : FPT F (fun a => (p a).dQ0) p0.dQ0
  dQ1 : FPT F (fun a => (p a).dQ1) p0.dQ1
  dQa : FPT F (fun a => (p a).dQa) p0.dQa

theorem FdmArgsTend.fill {p : α → FdmArgs (FP ℝ) (FP ℂ)} {p0 : FdmArgs (FP ℝ) (FP ℂ)} (h : FdmArgsTend F p p0) (d : Defaults) :
    FdmTipTends F (fun a => d.fdm (p a)) (d.fdm p0) := by
  have c : ∀ {γ : Type} [TopologicalSpace γ] (z : FP γ), FPT F (fun _ => z) z := fun z => FPT.const z
  have hr := h.rTip.getD (c (lit d.rTip))
  have hl := h.lTip.getD (c (lit d.lTip))
  exact ⟨hr, hl, h.gFactor.getD (c _), h.dQ0.getD (((c _).mul hl).div (hl.add ((c _).mul hr))), h.dQ1.getD (c _), h.dQa.getD (c _)⟩

theorem PdmArgsTend.fill {p : α → PdmArgs (FP ℝ) (FP ℂ)} {p0 : PdmArgs (FP ℝ) (FP ℂ)} (h : PdmArgsTend F p p0) (d : Defaults) :
    PyT F (fun x x0 => FPT F (fun a => (x a).1) x0.1 ∧ FPT F (fun a => (x a).2) x0.2) (fun a => d.pdm (p a)) (d.pdm p0) := by
  have c : ∀ {γ : Type} [TopologicalSpace γ] (z : FP γ), FPT F (fun _ => z) z := fun z => FPT.const z
  have hr := h.rTip.getD (c (lit d.rTip))
  have vol : FPT F (fun a => (ofR (lit 4 * lit Real.pi * RealOps.npow ((p a).rTip.getD (lit d.rTip)) 3) : FP ℂ))
      (ofR (lit 4 * lit Real.pi * RealOps.npow (p0.rTip.getD (lit d.rTip)) 3)) := (((c _).mul (c _)).mul (hr.npow 3)).ofR
  obtain ⟨h1, h2, h3⟩ := h
  unfold Defaults.pdm
  revert h2 h3
  generalize he : (fun a => (p a).epsTip) = e
  generalize hal : (fun a => (p a).alphaTip) = al
  generalize p0.epsTip = e0
  generalize p0.alphaTip = al0
  have he' : ∀ a, (p a).epsTip = e a := fun a => by rw [← he]
  have hal' : ∀ a, (p a).alphaTip = al a := fun a => by rw [← hal]
  intro h2 h3
  simp only [he', hal']
  clear he hal he' hal'
  cases h2 with
  | omitted =>
    cases h3 with
    | omitted => exact PyT.ok ⟨hr, vol⟩
    | given h => exact PyT.ok ⟨hr, FPT.num h⟩
  | given g =>
    cases h3 with
    | omitted => exact PyT.ok ⟨hr, (vol.mul ((FPT.num g).sub (c _))).div ((FPT.num g).add (c _))⟩
    | given h => exact PyT.error

/-! ## Tips -/

theorem FPT.fdmGeom {z d r l : α → FP ℝ} {z0 d0 r0 l0 : FP ℝ} {g : α → FP ℂ} {g0 : FP ℂ} (hz : FPT F z z0) (hd : FPT F d d0)
    (hr : FPT F r r0) (hl : FPT F l l0) (hg : FPT F g g0) :
    FPT F (fun a => Fdm.geomFunc (z a) (d a) (r a) (l a) (g a)) (Fdm.geomFunc z0 d0 r0 l0 g0) := by
  have c : ∀ x : ℝ, FPT F (fun _ => (lit x : FP ℝ)) (lit x) := fun x => FPT.const _
  exact ((hg.sub (((hr.add ((c 2).mul hz)).add (hd.mul hr)).div ((c 2).mul hl)).ofR).mul
    (((c 4).mul hl).div ((hr.add ((c 4).mul hz)).add (((c 2).mul hd).mul hr))).log.ofR).div (((c 4).mul hl).div hr).log.ofR

theorem FPT.fdmGeomMulti {z d r l : α → FP ℝ} {z0 d0 r0 l0 : FP ℝ} {g : α → FP ℂ} {g0 : FP ℂ} (hz : FPT F z z0) (hd : FPT F d d0)
    (hr : FPT F r r0) (hl : FPT F l l0) (hg : FPT F g g0) :
    FPT F (fun a => Fdm.geomFuncMulti (z a) (d a) (r a) (l a) (g a)) (Fdm.geomFuncMulti z0 d0 r0 l0 g0) := by
  have c : ∀ x : ℝ, FPT F (fun _ => (lit x : FP ℝ)) (lit x) := fun x => FPT.const _
  exact ((hg.sub (((hr.add hz).add hd).div ((c 2).mul hl)).ofR).mul
    (((c 4).mul hl).div ((hr.add ((c 2).mul hz)).add ((c 2).mul hd))).log.ofR).div (((c 4).mul hl).div hr).log.ofR

theorem FPT.fdmFormula {b f b' f' : α → FP ℂ} {b0 f0 b0' f0' : FP ℂ} (hb : FPT F b b0) (hf : FPT F f f0) (hb' : FPT F b' b0')
    (hf' : FPT F f' f0') : FPT F (fun a => Fdm.effPolFormula (b a) (f a) (b' a) (f' a)) (Fdm.effPolFormula b0 f0 b0' f0') :=
  (FPT.const _).add ((hb.mul hf).div ((FPT.const _).mul ((FPT.const _).sub (hb'.mul hf'))))

theorem FPT.pdmGeom {z r : α → FP ℝ} {z0 r0 : FP ℝ} {g : α → FP ℂ} {g0 : FP ℂ} (hz : FPT F z z0) (hr : FPT F r r0) (hg : FPT F g g0) :
    FPT F (fun a => Pdm.geomFunc (z a) (r a) (g a)) (Pdm.geomFunc z0 r0 g0) :=
  hg.div (((FPT.const _).mul (FPT.const _)).mul ((hr.add hz).npow 3)).ofR

theorem PyT.demod (env : Env) {f : α → FP ℝ → PyM (FP ℂ)} {f0 : FP ℝ → PyM (FP ℂ)}
    (hf : ∀ x x0, FPT F x x0 → PyT F (FPT F) (fun a => f a (x a)) (f0 x0)) {x amp n : α → FP ℝ} {x0 amp0 n0 : FP ℝ} (hx : FPT F x x0)
    (ha : FPT F amp amp0) (hn : FPT F n n0) (nT : Option ℕ) :
    PyT F (FPT F) (fun a => demod env (f a) (x a) (amp a) (n a) nT) (demod env f0 x0 amp0 n0 nT) := by
  refine (hf _ _ (hx.add ((FPT.const (lit 0)).mul ha))).bind fun p p0 _ => ?_
  refine (PyT.trapz0 _ (fun a => [.inr (p a), .inl (n a)]) _ fun θ => ?_).bind fun v v0 hv => PyT.ok (hv.div (FPT.const _))
  exact (hf _ _ (hx.add ((FPT.const (RealOps.cos (FP.num θ))).mul ha))).bind fun v v0 hv =>
    PyT.ok (hv.mul (((FPT.const _).mul hn.ofR).mul (FPT.const _)).exp)

theorem STends.fdm (h : STends F s s0) (env : Env) {z : α → Option (FP ℝ)} {z0 : Option (FP ℝ)}
    (hz : FPT F (fun a => (z a).getD (lit env.defaults.zTip)) (z0.getD (lit env.defaults.zTip))) {p : α → FdmArgs (FP ℝ) (FP ℂ)}
    {p0 : FdmArgs (FP ℝ) (FP ℂ)} (hp : FdmArgsTend F p p0) (nLag : Option ℕ) (m : Option String) :
    PyT F (FPT F) (fun a => Fdm.effPol env (s a) (z a) (p a) nLag m) (Fdm.effPol env s0 z0 p0 nLag m) := by
  have ht := hp.fill env.defaults
  have hm := h.multilayer
  have g0 := hz.fdmGeom ht.dQ0 ht.rTip ht.lTip ht.gFactor
  have g1 := hz.fdmGeom ht.dQ1 ht.rTip ht.lTip ht.gFactor
  unfold Fdm.effPol
  dsimp only
  have me : ∀ᶠ a in F, (m.getD (if (s a).multilayer then "multi" else "bulk")) = m.getD (if s0.multilayer then "multi" else "bulk") := by
    filter_upwards [hm] with a ha
    rw [ha]
  refine PyT.ite (by filter_upwards [me] with a ha; rw [ha]) ?_ (PyT.ite (by filter_upwards [me] with a ha; rw [ha]) ?_
    (PyT.ite (by filter_upwards [me] with a ha; rw [ha]) ?_ PyT.error))
  · refine PyT.ite (by filter_upwards [hm] with a ha; rw [ha]) PyT.error ?_
    exact (h.reflCoefQs (FPT.const _)).bind fun b b0 hb => PyT.ok (hb.fdmFormula g0 hb g1)
  · refine (h.imageDepthAndCharge env (hz.add (ht.rTip.mul ht.dQ0)) nLag).bind fun v v0 hv => ?_
    refine (h.imageDepthAndCharge env (hz.add (ht.rTip.mul ht.dQ1)) nLag).bind fun u u0 hu => ?_
    exact PyT.ok (hv.2.fdmFormula (hz.fdmGeomMulti hv.1 ht.rTip ht.lTip ht.gFactor) hu.2
      (hz.fdmGeomMulti hu.1 ht.rTip ht.lTip ht.gFactor))
  · exact (h.reflCoefQsAboveSurf env (hz.add (ht.rTip.mul ht.dQa)) nLag).bind fun b b0 hb => PyT.ok (hb.fdmFormula g0 hb g1)

theorem STends.fdm_n (h : STends F s s0) (env : Env) {A n : α → FP ℝ} {A0 n0 : FP ℝ} (hA : FPT F A A0) (hn : FPT F n n0)
    {z : α → Option (FP ℝ)} {z0 : Option (FP ℝ)} (hz : ArgTends F z z0) {p : α → FdmArgs (FP ℝ) (FP ℂ)}
    {p0 : FdmArgs (FP ℝ) (FP ℂ)} (hp : FdmArgsTend F p p0) (nT nLag : Option ℕ) (m : Option String) :
    PyT F (FPT F) (fun a => Fdm.effPolN env (s a) (A a) (n a) (z a) nT (p a) nLag m) (Fdm.effPolN env s0 A0 n0 z0 nT p0 nLag m) :=
  PyT.demod env (f := fun a x => Fdm.effPol env (s a) (some x) (p a) nLag m) (f0 := fun x => Fdm.effPol env s0 (some x) p0 nLag m)
    (fun x x0 hx => h.fdm env (z := fun a => some (x a)) (z0 := some x0) hx hp nLag m) ((hz.getD (FPT.const _)).add hA) hA hn nT

theorem STends.fdm_taylor (h : STends F s s0) (env : Env) {A : α → FP ℝ} {A0 : FP ℝ} (hA : FPT F A A0) (n : FP ℝ)
    {z : α → Option (FP ℝ)} {z0 : Option (FP ℝ)} (hz : ArgTends F z z0) {p : α → FdmArgs (FP ℝ) (FP ℂ)}
    {p0 : FdmArgs (FP ℝ) (FP ℂ)} (hp : FdmArgsTend F p p0) (nLag : Option ℕ) (m : Option String) (nT nTayl : Option ℕ) :
    PyT F (FPT F) (fun a => Fdm.effPolNTaylor env (s a) (A a) n (z a) (p a) nLag m nT nTayl)
      (Fdm.effPolNTaylor env s0 A0 n z0 p0 nLag m nT nTayl) := by
  have ht := hp.fill env.defaults
  have hm := h.multilayer
  have hz' := hz.getD (FPT.const (lit env.defaults.zTip))
  have hbeta : PyT F (FPT F) (fun a => Fdm.taylorBeta env (s a) ((z a).getD (lit env.defaults.zTip)) (env.defaults.fdm (p a)) nLag m)
      (Fdm.taylorBeta env s0 (z0.getD (lit env.defaults.zTip)) (env.defaults.fdm p0) nLag m) := by
    unfold Fdm.taylorBeta
    dsimp only
    have me : ∀ᶠ a in F, (m.getD (if (s a).multilayer then "Q_ave" else "bulk")) = m.getD (if s0.multilayer then "Q_ave" else "bulk") := by
      filter_upwards [hm] with a ha
      rw [ha]
    refine PyT.ite (by filter_upwards [me] with a ha; rw [ha]) ?_ (PyT.ite (by filter_upwards [me] with a ha; rw [ha]) ?_ PyT.error)
    · refine PyT.ite (by filter_upwards [hm] with a ha; rw [ha]) PyT.error ?_
      exact h.reflCoefQs (FPT.const _)
    · exact h.reflCoefQsAboveSurf env (hz'.add (ht.rTip.mul ht.dQa)) nLag
  refine hbeta.bind fun b b0 hb => ?_
  refine PyT.series0 _ _ _ fun j => ?_
  refine PyT.bind (T := FPT F) ?_ fun v v0 hv => PyT.ok (hv.mul (hb.jpow j))
  refine (PyT.demod env (fun x x0 hx => PyT.ok ?_) (hz'.add hA) hA (FPT.const n) nT).bind fun v v0 hv => PyT.ok ?_
  · exact (hx.fdmGeom ht.dQ0 ht.rTip ht.lTip ht.gFactor).mul ((hx.fdmGeom ht.dQ1 ht.rTip ht.lTip ht.gFactor).jpow _)
  · by_cases hj : (j : ℤ) = 0
    · simp only [CplxOps.whereJ, if_pos hj]
      exact FPT.const _
    · simp only [CplxOps.whereJ, if_neg hj]
      exact hv.div (FPT.const _)

theorem FPT.fdm_inverse (env : Env) {x : α → FP ℂ} {x0 : FP ℂ} (hx : FPT F x x0) {z : α → Option (FP ℝ)} {z0 : Option (FP ℝ)}
    (hz : ArgTends F z z0) {p : α → FdmArgs (FP ℝ) (FP ℂ)} {p0 : FdmArgs (FP ℝ) (FP ℂ)} (hp : FdmArgsTend F p p0) :
    FPT F (fun a => Fdm.reflCoefQsFromEffPol env (x a) (z a) (p a)) (Fdm.reflCoefQsFromEffPol env x0 z0 p0) := by
  have ht := hp.fill env.defaults
  have hz' := hz.getD (FPT.const (lit env.defaults.zTip))
  have g0 := hz'.fdmGeom ht.dQ0 ht.rTip ht.lTip ht.gFactor
  have g1 := hz'.fdmGeom ht.dQ1 ht.rTip ht.lTip ht.gFactor
  have c : ∀ x : ℂ, FPT F (fun _ => (clit x : FP ℂ)) (clit x) := fun x => FPT.const _
  exact ((c 2).mul (hx.sub (c 1))).div (g0.add (((c 2).mul g1).mul (hx.sub (c 1))))

theorem STends.pdm (h : STends F s s0) (env : Env) {z : α → Option (FP ℝ)} {z0 : Option (FP ℝ)}
    (hz : FPT F (fun a => (z a).getD (lit env.defaults.zTip)) (z0.getD (lit env.defaults.zTip))) {p : α → PdmArgs (FP ℝ) (FP ℂ)}
    {p0 : PdmArgs (FP ℝ) (FP ℂ)} (hp : PdmArgsTend F p p0) :
    PyT F (FPT F) (fun a => Pdm.effPol env (s a) (z a) (p a)) (Pdm.effPol env s0 z0 p0) := by
  refine (hp.fill env.defaults).bind fun v v0 hv => (h.reflCoefQs (FPT.const _)).bind fun b b0 hb => PyT.ok ?_
  exact hv.2.div ((FPT.const _).sub ((hz.pdmGeom hv.1 hv.2).mul hb))

theorem STends.pdm_n (h : STends F s s0) (env : Env) {A n : α → FP ℝ} {A0 n0 : FP ℝ} (hA : FPT F A A0) (hn : FPT F n n0)
    {z : α → Option (FP ℝ)} {z0 : Option (FP ℝ)} (hz : ArgTends F z z0) {p : α → PdmArgs (FP ℝ) (FP ℂ)}
    {p0 : PdmArgs (FP ℝ) (FP ℂ)} (hp : PdmArgsTend F p p0) (nT : Option ℕ) :
    PyT F (FPT F) (fun a => Pdm.effPolN env (s a) (A a) (n a) (z a) nT (p a)) (Pdm.effPolN env s0 A0 n0 z0 nT p0) :=
  PyT.demod env (f := fun a x => Pdm.effPol env (s a) (some x) (p a)) (f0 := fun x => Pdm.effPol env s0 (some x) p0)
    (fun x x0 hx => h.pdm env (z := fun a => some (x a)) (z0 := some x0) hx hp) ((hz.getD (FPT.const _)).add hA) hA hn nT

theorem STends.pdm_taylor (h : STends F s s0) (env : Env) {A n : α → FP ℝ} {A0 n0 : FP ℝ} (hA : FPT F A A0) (hn : FPT F n n0)
    {z : α → Option (FP ℝ)} {z0 : Option (FP ℝ)} (hz : ArgTends F z z0) {p : α → PdmArgs (FP ℝ) (FP ℂ)}
    {p0 : PdmArgs (FP ℝ) (FP ℂ)} (hp : PdmArgsTend F p p0) (nT nTayl : Option ℕ) :
    PyT F (FPT F) (fun a => Pdm.effPolNTaylor env (s a) (A a) (n a) (z a) (p a) nT nTayl)
      (Pdm.effPolNTaylor env s0 A0 n0 z0 p0 nT nTayl) := by
  have hz' := hz.getD (FPT.const (lit env.defaults.zTip))
  refine (hp.fill env.defaults).bind fun v v0 hv => (h.reflCoefQs (FPT.const _)).bind fun b b0 hb => ?_
  refine PyT.series0 _ _ _ fun j => ?_
  refine PyT.bind (T := FPT F) ?_ fun u u0 hu => PyT.ok (hu.mul (hb.jpow j))
  exact PyT.demod env (f := fun a z => pure (CplxOps.jpow (Pdm.geomFunc z (v a).1 (v a).2) (j : ℤ)))
    (f0 := fun z => pure (CplxOps.jpow (Pdm.geomFunc z v0.1 v0.2) (j : ℤ))) (fun x x0 hx => PyT.ok ((hx.pdmGeom hv.1 hv.2).jpow _)) (hz'.add hA) hA hn nT

theorem PyT.pdm_inverse (env : Env) {x : α → FP ℂ} {x0 : FP ℂ} (hx : FPT F x x0) {z : α → Option (FP ℝ)} {z0 : Option (FP ℝ)}
    (hz : ArgTends F z z0) {p : α → PdmArgs (FP ℝ) (FP ℂ)} {p0 : PdmArgs (FP ℝ) (FP ℂ)} (hp : PdmArgsTend F p p0) :
    PyT F (FPT F) (fun a => Pdm.reflCoefQsFromEffPol env (x a) (z a) (p a)) (Pdm.reflCoefQsFromEffPol env x0 z0 p0) := by
  have hz' := hz.getD (FPT.const (lit env.defaults.zTip))
  refine (hp.fill env.defaults).bind fun v v0 hv => PyT.ok ?_
  exact (hx.sub hv.2).div ((hz'.pdmGeom hv.1 hv.2).mul hx)

/-! ## Light -/

theorem FPT.sin {x : α → FP ℝ} {x0 : FP ℝ} (h : FPT F x x0) : FPT F (fun a => RealOps.sin (x a)) (RealOps.sin x0) :=
  h.map Real.continuous_sin

theorem FPT.abs {x : α → FP ℝ} {x0 : FP ℝ} (h : FPT F x x0) : FPT F (fun a => RealOps.abs (x a)) (RealOps.abs x0) :=
  h.map continuous_abs

theorem PassT.nuz {e : α → FP ℂ} {e0 : FP ℂ} (he : PassT F e e0) {nu q : α → FP ℝ} {nu0 q0 : FP ℝ} (hn : FPT F nu nu0) (hq : FPT F q q0) :
    FPT F (fun a => CplxOps.sqrt (e a * ofR (RealOps.npow (nu a) 2) - ofR (RealOps.npow (q a) 2)))
      (CplxOps.sqrt (e0 * ofR (RealOps.npow nu0 2) - ofR (RealOps.npow q0 2))) := by
  have hw := (he.1.mul (hn.npow 2).ofR).sub (hq.npow 2).ofR
  have key : ∀ᶠ a in F, ∀ v, e a * ofR (RealOps.npow (nu a) 2) - ofR (RealOps.npow (q a) 2) = FP.num v → 0 ≤ v.im := by
    filter_upwards [he.2] with a ha v hv
    generalize e a = x at ha hv
    generalize nu a = y at hv
    generalize q a = z at hv
    cases x with
    | nan => rw [FP.nan_mul, FP.nan_sub] at hv; cases hv
    | num x =>
      cases y with
      | nan => rw [show (ofR (RealOps.npow (FP.nan : FP ℝ) 2) : FP ℂ) = FP.nan from rfl, FP.mul_nan, FP.nan_sub] at hv; cases hv
      | num y =>
        cases z with
        | nan => rw [show (ofR (RealOps.npow (FP.nan : FP ℝ) 2) : FP ℂ) = FP.nan from rfl, FP.sub_nan] at hv; cases hv
        | num z =>
          obtain rfl : x * ((y ^ 2 : ℝ) : ℂ) - ((z ^ 2 : ℝ) : ℂ) = v := FP.num.inj hv
          rw [Complex.sub_im, Complex.ofReal_im, sub_zero, Complex.mul_im, Complex.ofReal_re, Complex.ofReal_im, mul_zero, zero_add]
          exact mul_nonneg (ha x rfl) (sq_nonneg y)
  generalize e0 * ofR (RealOps.npow nu0 2) - ofR (RealOps.npow q0 2) = x0 at hw
  intro w hw'
  cases x0 with
  | nan => cases hw'
  | num v0 =>
    obtain rfl := FP.num.inj hw'
    obtain ⟨v, h1, h2⟩ := hw v0 rfl
    refine ⟨fun a => Complex.sqrt (v a), by filter_upwards [h1] with a ha; rw [ha]; rfl, csqrt_tendsto h2 ?_⟩
    filter_upwards [h1, key] with a ha hk
    exact hk _ ha

/-- `transfer_matrix` after the matrices of the interfaces. -/
noncomputable def farRest (s : Stack (FP ℝ) (FP ℂ)) (nuz : List (FP ℂ)) : List (Mat2 (FP ℂ)) → PyM (Mat2 (FP ℂ))
  | [] => .error (.valueError "need at least one array to stack")
  | T0 :: Ts =>
    if s.multilayer then
      .ok (Stack.chain T0 (Ts.zip ((List.zipWith (fun nz t => nz * ofR t) (nuz.dropLast.tail) s.t).map
        fun p => Stack.propagation (-Complex.I) Complex.I p)))
    else .ok T0

theorem farMatrix_rest (s : Stack (FP ℝ) (FP ℂ)) (tf nuz : List (FP ℂ)) : s.farMatrix tf nuz = farRest s nuz (tf.map Stack.interface) := by
  unfold Stack.farMatrix
  generalize List.map Stack.interface tf = l
  cases l with
  | nil => simp only [farRest]
  | cons T0 Ts => simp only [farRest]

theorem PassT.transferMatrix (he : LT F (PassT F) (fun a => (s a).eps) s0.eps) (ht : LT F (FPT F) (fun a => (s a).t) s0.t)
    (hs : ArgTends F (fun a => (s a).nuVac) s0.nuVac) {q θ nu : α → Option (FP ℝ)} {q0 θ0 nu0 : Option (FP ℝ)} (hq : ArgTends F q q0)
    (hθ : ArgTends F θ θ0) (hnu : ArgTends F nu nu0) (pol : String) :
    PyT F (M4T F) (fun a => (s a).transferMatrix ⟨q a, θ a, nu a, pol⟩) (s0.transferMatrix ⟨q0, θ0, nu0, pol⟩) := by
  have h : STends F s s0 := ⟨he.mono fun _ _ h => h.1, ht⟩
  have hm := h.multilayer
  have h1 : PyT F (FPT F) (fun a => (s a).resolveNu (nu a)) (s0.resolveNu nu0) := by
    unfold Stack.resolveNu
    cases hnu with
    | given h => exact PyT.ok (FPT.num h)
    | omitted =>
      revert hs
      generalize hx : (fun a => (s a).nuVac) = x
      generalize s0.nuVac = x0
      have hx' : ∀ a, (s a).nuVac = x a := fun a => by rw [← hx]
      intro hs
      simp only [hx']
      clear hx hx'
      cases hs with
      | given h => exact PyT.ok (FPT.num h)
      | omitted => exact PyT.ite (by filter_upwards [hm] with a ha; rw [ha]) PyT.error (PyT.ok (FPT.const _))
  refine h1.bind fun n n0 hn => ?_
  have h2 : PyT F (FPT F) (fun a => Stack.resolveQ (n a) (q a) (θ a)) (Stack.resolveQ n0 q0 θ0) := by
    unfold Stack.resolveQ
    cases hθ with
    | omitted =>
      cases hq with
      | omitted => exact PyT.ok (FPT.const _)
      | given h => exact PyT.ok (FPT.num h)
    | given g =>
      cases hq with
      | omitted => exact PyT.ok (hn.mul (FPT.num g).abs.sin)
      | given h => exact PyT.error
  refine h2.bind fun k k0 hk => ?_
  have hz : LT F (FPT F) (fun a => (s a).nuZ (n a) (k a)) (s0.nuZ n0 k0) :=
    LT.map (f := fun a e => CplxOps.sqrt (e * ofR (RealOps.npow (n a) 2) - ofR (RealOps.npow (k a) 2))) (fun _ _ h => h.nuz hn hk) he
  have hl : LT F (fun (x : α → FP ℂ × FP ℂ) x0 => FPT F (fun a => (x a).1) x0.1 ∧ FPT F (fun a => (x a).2) x0.2)
      (fun a => (s a).eps.zip ((s a).nuZ (n a) (k a))) (s0.eps.zip (s0.nuZ n0 k0)) :=
    LT.zipWith (f := fun _ => Prod.mk) (fun _ _ _ _ h1 h2 => ⟨h1, h2⟩) h.eps hz
  have h3 : PyT F (LT F (FPT F)) (fun a => Stack.farTransFactor ((s a).eps.zip ((s a).nuZ (n a) (k a))) pol)
      (Stack.farTransFactor (s0.eps.zip (s0.nuZ n0 k0)) pol) := by
    unfold Stack.farTransFactor
    refine PyT.ite (Eventually.of_forall fun _ => Iff.rfl) (PyT.ok ?_) (PyT.ite (Eventually.of_forall fun _ => Iff.rfl) (PyT.ok ?_) PyT.error)
    · exact LT.zipWith (f := fun _ a b => a.1 * b.2 / (b.1 * a.2)) (fun _ _ _ _ h1 h2 => (h1.1.mul h2.2).div (h2.1.mul h1.2)) hl.dropLast hl.tail
    · exact LT.zipWith (f := fun _ a b => b.2 / a.2) (fun _ _ _ _ h1 h2 => h2.2.div h1.2) hl.dropLast hl.tail
  refine h3.bind fun tf tf0 htf => ?_
  have hT := LT.map (f := fun _ => Stack.interface) (U := M4T F) (fun _ _ h => M4T.interface h) htf
  have hP : LT F (M4T F) (fun a => (List.zipWith (fun nz t => nz * ofR t) (((s a).nuZ (n a) (k a)).dropLast.tail) (s a).t).map
        fun p => Stack.propagation (-Complex.I) Complex.I p)
      ((List.zipWith (fun nz t => nz * ofR t) ((s0.nuZ n0 k0).dropLast.tail) s0.t).map fun p => Stack.propagation (-Complex.I) Complex.I p) :=
    LT.map (f := fun _ p => Stack.propagation (-Complex.I) Complex.I p) (fun _ _ h => M4T.propagation _ _ h)
      (LT.zipWith (V := FPT F) (f := fun _ nz t => nz * ofR t) (fun _ _ _ _ h1 h2 => h1.mul h2.ofR) hz.dropLast.tail ht)
  simp only [farMatrix_rest]
  revert hT
  generalize tf0.map Stack.interface = l0
  intro hT
  cases l0 with
  | nil => exact PyT.error
  | cons T0 Ts0 =>
    obtain ⟨T, Ts, e, g1, g2⟩ := hT
    have key : PyT F (M4T F) (fun a => farRest (s a) ((s a).nuZ (n a) (k a)) (T a :: Ts a)) (farRest s0 (s0.nuZ n0 k0) (T0 :: Ts0)) :=
      PyT.ite (by filter_upwards [hm] with a ha; rw [ha]) (PyT.ok (g1.chain g2 hP)) (PyT.ok g1)
    refine key.congr ?_
    filter_upwards [e] with a ha
    rw [ha]

end Snompy
