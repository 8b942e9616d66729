import Verif.Lemmas.DoubleNan
import Verif.Lemmas.DoubleFdm
import Verif.Lemmas.Quad
import Verif.Lemmas.LaguerreNodes
import Verif.Spec.Average

/-!
# Averages over momenta in double precision
-/

namespace Snompy

variable {L : Libm}

seal uro eta maxDouble

/-- Sums of doubles that stay below 3. -/
theorem F64.foldl_err {α : Type} (v : α → ℝ) : ∀ (l : List α) (s : ℝ), |s| + (l.map fun a => |v a|).sum + l.length * (4 * uro) ≤ 3 →
    ∃ y, (l.map fun a => (F64.fin (v a) : F64 L)).foldl (· + ·) (.fin s) = .fin y ∧
      |y - (s + (l.map v).sum)| ≤ l.length * (4 * uro) := by
  have hu := uro_pos
  have he := eta_lt
  have hmax := pow_le_max (n := 3) (by norm_num)
  intro l
  induction l with
  | nil => exact fun s _ => ⟨s, rfl, by simp⟩
  | cons a l ih =>
    intro s hs
    simp only [List.map_cons, List.sum_cons, List.length_cons, Nat.cast_add, Nat.cast_one, List.foldl_cons] at hs ⊢
    have hsum : 0 ≤ (l.map fun a => |v a|).sum := List.sum_nonneg (by simp)
    have hlen : 0 ≤ (l.length : ℝ) * (4 * uro) := by positivity
    have h3 : |s + v a| ≤ 3 := (abs_add_le _ _).trans (by linarith)
    obtain ⟨e1, e2, -⟩ := F64.fl (L := L) h3 (by linarith [uro_lt])
    rw [F64.fin_add, e1]
    have e3 : |rnd (s + v a) - (s + v a)| ≤ 4 * uro := by linarith
    have e4 : |rnd (s + v a)| ≤ |s| + |v a| + 4 * uro := by
      have h1 := abs_sub_abs_le_abs_sub (rnd (s + v a)) (s + v a)
      have h2 := abs_add_le s (v a)
      linarith
    obtain ⟨y, h1, h2⟩ := ih (rnd (s + v a)) (by linarith)
    refine ⟨y, h1, ?_⟩
    have : y - (s + (v a + (l.map v).sum)) = (y - (rnd (s + v a) + (l.map v).sum)) + (rnd (s + v a) - (s + v a)) := by ring
    rw [this]
    refine (abs_add_le _ _).trans ?_
    linarith

/-- Complex sums are sums of the parts. -/
theorem C128.foldl_parts {α : Type} (v : α → ℂ) : ∀ (l : List α) (s : C128 L),
    (l.map fun a => C128.mk' L (v a)).foldl (· + ·) s =
      ⟨(l.map fun a => (F64.fin (v a).re : F64 L)).foldl (· + ·) s.re, (l.map fun a => (F64.fin (v a).im : F64 L)).foldl (· + ·) s.im⟩ := by
  intro l
  induction l with
  | nil => exact fun s => rfl
  | cons a l ih => exact fun s => ih _

/-- Rounded numbers are not rounded again. -/
theorem rnd_ofReal {x : ℝ} (h : (F64.ofReal x : F64 L) = .fin (rnd x)) : (F64.ofReal (rnd x) : F64 L) = .fin (rnd x) := by
  refine F64.ofReal_rep (rep_rnd x) ?_
  unfold F64.ofReal at h
  by_contra hc
  rw [if_neg hc] at h
  unfold F64.infOf at h
  split_ifs at h

/-- A weight times a value. -/
theorem term_err {a c b b' δ : ℝ} (hc0 : 0 ≤ c) (hc1 : c ≤ 1) (ha : |a - c| ≤ 5 * uro * c + uro / 10 ^ 6) (hb : |b| ≤ 1) (hb' : |b' - b| ≤ δ)
    (hδ : δ ≤ 1 / 10) :
    (F64.ofReal (a * b') : F64 L) = .fin (rnd (a * b')) ∧ |rnd (a * b') - c * b| ≤ c * (δ + 10 * uro) + uro / 10 ^ 5 := by
  have hu := uro_pos
  have hu' := uro_lt
  have he := eta_lt
  have hmax := pow_le_max (n := 3) (by norm_num)
  have h1 : |b'| ≤ 11 / 10 := by
    have := abs_sub_abs_le_abs_sub b' b
    linarith
  have huc : uro * c ≤ uro := by nlinarith
  have h2 : |a| ≤ c + 5 * uro * c + uro / 10 ^ 6 := by
    have := abs_sub_abs_le_abs_sub a c
    rw [abs_of_nonneg hc0] at this
    linarith
  have h3 : |a * b'| ≤ (c + 5 * uro * c + uro / 10 ^ 6) * (11 / 10) := by
    rw [abs_mul]
    exact mul_le_mul h2 h1 (abs_nonneg _) (by positivity)
  have h4 : |a * b'| ≤ 2 := by linarith
  refine ⟨(F64.fl (L := L) h4 (by linarith)).1, ?_⟩
  have h5 := rnd_err (a * b')
  have h6 : uro * |a * b'| ≤ uro * ((c + 5 * uro * c + uro / 10 ^ 6) * (11 / 10)) := mul_le_mul_of_nonneg_left h3 hu.le
  have h7 : uro * uro ≤ uro / 10 ^ 15 := by nlinarith
  have h8 : uro * uro * c ≤ uro / 10 ^ 15 * c := mul_le_mul_of_nonneg_right h7 hc0
  have h9 : |(a - c) * b'| ≤ (5 * uro * c + uro / 10 ^ 6) * (11 / 10) := by
    rw [abs_mul]
    exact mul_le_mul ha h1 (abs_nonneg _) (by positivity)
  have h10 : |c * (b' - b)| ≤ c * δ := by
    rw [abs_mul, abs_of_nonneg hc0]
    exact mul_le_mul_of_nonneg_left hb' hc0
  have h11 : rnd (a * b') - c * b = (rnd (a * b') - a * b') + ((a - c) * b' + c * (b' - b)) := by ring
  rw [h11]
  refine (abs_add_le _ _).trans ((add_le_add_right (abs_add_le _ _) _).trans ?_)
  nlinarith

/-- A weighted average: every weight is accurate, every value has the error `δ`. -/
theorem average_err {α : Type} (l : List α) (a c b b' : α → ℝ) {δ : ℝ} (hc0 : ∀ i ∈ l, 0 ≤ c i) (hsum : (l.map c).sum = 1)
    (ha : ∀ i ∈ l, |a i - c i| ≤ 5 * uro * c i + uro / 10 ^ 6) (hb : ∀ i ∈ l, |b i| ≤ 1) (hb' : ∀ i ∈ l, |b' i - b i| ≤ δ)
    (hδ : δ ≤ 1 / 10) (hlen : (l.length : ℝ) ≤ 10 ^ 6) :
    (∀ i ∈ l, (F64.ofReal (a i * b' i) : F64 L) = .fin (rnd (a i * b' i))) ∧
    ∃ y, F64.sum (l.map fun i => (F64.fin (rnd (a i * b' i)) : F64 L)) = .fin y ∧
      |y - (l.map fun i => c i * b i).sum| ≤ δ + 10 * uro + l.length * (5 * uro) := by
  have hu := uro_pos
  have hu' := uro_lt
  have hc1 : ∀ i ∈ l, c i ≤ 1 := fun i hi => by
    rw [← hsum]
    exact List.single_le_sum (fun x hx => by
      obtain ⟨j, hj, rfl⟩ := List.mem_map.1 hx
      exact hc0 j hj) _ (List.mem_map_of_mem hi)
  have key := fun i hi => term_err (L := L) (hc0 i hi) (hc1 i hi) (ha i hi) (hb i hi) (hb' i hi) hδ
  refine ⟨fun i hi => (key i hi).1, ?_⟩
  have hcs : (l.map fun i => c i * (δ + 10 * uro) + uro / 10 ^ 5).sum = δ + 10 * uro + l.length * (uro / 10 ^ 5) := by
    rw [List.sum_map_add, List.sum_map_mul_right, hsum, one_mul]
    simp
  have habs : (l.map fun i => |rnd (a i * b' i)|).sum ≤ 1 + (δ + 10 * uro + l.length * (uro / 10 ^ 5)) := by
    rw [← hcs, ← hsum, ← List.sum_map_add]
    refine List.sum_le_sum fun i hi => ?_
    have h1 := (key i hi).2
    have h2 := abs_sub_abs_le_abs_sub (rnd (a i * b' i)) (c i * b i)
    have h3 : |c i * b i| ≤ c i := by
      rw [abs_mul, abs_of_nonneg (hc0 i hi)]
      exact mul_le_of_le_one_right (hc0 i hi) (hb i hi)
    linarith
  have hlu : (l.length : ℝ) * uro ≤ 10 ^ 6 * (1 / 10 ^ 15) := mul_le_mul hlen hu'.le hu.le (by norm_num)
  obtain ⟨y, h1, h2⟩ := F64.foldl_err (L := L) (fun i => rnd (a i * b' i)) l 0 (by
    rw [abs_zero]
    linarith)
  refine ⟨y, h1, ?_⟩
  have h3 : |(l.map fun i => rnd (a i * b' i)).sum - (l.map fun i => c i * b i).sum| ≤ δ + 10 * uro + l.length * (uro / 10 ^ 5) := by
    rw [← hcs]
    clear h1 h2 hcs habs hsum hlu hlen ha hb hb' hc1 hc0
    induction l with
    | nil => simp
    | cons i l ih =>
      simp only [List.map_cons, List.sum_cons]
      have h4 := (key i (by simp)).2
      have h5 := ih fun j hj => key j (List.mem_cons_of_mem _ hj)
      rw [show rnd (a i * b' i) + (l.map fun i => rnd (a i * b' i)).sum - (c i * b i + (l.map fun i => c i * b i).sum) =
        (rnd (a i * b' i) - c i * b i) + ((l.map fun i => rnd (a i * b' i)).sum - (l.map fun i => c i * b i).sum) by ring]
      exact (abs_add_le _ _).trans (add_le_add h4 h5)
  rw [zero_add] at h2
  rw [show y - (l.map fun i => c i * b i).sum = (y - (l.map fun i => rnd (a i * b' i)).sum) +
    ((l.map fun i => rnd (a i * b' i)).sum - (l.map fun i => c i * b i).sum) by ring]
  refine (abs_add_le _ _).trans ?_
  have : 0 ≤ (l.length : ℝ) * uro := by positivity
  linarith

/-- A number that is neither tiny nor huge. -/
def NodeOk (x : ℝ) : Prop := (1 / 2) ^ 100 ≤ x ∧ x ≤ 2 ^ 100

theorem AverageOk.nodes {env : Env} {nLag : Option ℕ} (h : AverageOk env nLag) :
    ∀ xw ∈ env.laggauss (nLag.getD env.defaults.nLag), NodeOk xw.1 := fun xw hxw => by
  obtain ⟨hn, hr⟩ := h.rule
  have hx := hr.node_pos xw hxw
  have h0 := Laguerre.node_root hr (Laguerre.mem_nodes.2 ⟨xw, hxw, rfl⟩)
  have h1 := Laguerre.root_ge (Nat.pos_of_ne_zero hn) hx.le h0
  have h2 := (Laguerre.root_lt (Nat.pos_of_ne_zero hn) h0).le
  have h3 : ((nLag.getD env.defaults.nLag : ℕ) : ℝ) ≤ 10 ^ 6 := by exact_mod_cast h.few
  have h4 : (0 : ℝ) < (nLag.getD env.defaults.nLag : ℕ) := Nat.cast_pos.2 (Nat.pos_of_ne_zero hn)
  refine ⟨le_trans ?_ h1, h2.trans ?_⟩
  · refine le_trans ?_ (one_div_le_one_div_of_le h4 h3)
    norm_num
  · have h5 : (4 * 10 ^ 6 : ℝ) ≤ 2 ^ 100 := by norm_num
    linarith

theorem NodeOk.pos {x : ℝ} (h : NodeOk x) : 0 < x := lt_of_lt_of_le (by positivity) h.1

theorem NodeOk.sized {x : ℝ} (h : NodeOk x) : Sized |x| := by
  rw [abs_of_pos h.pos]
  exact ⟨le_trans (pow_le_pow_of_le_one (by norm_num) (by norm_num) (by norm_num)) h.1,
    h.2.trans (pow_le_pow_right₀ (by norm_num) (by norm_num))⟩

/-- The momentum of a node. -/
theorem momentum_near {x z : ℝ} (hx : NodeOk x) (hz : NodeOk z) : ∃ q, (F64.ofReal x / (lit 2 * .fin z) : F64 L) = .fin q ∧
    |q - x / (2 * z)| ≤ 8 * uro * (x / (2 * z)) := by
  have h1 : (F64.ofReal x : F64 L).Near x (1 + 1 / 100) := F64.near_lit hx.sized
  have h2 : (lit ((2 : ℕ) : ℝ) * F64.fin z : F64 L).Near (((2 : ℕ) : ℝ) * z) (0 + 0 + 2) := by
    refine (F64.near_nat (L := L) 2 (by norm_num)).mul (F64.near_fin z) le_rfl le_rfl (by norm_num) (by norm_num) ?_
    rw [Nat.cast_ofNat, abs_of_pos (mul_pos two_pos hz.pos)]
    refine ⟨?_, ?_⟩
    · have := hz.sized.1
      rw [abs_of_pos hz.pos] at this
      linarith [hz.pos]
    · calc 2 * z ≤ 2 ^ 1 * 2 ^ 100 := by linarith [hz.2]
        _ = 2 ^ 101 := by rw [← pow_add]
        _ ≤ 2 ^ 800 := pow_le_pow_right₀ (by norm_num) (by norm_num)
  rw [Nat.cast_ofNat] at h2
  have h2z : 0 < 2 * z := mul_pos two_pos hz.pos
  have hq0 : 0 < x / (2 * z) := div_pos hx.pos h2z
  obtain ⟨q, e1, e2⟩ := h1.div h2 (by norm_num) (by norm_num) (by norm_num) (by norm_num) h2z.ne' (by
    rw [abs_of_pos hq0]
    refine ⟨?_, ?_⟩
    · rw [le_div_iff₀ h2z]
      calc (1 / 2 : ℝ) ^ 800 * (2 * z) ≤ (1 / 2) ^ 800 * (2 * 2 ^ 100) := mul_le_mul_of_nonneg_left (by linarith [hz.2]) (by positivity)
        _ ≤ (1 / 2) ^ 201 * (2 * 2 ^ 100) := mul_le_mul_of_nonneg_right
            (pow_le_pow_of_le_one (by norm_num) (by norm_num) (by norm_num)) (by positivity)
        _ = (1 / 2) ^ 100 := by norm_num
        _ ≤ x := hx.1
    · rw [div_le_iff₀ h2z]
      calc x ≤ 2 ^ 100 := hx.2
        _ ≤ 2 ^ 200 * (2 * (1 / 2) ^ 100) := by norm_num
        _ ≤ 2 ^ 800 * (2 * (1 / 2) ^ 100) := mul_le_mul_of_nonneg_right
            (pow_le_pow_right₀ (by norm_num) (by norm_num)) (by positivity)
        _ ≤ 2 ^ 800 * (2 * z) := mul_le_mul_of_nonneg_left (by linarith [hz.1]) (by positivity))
  refine ⟨q, e1, e2.trans ?_⟩
  rw [abs_of_pos hq0]
  have hu := uro_pos
  have : 0 ≤ uro * (x / (2 * z)) := by positivity
  nlinarith

/-- The weight of a node. -/
theorem weight_near {x w : ℝ} (hx : NodeOk x) (hw0 : 0 ≤ w) (hw1 : w ≤ 1) (hwx : w * x ≤ 1) :
    ∃ a, (F64.ofReal w * F64.ofReal x : F64 L) = .fin a ∧ |a - w * x| ≤ 5 * uro * (w * x) + uro / 10 ^ 6 := by
  have hu := uro_pos
  have hu' := uro_lt
  have he := eta_lt
  have he0 := eta_pos
  have hmax := pow_le_max (n := 200) (by norm_num)
  have hx0 := hx.pos
  have hP : (4 : ℝ) ≤ 2 ^ 100 := le_trans (by norm_num : (4 : ℝ) ≤ 2 ^ 2) (pow_le_pow_right₀ (by norm_num) (by norm_num))
  have hP2 : (2 : ℝ) ^ 200 = 2 ^ 100 * 2 ^ 100 := by rw [← pow_add]
  have hx2 := hx.2
  have hex : eta * 2 ^ 100 ≤ uro / 10 ^ 9 := by
    have h1 := eta_le
    calc eta * 2 ^ 100 ≤ uro / 2 ^ 1000 * 2 ^ 100 := mul_le_mul_of_nonneg_right h1 (by positivity)
      _ = uro * (2 ^ 100 / 2 ^ 1000) := by ring
      _ ≤ uro * (1 / 10 ^ 9) := by
        refine mul_le_mul_of_nonneg_left ?_ hu.le
        rw [div_le_div_iff₀ (by positivity) (by positivity)]
        exact le_trans (by norm_num : (2 : ℝ) ^ 100 * 10 ^ 9 ≤ 1 * 2 ^ 200)
          (mul_le_mul_of_nonneg_left (pow_le_pow_right₀ (by norm_num) (by norm_num)) zero_le_one)
      _ = _ := by ring
  generalize (2 : ℝ) ^ 100 = P at *
  have hPP : P * 4 ≤ P * P := mul_le_mul_of_nonneg_left hP (by linarith)
  obtain ⟨e1, e2, -⟩ := F64.fl (L := L) (x := w) (M := w) (abs_of_nonneg hw0).le (by nlinarith)
  obtain ⟨f1, f2, -⟩ := F64.fl (L := L) (x := x) (M := x) (abs_of_pos hx0).le (by nlinarith)
  have hex2 : eta * x ≤ uro / 10 ^ 9 := (mul_le_mul_of_nonneg_left hx2 he0.le).trans hex
  have huwx : 0 ≤ uro * (w * x) := by positivity
  have huu : uro * uro ≤ uro / 10 ^ 15 := by nlinarith
  have d : |rnd w * rnd x - w * x| ≤ 3 * uro * (w * x) + uro / 10 ^ 8 := by
    rw [show rnd w * rnd x - w * x = (rnd w - w) * x + (w * (rnd x - x) + (rnd w - w) * (rnd x - x)) by ring]
    refine (abs_add_le _ _).trans ((add_le_add_right (abs_add_le _ _) _).trans ?_)
    have g1 : |(rnd w - w) * x| ≤ (uro * w + eta) * x := by
      rw [abs_mul, abs_of_pos hx0]
      exact mul_le_mul_of_nonneg_right e2 hx0.le
    have g2 : |w * (rnd x - x)| ≤ w * (uro * x + eta) := by
      rw [abs_mul, abs_of_nonneg hw0]
      exact mul_le_mul_of_nonneg_left f2 hw0
    have g3 : |(rnd w - w) * (rnd x - x)| ≤ (uro * w + eta) * (uro * x + eta) := by
      rw [abs_mul]
      exact mul_le_mul e2 f2 (abs_nonneg _) (by positivity)
    have g4 : (uro * w + eta) * (uro * x + eta) = uro * uro * (w * x) + uro * (eta * x) + eta * (uro * w) + eta * eta := by ring
    have g5 : uro * uro * (w * x) ≤ uro / 10 ^ 15 * (w * x) := mul_le_mul_of_nonneg_right huu (by positivity)
    have g6 : w * eta ≤ uro / 10 ^ 9 := by nlinarith
    have g7 : uro * (eta * x) ≤ uro / 10 ^ 15 := by nlinarith
    have g8 : eta * (uro * w) ≤ uro / 10 ^ 15 := by nlinarith
    have g9 : eta * eta ≤ uro / 10 ^ 15 := by nlinarith
    rw [g4] at g3
    linarith
  have d2 : |rnd w * rnd x| ≤ 2 := by
    have := abs_sub_abs_le_abs_sub (rnd w * rnd x) (w * x)
    rw [abs_of_nonneg (by positivity : 0 ≤ w * x)] at this
    nlinarith
  rw [e1, f1, F64.fin_mul, (F64.fl (L := L) d2 (by nlinarith)).1]
  refine ⟨_, rfl, (rnd_approx d).trans ?_⟩
  rw [abs_of_nonneg (by positivity : 0 ≤ w * x)]
  have g1 : uro * (3 * uro * (w * x) + uro / 10 ^ 8) ≤ 3 * (uro / 10 ^ 15 * (w * x)) + uro / 10 ^ 15 := by
    have := mul_le_mul_of_nonneg_right huu (by positivity : 0 ≤ w * x)
    nlinarith
  have he3 : eta ≤ uro / 10 ^ 9 := by nlinarith
  linarith

theorem AverageOk.len {env : Env} {nLag : Option ℕ} (h : AverageOk env nLag) :
    ((env.laggauss (nLag.getD env.defaults.nLag)).length : ℝ) ≤ 10 ^ 6 := by
  rw [h.rule.2.length]
  exact_mod_cast h.few

theorem AverageOk.weights {env : Env} {nLag : Option ℕ} (h : AverageOk env nLag) :
    ∀ xw ∈ env.laggauss (nLag.getD env.defaults.nLag), ∃ a, (F64.ofReal xw.2 * F64.ofReal xw.1 : F64 L) = .fin a ∧
      |a - xw.2 * xw.1| ≤ 5 * uro * (xw.2 * xw.1) + uro / 10 ^ 6 := fun xw hxw => by
  obtain ⟨h0, g⟩ := h.rule
  refine weight_near (h.nodes xw hxw) (g.weight_pos xw hxw).le ?_ ?_
  · rw [← g.sum_w h0]
    refine List.single_le_sum (fun y hy => ?_) _ (List.mem_map_of_mem (f := fun xw : ℝ × ℝ => xw.2) hxw)
    obtain ⟨v, hv, rfl⟩ := List.mem_map.1 hy
    exact (g.weight_pos v hv).le
  · rw [← g.sum_wx h0]
    refine List.single_le_sum (fun y hy => ?_) _ (List.mem_map_of_mem (f := fun xw : ℝ × ℝ => xw.2 * xw.1) hxw)
    obtain ⟨v, hv, rfl⟩ := List.mem_map.1 hy
    exact (mul_pos (g.weight_pos v hv) (g.node_pos v hv)).le

/-- The charge average of real arrays. -/
theorem aboveSurf_F64 {env : Env} {nLag : Option ℕ} {z δ : ℝ} (h : AverageOk env nLag) (S : Stack (F64 L) (F64 L))
    (hl : ∃ c, S.reflCoefQs (.fin z) = .ok c) (b : ℝ × ℝ → ℝ)
    (hb : ∀ xw ∈ env.laggauss (nLag.getD env.defaults.nLag), |b xw| ≤ 1 ∧
      ∃ b', S.reflCoefQs (F64.ofReal xw.1 / (lit 2 * .fin z)) = .ok (.fin b') ∧ |b' - b xw| ≤ δ) (hδ : δ ≤ 1 / 10) :
    ∃ y, S.reflCoefQsAboveSurf env (.fin z) nLag = .ok (.fin y) ∧
      |y - ((env.laggauss (nLag.getD env.defaults.nLag)).map fun xw => xw.2 * xw.1 * b xw).sum| ≤
        δ + 10 * uro + (env.laggauss (nLag.getD env.defaults.nLag)).length * (5 * uro) := by
  classical
  obtain ⟨c, hc⟩ := hl
  obtain ⟨h0, g⟩ := h.rule
  have hw := h.weights (L := L)
  have hs := g.sum_wx h0
  have hfew := h.len
  set rule := env.laggauss (nLag.getD env.defaults.nLag) with hrule
  choose! a ha1 ha2 using hw
  choose! hb1 b' hb2 hb3 using hb
  obtain ⟨k1, y, k2, k3⟩ := average_err (L := L) rule a (fun xw => xw.2 * xw.1) b b'
    (fun i hi => (mul_pos (g.weight_pos i hi) (g.node_pos i hi)).le) hs ha2 hb1 hb3 hδ hfew
  refine ⟨y, ?_, k3⟩
  unfold Stack.reflCoefQsAboveSurf Env.lagRule
  rw [if_neg h0, PyM.ok_bind, hc, PyM.ok_bind, ← hrule]
  show (rule.mapM _ >>= fun vals => pure (F64.sum vals)) = _
  rw [mapM_ok rule _ (fun i => F64.fin (rnd (a i * b' i))) fun i hi => ?_, PyM.ok_bind, k2]
  · rfl
  · simp only []
    rw [hb2 i hi, PyM.ok_bind, ha1 i hi]
    show Except.ok (F64.fin (a i) * F64.fin (b' i)) = _
    rw [F64.fin_mul, k1 i hi]

/-- The charge average of complex arrays. -/
theorem aboveSurf_C128 {env : Env} {nLag : Option ℕ} {z δ : ℝ} (h : AverageOk env nLag) (S : Stack (F64 L) (C128 L))
    (hl : ∃ c, S.reflCoefQs (.fin z) = .ok c) (b : ℝ × ℝ → ℂ)
    (hb : ∀ xw ∈ env.laggauss (nLag.getD env.defaults.nLag), ‖b xw‖ ≤ 1 ∧
      ∃ b', S.reflCoefQs (F64.ofReal xw.1 / (lit 2 * .fin z)) = .ok (C128.mk' L b') ∧ ‖b' - b xw‖ ≤ δ) (hδ : δ ≤ 1 / 10) :
    ∃ y, S.reflCoefQsAboveSurf env (.fin z) nLag = .ok (C128.mk' L y) ∧
      ‖y - ((env.laggauss (nLag.getD env.defaults.nLag)).map fun xw => ((xw.2 * xw.1 : ℝ) : ℂ) * b xw).sum‖ ≤
        17 / 12 * (δ + 10 * uro + (env.laggauss (nLag.getD env.defaults.nLag)).length * (5 * uro)) := by
  classical
  obtain ⟨c, hc⟩ := hl
  obtain ⟨h0, g⟩ := h.rule
  have hw := h.weights (L := L)
  have hs := g.sum_wx h0
  have hfew := h.len
  set rule := env.laggauss (nLag.getD env.defaults.nLag) with hrule
  choose! a ha1 ha2 using hw
  choose! hb1 b' hb2 hb3 using hb
  have hpos : ∀ i ∈ rule, 0 ≤ i.2 * i.1 := fun i hi => (mul_pos (g.weight_pos i hi) (g.node_pos i hi)).le
  obtain ⟨k1, y1, k2, k3⟩ := average_err (L := L) rule a (fun xw => xw.2 * xw.1) (fun i => (b i).re) (fun i => (b' i).re) hpos hs ha2
    (fun i hi => (Complex.abs_re_le_norm _).trans (hb1 i hi))
    (fun i hi => by rw [← Complex.sub_re]; exact (Complex.abs_re_le_norm _).trans (hb3 i hi)) hδ hfew
  obtain ⟨l1, y2, l2, l3⟩ := average_err (L := L) rule a (fun xw => xw.2 * xw.1) (fun i => (b i).im) (fun i => (b' i).im) hpos hs ha2
    (fun i hi => (Complex.abs_im_le_norm _).trans (hb1 i hi))
    (fun i hi => by rw [← Complex.sub_im]; exact (Complex.abs_im_le_norm _).trans (hb3 i hi)) hδ hfew
  have rs : ∀ l : List (ℝ × ℝ), ((l.map fun xw => ((xw.2 * xw.1 : ℝ) : ℂ) * b xw).sum).re = (l.map fun xw => xw.2 * xw.1 * (b xw).re).sum ∧
      ((l.map fun xw => ((xw.2 * xw.1 : ℝ) : ℂ) * b xw).sum).im = (l.map fun xw => xw.2 * xw.1 * (b xw).im).sum := fun l => by
    induction l with
    | nil => simp
    | cons i l ih =>
      simp only [List.map_cons, List.sum_cons, Complex.add_re, Complex.add_im, Complex.re_ofReal_mul, Complex.im_ofReal_mul, ih.1, ih.2,
        true_and]
  refine ⟨⟨y1, y2⟩, ?_, norm_le_of_parts ?_ ?_⟩
  · unfold Stack.reflCoefQsAboveSurf Env.lagRule
    rw [if_neg h0, PyM.ok_bind, hc, PyM.ok_bind, ← hrule]
    show (rule.mapM _ >>= fun vals => pure (C128.sum vals)) = _
    rw [mapM_ok rule _ (fun i => C128.mk' L ⟨rnd (a i * (b' i).re), rnd (a i * (b' i).im)⟩) fun i hi => ?_, PyM.ok_bind]
    · show Except.ok (C128.sum _) = _
      unfold C128.sum
      rw [C128.foldl_parts]
      exact congrArg Except.ok (congrArg₂ C128.mk k2 l2)
    · simp only []
      rw [hb2 i hi, PyM.ok_bind, ha1 i hi]
      show Except.ok (C128.mk' L (a i : ℂ) * C128.mk' L (b' i)) = _
      rw [C128.mk'_mul]
      simp only [Complex.ofReal_re, Complex.ofReal_im, zero_mul, F64.ofReal_zero]
      rw [k1 i hi, l1 i hi, F64.fin_sub, F64.fin_add, neg_zero, add_zero, add_zero, rnd_ofReal (k1 i hi), rnd_ofReal (l1 i hi)]
      rfl
  · rw [Complex.sub_re, (rs rule).1]
    exact k3
  · rw [Complex.sub_im, (rs rule).2]
    exact l3

end Snompy
