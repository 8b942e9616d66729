import Verif.Spec.Signs
import Verif.Lemmas.DoubleLayer
import Verif.Lemmas.DoublePerm

/-!
# Signs survive rounding
-/

namespace Snompy

variable {L : Libm}

namespace F64

/-- Not a positive number. -/
def NotPos : F64 L → Prop
  | .fin x => x ≤ 0
  | .pinf => False
  | _ => True

/-- A negative number, `-∞` or NaN. -/
def Minus : F64 L → Prop
  | .fin x => x < 0
  | .pinf => False
  | _ => True

theorem Minus.notPos {a : F64 L} (h : a.Minus) : a.NotPos := by
  cases a <;> first | exact le_of_lt h | exact h

theorem rnd_nonpos {x : ℝ} (h : x ≤ 0) : rnd x ≤ 0 := by
  have := rnd_nonneg (neg_nonneg.2 h)
  rw [rnd_neg] at this
  linarith

theorem infOf_notNeg {x : ℝ} (h : 0 ≤ x) : (infOf x : F64 L).NotNeg := by
  unfold infOf
  rw [if_neg (not_lt.2 h)]
  split_ifs <;> trivial

theorem infOf_notPos {x : ℝ} (h : x ≤ 0) : (infOf x : F64 L).NotPos := by
  unfold infOf
  rw [if_neg (not_lt.2 h)]
  split_ifs <;> trivial

theorem ofReal_notNeg {x : ℝ} (h : 0 ≤ x) : (ofReal x : F64 L).NotNeg := by
  unfold ofReal
  split_ifs
  · exact rnd_nonneg h
  · exact infOf_notNeg h

theorem ofReal_notPos {x : ℝ} (h : x ≤ 0) : (ofReal x : F64 L).NotPos := by
  unfold ofReal
  split_ifs
  · exact rnd_nonpos h
  · exact infOf_notPos h

theorem NotNeg.neg {a : F64 L} (h : a.NotNeg) : (F64.neg a).NotPos := by
  cases a with
  | fin x => exact neg_nonpos.2 h
  | pinf => trivial
  | ninf => exact h
  | nan => trivial

theorem NotPos.neg {a : F64 L} (h : a.NotPos) : (F64.neg a).NotNeg := by
  cases a with
  | fin x => exact neg_nonneg.2 h
  | pinf => exact h
  | ninf => trivial
  | nan => trivial

theorem NotNeg.add {a b : F64 L} (ha : a.NotNeg) (hb : b.NotNeg) : (a + b).NotNeg := by
  show (F64.add a b).NotNeg
  cases a <;> cases b <;> first | trivial | exact ha.elim | exact hb.elim | exact ofReal_notNeg (add_nonneg ha hb)

theorem NotPos.add {a b : F64 L} (ha : a.NotPos) (hb : b.NotPos) : (a + b).NotPos := by
  show (F64.add a b).NotPos
  cases a <;> cases b <;> first | trivial | exact ha.elim | exact hb.elim | exact ofReal_notPos (add_nonpos ha hb)

theorem NotNeg.sub {a b : F64 L} (ha : a.NotNeg) (hb : b.NotPos) : (a - b).NotNeg := NotNeg.add ha hb.neg
theorem NotPos.sub {a b : F64 L} (ha : a.NotPos) (hb : b.NotNeg) : (a - b).NotPos := NotPos.add ha hb.neg

theorem NotNeg.mul {a b : F64 L} (ha : a.NotNeg) (hb : b.NotNeg) : (a * b).NotNeg := by
  show (F64.mul a b).NotNeg
  cases a <;> cases b <;> first | trivial | exact ha.elim | exact hb.elim |
    exact ofReal_notNeg (mul_nonneg ha hb) | exact infOf_notNeg ha | exact infOf_notNeg hb

theorem NotNeg.mul_notPos {a b : F64 L} (ha : a.NotNeg) (hb : b.NotPos) : (a * b).NotPos := by
  show (F64.mul a b).NotPos
  cases a <;> cases b <;> first | trivial | exact ha.elim | exact hb.elim |
    exact ofReal_notPos (mul_nonpos_of_nonneg_of_nonpos ha hb) | exact infOf_notPos hb |
    exact infOf_notPos (neg_nonpos.2 ha)

theorem NotPos.mul_notNeg {a b : F64 L} (ha : a.NotPos) (hb : b.NotNeg) : (a * b).NotPos := by
  show (F64.mul a b).NotPos
  cases a <;> cases b <;> first | trivial | exact ha.elim | exact hb.elim |
    exact ofReal_notPos (mul_nonpos_of_nonpos_of_nonneg ha hb) | exact infOf_notPos ha |
    exact infOf_notPos (neg_nonpos.2 hb)

theorem NotPos.mul {a b : F64 L} (ha : a.NotPos) (hb : b.NotPos) : (a * b).NotNeg := by
  show (F64.mul a b).NotNeg
  cases a <;> cases b <;> first | trivial | exact ha.elim | exact hb.elim |
    exact ofReal_notNeg (mul_nonneg_of_nonpos_of_nonpos ha hb) | exact infOf_notNeg (neg_nonneg.2 ha) |
    exact infOf_notNeg (neg_nonneg.2 hb)

theorem NotNeg.div {a b : F64 L} (ha : a.NotNeg) (hb : b.NotNeg) : (a / b).NotNeg := by
  show (F64.div a b).NotNeg
  cases a <;> cases b <;> first | trivial | exact ha.elim | exact hb.elim | skip
  · dsimp only [F64.div]
    split_ifs
    · exact infOf_notNeg ha
    · exact ofReal_notNeg (div_nonneg ha hb)
  · exact le_refl (0 : ℝ)
  · dsimp only [F64.div]
    rw [if_neg (not_lt.2 hb)]
    trivial

theorem NotPos.div {a b : F64 L} (ha : a.NotPos) (hb : b.NotNeg) : (a / b).NotPos := by
  show (F64.div a b).NotPos
  cases a <;> cases b <;> first | trivial | exact ha.elim | exact hb.elim | skip
  · dsimp only [F64.div]
    split_ifs
    · exact infOf_notPos ha
    · exact ofReal_notPos (div_nonpos_of_nonpos_of_nonneg ha hb)
  · exact le_refl (0 : ℝ)
  · dsimp only [F64.div]
    rw [if_neg (not_lt.2 hb)]
    trivial

theorem NotNeg.div_minus {a b : F64 L} (ha : a.NotNeg) (hb : b.Minus) : (a / b).NotPos := by
  show (F64.div a b).NotPos
  cases a <;> cases b <;> first | trivial | exact ha.elim | exact hb.elim | skip
  · dsimp only [F64.div]
    rw [if_neg (ne_of_lt hb)]
    exact ofReal_notPos (div_nonpos_of_nonneg_of_nonpos ha (le_of_lt hb))
  · exact le_refl (0 : ℝ)
  · dsimp only [F64.div]
    rw [if_pos (show _ < (0 : ℝ) from hb)]
    trivial

theorem NotPos.div_minus {a b : F64 L} (ha : a.NotPos) (hb : b.Minus) : (a / b).NotNeg := by
  show (F64.div a b).NotNeg
  cases a <;> cases b <;> first | trivial | exact ha.elim | exact hb.elim | skip
  · dsimp only [F64.div]
    rw [if_neg (ne_of_lt hb)]
    exact ofReal_notNeg (div_nonneg_of_nonpos ha (le_of_lt hb))
  · exact le_refl (0 : ℝ)
  · dsimp only [F64.div]
    rw [if_pos (show _ < (0 : ℝ) from hb)]
    trivial

/-- A value that a double can have. -/
def Stored : F64 L → Prop
  | .fin x => Rep x
  | _ => True

theorem stored_ofReal (x : ℝ) : (ofReal x : F64 L).Stored := by
  unfold ofReal infOf
  split_ifs <;> first | exact rep_rnd x | trivial

theorem stored_add (a b : F64 L) : (a + b).Stored := by
  show (F64.add a b).Stored
  cases a <;> cases b <;> first | trivial | exact stored_ofReal _

theorem rep_ge {x : ℝ} (h : Rep x) (h0 : x ≠ 0) : 2 * eta ≤ |x| := by
  obtain ⟨m, k, -, hk, rfl⟩ := h
  have hm : m ≠ 0 := by rintro rfl; simp at h0
  have h1 : (1 : ℝ) ≤ |(m : ℝ)| := by exact_mod_cast Int.one_le_abs hm
  have h2 : 2 * eta ≤ (2 : ℝ) ^ k := by
    have h3 : 2 * eta = (2 : ℝ) ^ (-1074 : ℤ) := by
      unfold eta
      rw [show (-1074 : ℤ) = 1 + -1075 by norm_num, zpow_add₀ (by norm_num), zpow_one]
      rw [zpow_neg, one_div, inv_pow]
      norm_cast
    rw [h3]
    exact zpow_le_zpow_right₀ one_le_two hk
  rw [abs_mul, abs_of_pos (two_zpow_pos k)]
  have := two_zpow_pos k
  nlinarith

/-- Adding numbers of one sign does not give zero. -/
theorem Minus.add {a b : F64 L} (ha : a.Minus) (hs : a.Stored) (hb : b.NotPos) : (a + b).Minus := by
  show (F64.add a b).Minus
  cases a <;> cases b <;> first | trivial | exact ha.elim | exact hb.elim | skip
  case fin.fin x y =>
    have hx : x < 0 := ha
    have hy : y ≤ 0 := hb
    have h1 := rep_ge hs hx.ne
    have h2 := rnd_err (x + y)
    have hxy : x + y ≤ x := by linarith
    rw [abs_of_neg hx] at h1
    rw [abs_of_neg (show x + y < 0 by linarith)] at h2
    have h3 := (abs_le.1 h2).2
    have := uro_lt
    have := eta_pos
    have h4 : rnd (x + y) < 0 := by nlinarith
    show (ofReal (x + y) : F64 L).Minus
    unfold ofReal
    split_ifs
    · exact h4
    · unfold infOf
      rw [if_neg (by linarith), if_pos (by linarith)]
      trivial

end F64

/-- The sign of the imaginary part of a quotient of a non-negative number by a number of the lower half plane. -/
theorem C128.div_im_notNeg {a c d : F64 L} (ha : a.NotNeg) (hd : d.NotPos) (hcs : c.Stored) (hds : d.Stored) :
    (C128.ofReal a / (⟨c, d⟩ : C128 L)).im.NotNeg := by
  have h0 : (F64.fin 0 : F64 L).NotNeg := le_refl (0 : ℝ)
  have h0' : (F64.fin 0 : F64 L).NotPos := le_refl (0 : ℝ)
  have h1 : (F64.fin 1 : F64 L).NotNeg := zero_le_one (α := ℝ)
  show (C128.div _ _).im.NotNeg
  unfold C128.div C128.ofReal
  dsimp only
  split_ifs with hge hz
  · rw [hz.1]
    dsimp only
    exact h0.div (by show (0 : ℝ) ≤ |(0 : ℝ)|; exact abs_nonneg _)
  · dsimp only
    -- the real part of the denominator is not zero
    cases c with
    | nan => cases d <;> exact absurd hge (by simp [C128.absGe])
    | pinf =>
      have hc : (F64.pinf : F64 L).NotNeg := trivial
      have hr := hd.div hc
      exact (h0.sub (ha.mul_notPos hr)).mul (h1.div (hc.add (hd.mul hr)))
    | ninf =>
      have hc : (F64.ninf : F64 L).Minus := trivial
      have hr := hd.div_minus hc
      exact (h0'.sub (ha.mul hr)).mul (h1.div_minus (hc.add trivial (hd.mul_notNeg hr)))
    | fin x =>
      rcases lt_trichotomy x 0 with hx | hx | hx
      · have hc : (F64.fin x : F64 L).Minus := hx
        have hr := hd.div_minus hc
        exact (h0'.sub (ha.mul hr)).mul (h1.div_minus (hc.add hcs (hd.mul_notNeg hr)))
      · exfalso
        subst hx
        apply hz
        refine ⟨rfl, ?_⟩
        cases d with
        | fin y =>
          have : |y| ≤ |(0 : ℝ)| := by simpa [C128.absGe] using hge
          rw [abs_zero] at this
          rw [abs_nonpos_iff.1 this]
        | _ => exact absurd hge (by simp [C128.absGe])
      · have hc : (F64.fin x : F64 L).NotNeg := hx.le
        have hr := hd.div hc
        exact (h0.sub (ha.mul_notPos hr)).mul (h1.div (hc.add (hd.mul hr)))
  · dsimp only
    have hm : d.Minus ∨ c = .nan := by
      cases d with
      | fin y =>
        rcases lt_or_eq_of_le (show y ≤ 0 from hd) with hy | hy
        · exact .inl hy
        · subst hy
          cases c with
          | fin x => exact absurd hge (by simp [C128.absGe])
          | nan => exact .inr rfl
          | _ => exact absurd hge (by simp [C128.absGe])
      | pinf => exact hd.elim
      | ninf => exact .inl trivial
      | nan => exact .inl trivial
    rcases hm with hm | rfl
    · have hz0 : (F64.fin 0 * (c / d) : F64 L).NotPos := by
        have : ∀ x : F64 L, (F64.fin 0 * x : F64 L).NotPos := by
          intro x
          show (F64.mul _ _).NotPos
          cases x with
          | fin y => exact F64.ofReal_notPos (by rw [zero_mul])
          | pinf => exact F64.infOf_notPos le_rfl
          | ninf => exact F64.infOf_notPos (by rw [neg_zero])
          | nan => trivial
        exact this _
      have hp : (c * (c / d) : F64 L).NotPos := by
        by_cases hc : c.NotNeg
        · exact hc.mul_notPos (hc.div_minus hm)
        · have hc' : c.NotPos := by
            cases c with
            | fin x => exact (le_of_lt (not_le.1 hc) : x ≤ 0)
            | pinf => exact absurd trivial hc
            | ninf => trivial
            | nan => trivial
          exact hc'.mul_notNeg (hc'.div_minus hm)
      exact (hz0.sub ha).mul (h1.div_minus (hm.add hds hp))
    · rw [F64.nan_div, F64.mul_nan, F64.nan_sub, F64.nan_mul]
      trivial

end Snompy
