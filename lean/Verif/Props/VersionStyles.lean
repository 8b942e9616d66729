import Verif.Lemmas.Version

/-!
# C76, C80: the styles of version numbers
-/

namespace Snompy.Props

open Snompy.Version

/-! ## C76: what every style shows -/

section

variable {p : Pieces} {tag : Option Str} {d : ℤ} {h : Str} {x : Bool} {b : Option Str}

private theorem truthy_some (hp : Has p (some (c :: cs)) d h x b) : truthyTag p = .ok (some (c :: cs)) := by
  simp [truthyTag, key, hp.tag, bind, Except.bind, pure, Except.pure]

private theorem truthy_none (hp : Has p none d h x b) : truthyTag p = .ok none := by
  simp [truthyTag, key, hp.tag, bind, Except.bind, pure, Except.pure]

private theorem changed_eq (hp : Has p tag d h x b) : changed p = .ok (decide (d ≠ 0) || x) := by
  by_cases h0 : d = 0 <;> simp [changed, key, hp.distance, hp.dirty, bind, Except.bind, pure, Except.pure, h0]

private theorem ifDirty_eq (hp : Has p tag d h x b) (s : String) : ifDirty p s = .ok (if x then s.toList else []) := by
  cases x <;> simp [ifDirty, key, hp.dirty, bind, Except.bind, pure, Except.pure]

private theorem ifBranch_eq (hp : Has p tag d h x b) :
    ifBranch p = .ok (if b ≠ some "master".toList then ".dev0".toList else []) := by
  simp only [ifBranch, key, hp.branch, bind, Except.bind, pure, Except.pure]

private theorem distStr_eq (hp : Has p tag d h x b) : distStr p = .ok (intStr d) := by
  simp only [distStr, key, hp.distance, bind, Except.bind, pure, Except.pure]

private theorem shortStr_eq (hp : Has p tag d h x b) : shortStr p = .ok h := by
  simp only [shortStr, key, hp.short]

private theorem plus_eq {t : Str} (hp : Has p (some t) d h x b) : plusOrDot p = .ok (if '+' ∈ t then ['.'] else ['+']) := by
  simp only [plusOrDot, hp.tag]

private theorem dist_eq (hp : Has p tag d h x b) : key "distance" p.distance = .ok d := by
  simp only [key, hp.distance]

end

/-- A dictionary of pieces from its entries, used in the examples. -/
private def mk (tag : Option Str) (d : ℤ) (h : Str) (x : Bool) (b : Option Str) : Pieces :=
  { long := some h, short := some h, error := some none, branch := some b, dirty := some x, closestTag := some tag,
    distance := some d, date := some [] }

private theorem mk_has (tag : Option Str) (d : ℤ) (h : Str) (x : Bool) (b : Option Str) : Has (mk tag d h x b) tag d h x b :=
  ⟨rfl, rfl, rfl, rfl, rfl⟩

/-- What the styles other than `pep440-pre` give for a tag. -/
private def tagged (style : String) (t : Str) (d : ℤ) (h : Str) (x : Bool) (b : Option Str) : Str :=
  let sep : Str := if '+' ∈ t then ['.'] else ['+']
  let dirty : Str := if x then ".dirty".toList else []
  let dev : Str := if x then ".dev0".toList else []
  let br : Str := if b ≠ some "master".toList then ".dev0".toList else []
  let m : Bool := decide (d ≠ 0) || x
  if style = "pep440" then if m then t ++ sep ++ intStr d ++ ".g".toList ++ h ++ dirty else t
  else if style = "pep440-branch" then if m then t ++ br ++ sep ++ intStr d ++ ".g".toList ++ h ++ dirty else t
  else if style = "pep440-post" then if m then t ++ ".post".toList ++ intStr d ++ dev ++ sep ++ "g".toList ++ h else t
  else if style = "pep440-post-branch" then
    if m then t ++ ".post".toList ++ intStr d ++ br ++ sep ++ "g".toList ++ h ++ dirty else t
  else if style = "pep440-old" then if m then t ++ ".post".toList ++ intStr d ++ dev else t
  else if style = "git-describe" then
    (if d ≠ 0 then t ++ "-".toList ++ intStr d ++ "-g".toList ++ h else t) ++ (if x then "-dirty".toList else [])
  else (t ++ "-".toList ++ intStr d ++ "-g".toList ++ h) ++ (if x then "-dirty".toList else [])

/-- What they give without a tag. -/
private def untagged (style : String) (d : ℤ) (h : Str) (x : Bool) (b : Option Str) : Str :=
  let dirty : Str := if x then ".dirty".toList else []
  let dev : Str := if x then ".dev0".toList else []
  let br : Str := if b ≠ some "master".toList then ".dev0".toList else []
  if style = "pep440" then "0+untagged.".toList ++ intStr d ++ ".g".toList ++ h ++ dirty
  else if style = "pep440-branch" then "0".toList ++ br ++ "+untagged.".toList ++ intStr d ++ ".g".toList ++ h ++ dirty
  else if style = "pep440-post" then "0.post".toList ++ intStr d ++ dev ++ "+g".toList ++ h
  else if style = "pep440-post-branch" then "0.post".toList ++ intStr d ++ br ++ "+g".toList ++ h ++ dirty
  else if style = "pep440-old" then "0.post".toList ++ intStr d ++ dev
  else h ++ (if x then "-dirty".toList else [])

private theorem render_tagged (ext : DigitTable) {p : Pieces} {c : Char} {cs : Str} {d : ℤ} {h : Str} {x : Bool}
    {b : Option Str} (hp : Has p (some (c :: cs)) d h x b) {style : String} (hs : style ∈ styles)
    (hpre : style ≠ "pep440-pre") : renderStyle ext p (some style) = .ok (tagged style (c :: cs) d h x b) := by
  have h1 := truthy_some hp
  have h2 := changed_eq hp
  have h3 := ifDirty_eq hp
  have h4 := ifBranch_eq hp
  have h5 := distStr_eq hp
  have h6 := shortStr_eq hp
  have h7 := plus_eq hp
  have h8 := dist_eq hp
  simp only [styles, List.mem_cons, List.not_mem_nil, or_false] at hs
  rcases hs with rfl | rfl | rfl | rfl | rfl | rfl | rfl | rfl
  · have hst : renderStyle ext p (some "pep440") = renderPep440 p := by
      simp only [renderStyle, String.reduceEq, reduceIte, or_self]
    rw [hst]
    simp only [renderPep440, h1, h2, h3, h5, h6, h7, bind, Except.bind, pure, Except.pure, tagged]
    cases (decide (d ≠ 0) || x) <;> simp only [String.reduceEq, reduceIte, Bool.false_eq_true]
  · have hst : renderStyle ext p (some "pep440-branch") = renderPep440Branch p := by
      simp only [renderStyle, String.reduceEq, reduceIte, or_self]
    rw [hst]
    simp only [renderPep440Branch, h1, h2, h3, h4, h5, h6, h7, bind, Except.bind, pure, Except.pure, tagged]
    cases (decide (d ≠ 0) || x) <;> simp only [String.reduceEq, reduceIte, Bool.false_eq_true]
  · exact absurd rfl hpre
  · have hst : renderStyle ext p (some "pep440-post") = renderPep440Post p := by
      simp only [renderStyle, String.reduceEq, reduceIte, or_self]
    rw [hst]
    simp only [renderPep440Post, h1, h2, h3, h5, h6, h7, bind, Except.bind, pure, Except.pure, tagged]
    cases (decide (d ≠ 0) || x) <;> simp only [String.reduceEq, reduceIte, Bool.false_eq_true]
  · have hst : renderStyle ext p (some "pep440-post-branch") = renderPep440PostBranch p := by
      simp only [renderStyle, String.reduceEq, reduceIte, or_self]
    rw [hst]
    simp only [renderPep440PostBranch, h1, h2, h3, h4, h5, h6, h7, bind, Except.bind, pure, Except.pure, tagged]
    cases (decide (d ≠ 0) || x) <;> simp only [String.reduceEq, reduceIte, Bool.false_eq_true]
  · have hst : renderStyle ext p (some "pep440-old") = renderPep440Old p := by
      simp only [renderStyle, String.reduceEq, reduceIte, or_self]
    rw [hst]
    simp only [renderPep440Old, h1, h2, h3, h5, bind, Except.bind, pure, Except.pure, tagged]
    cases (decide (d ≠ 0) || x) <;> simp only [String.reduceEq, reduceIte, Bool.false_eq_true]
  · have hst : renderStyle ext p (some "git-describe") = renderGitDescribe p := by
      simp only [renderStyle, String.reduceEq, reduceIte, or_self]
    rw [hst]
    simp only [renderGitDescribe, h1, h3, h6, h8, bind, Except.bind, pure, Except.pure, tagged]
    by_cases h0 : d = 0 <;> simp only [h0, String.reduceEq, reduceIte, ne_eq, not_true_eq_false, not_false_eq_true]
  · have hst : renderStyle ext p (some "git-describe-long") = renderGitDescribeLong p := by
      simp only [renderStyle, String.reduceEq, reduceIte, or_self]
    rw [hst]
    simp only [renderGitDescribeLong, h1, h3, h5, h6, bind, Except.bind, pure, Except.pure, tagged]
    by_cases h0 : d = 0 <;> simp only [h0, String.reduceEq, reduceIte, ne_eq, not_true_eq_false, not_false_eq_true]

private theorem render_untagged (ext : DigitTable) {p : Pieces} {tag : Option Str} {d : ℤ} {h : Str} {x : Bool}
    {b : Option Str} (hp : Has p tag d h x b) (ht : tag = none ∨ tag = some []) {style : String} (hs : style ∈ styles)
    (hpre : style ≠ "pep440-pre") : renderStyle ext p (some style) = .ok (untagged style d h x b) := by
  have h1 : truthyTag p = .ok none := by
    rcases ht with rfl | rfl <;> simp [truthyTag, key, hp.tag, bind, Except.bind, pure, Except.pure]
  have h3 := ifDirty_eq hp
  have h4 := ifBranch_eq hp
  have h5 := distStr_eq hp
  have h6 := shortStr_eq hp
  simp only [styles, List.mem_cons, List.not_mem_nil, or_false] at hs
  rcases hs with rfl | rfl | rfl | rfl | rfl | rfl | rfl | rfl
  · have hst : renderStyle ext p (some "pep440") = renderPep440 p := by
      simp only [renderStyle, String.reduceEq, reduceIte, or_self]
    rw [hst]
    simp only [renderPep440, h1, h3, h5, h6, bind, Except.bind, pure, Except.pure, untagged, String.reduceEq, reduceIte]
  · have hst : renderStyle ext p (some "pep440-branch") = renderPep440Branch p := by
      simp only [renderStyle, String.reduceEq, reduceIte, or_self]
    rw [hst]
    simp only [renderPep440Branch, h1, h3, h4, h5, h6, bind, Except.bind, pure, Except.pure, untagged, String.reduceEq, reduceIte]
  · exact absurd rfl hpre
  · have hst : renderStyle ext p (some "pep440-post") = renderPep440Post p := by
      simp only [renderStyle, String.reduceEq, reduceIte, or_self]
    rw [hst]
    simp only [renderPep440Post, h1, h3, h5, h6, bind, Except.bind, pure, Except.pure, untagged, String.reduceEq, reduceIte]
  · have hst : renderStyle ext p (some "pep440-post-branch") = renderPep440PostBranch p := by
      simp only [renderStyle, String.reduceEq, reduceIte, or_self]
    rw [hst]
    simp only [renderPep440PostBranch, h1, h3, h4, h5, h6, bind, Except.bind, pure, Except.pure, untagged, String.reduceEq, reduceIte]
  · have hst : renderStyle ext p (some "pep440-old") = renderPep440Old p := by
      simp only [renderStyle, String.reduceEq, reduceIte, or_self]
    rw [hst]
    simp only [renderPep440Old, h1, h3, h5, bind, Except.bind, pure, Except.pure, untagged, String.reduceEq, reduceIte]
  · have hst : renderStyle ext p (some "git-describe") = renderGitDescribe p := by
      simp only [renderStyle, String.reduceEq, reduceIte, or_self]
    rw [hst]
    simp only [renderGitDescribe, h1, h3, h6, bind, Except.bind, pure, Except.pure, untagged, String.reduceEq, reduceIte]
  · have hst : renderStyle ext p (some "git-describe-long") = renderGitDescribeLong p := by
      simp only [renderStyle, String.reduceEq, reduceIte, or_self]
    rw [hst]
    simp only [renderGitDescribeLong, h1, h3, h6, bind, Except.bind, pure, Except.pure, untagged, String.reduceEq, reduceIte]

section

open Template

variable (t : Str) (d : ℕ) (h : Str) (x : Bool) (b : Option Str)

private theorem fill_nil : fillAll t d h x b [] = [] := by rw [fillAll]
private theorem fill_cons (a : Template) (as : List Template) :
    fillAll t d h x b (a :: as) = fill t d h x b a ++ fillAll t d h x b as := by rw [fillAll]
private theorem fill_lit (s : String) : fill t d h x b (lit s) = s.toList := by rw [fill]
private theorem fill_tag : fill t d h x b tag = t := by rw [fill]
private theorem fill_distance : fill t d h x b distance = dec d := by rw [fill]
private theorem fill_hex : fill t d h x b hex = h := by rw [fill]
private theorem fill_plus : fill t d h x b plus = if '+' ∈ t then ['.'] else ['+'] := by rw [fill]; rfl
private theorem fill_changed (as : List Template) : fill t d h x b (whenChanged as) =
    if (decide ((d : ℤ) ≠ 0) || x) then fillAll t d h x b as else [] := by
  rw [fill]
  by_cases h0 : d = 0 <;> cases x <;> simp [h0]
private theorem fill_away (as : List Template) : fill t d h x b (whenAway as) =
    if (d : ℤ) ≠ 0 then fillAll t d h x b as else [] := by
  rw [fill]
  by_cases h0 : d = 0 <;> simp [h0]
private theorem fill_dirty (as : List Template) : fill t d h x b (whenDirty as) =
    if x then fillAll t d h x b as else [] := by rw [fill]
private theorem fill_branch (as : List Template) : fill t d h x b (whenBranch as) =
    if b ≠ some "master".toList then fillAll t d h x b as else [] := by rw [fill]

end

private theorem ite_append (c : Prop) [Decidable c] (a b : Str) : (if c then a ++ b else a) = a ++ (if c then b else []) := by
  split <;> simp

/-- Every style but `pep440-pre` (C80) fills in the template of its docstring; only `pep440-post` without a tag also adds the
hash, which its docstring omits. -/
theorem C76_format (ext : DigitTable) (p : Pieces) (d : ℕ) (h : Str) (x : Bool) (b : Option Str) (style : String)
    (ts us : List Template) (hs : (style, ts, us) ∈ documented) :
    (∀ t, t ≠ [] → Has p (some t) d h x b → renderStyle ext p (some style) = .ok (Template.fillAll t d h x b ts)) ∧
    (Has p none d h x b → renderStyle ext p (some style) =
      .ok (Template.fillAll [] d h x b (if style = "pep440-post" then us ++ [.lit "+g", .hex] else us))) := by
  have hi : intStr (d : ℤ) = dec d := by rw [intStr_natCast, dec_eq]
  constructor
  · intro t ht hp
    obtain ⟨c, cs, rfl⟩ := List.exists_cons_of_ne_nil ht
    simp only [documented, List.mem_cons, List.not_mem_nil, or_false, Prod.mk.injEq] at hs
    rcases hs with ⟨rfl, rfl, -⟩ | ⟨rfl, rfl, -⟩ | ⟨rfl, rfl, -⟩ | ⟨rfl, rfl, -⟩ | ⟨rfl, rfl, -⟩ | ⟨rfl, rfl, -⟩ | ⟨rfl, rfl, -⟩ <;>
      rw [render_tagged ext hp (by decide) (by decide)] <;>
      simp only [tagged, fill_nil, fill_cons, fill_lit, fill_tag, fill_distance, fill_hex, fill_plus, fill_changed, fill_away,
        fill_dirty, fill_branch, hi, String.reduceEq, reduceIte, List.append_nil, List.append_assoc, ite_append]
  · intro hp
    simp only [documented, List.mem_cons, List.not_mem_nil, or_false, Prod.mk.injEq] at hs
    rcases hs with ⟨rfl, -, rfl⟩ | ⟨rfl, -, rfl⟩ | ⟨rfl, -, rfl⟩ | ⟨rfl, -, rfl⟩ | ⟨rfl, -, rfl⟩ | ⟨rfl, -, rfl⟩ | ⟨rfl, -, rfl⟩ <;>
      rw [render_untagged ext hp (.inl rfl) (by decide) (by decide)] <;>
      simp only [untagged, fill_nil, fill_cons, fill_lit, fill_distance, fill_hex, fill_dirty, fill_branch, hi, String.reduceEq, reduceIte, List.append_nil,
        List.cons_append, List.nil_append, List.append_assoc]

/-- In a clean checkout of a tag every style but `git-describe-long` gives the tag; otherwise no style gives it, except
that `pep440-pre` does not look at uncommitted changes. -/
theorem C76_release (ext : DigitTable) (p : Pieces) (t : Str) (ht : t ≠ []) (d : ℤ) (h : Str) (x : Bool) (b : Option Str)
    (hp : Has p (some t) d h x b) (style : String) (hs : style ∈ styles) :
    (style ≠ "pep440-pre" → style ≠ "git-describe-long" →
      (renderStyle ext p (some style) = .ok t ↔ d = 0 ∧ x = false)) ∧
    (style = "pep440-pre" → d = 0 → renderStyle ext p (some style) = .ok t) ∧
    (style = "git-describe-long" → renderStyle ext p (some style) ≠ .ok t) := by
  obtain ⟨c, cs, rfl⟩ := List.exists_cons_of_ne_nil ht
  refine ⟨fun hpre hlong => ?_, ?_, ?_⟩
  · rw [render_tagged ext hp hs hpre]
    have hm : (decide (d ≠ 0) || x) = true ↔ ¬ (d = 0 ∧ x = false) := by
      cases x <;> simp
    constructor
    · intro he
      by_contra hc
      have he := congrArg (fun r => match r with | Except.ok s => List.length s | .error _ => 0) he
      simp only [tagged, hm.2 hc, reduceIte] at he
      have hnot : d ≠ 0 ∨ x = true := by
        by_contra hcc
        push Not at hcc
        exact hc ⟨hcc.1, by simpa using hcc.2⟩
      have l1 : (intStr d).length ≠ 0 := by
        unfold intStr
        split
        · simp
        · simpa using natStr_ne_nil _
      have l2 : ".post".toList.length = 5 := rfl
      have l3 : (if '+' ∈ c :: cs then ['.'] else ['+'] : Str).length = 1 := by split <;> rfl
      have l4 : "-dirty".toList.length = 6 := rfl
      simp only [styles, List.mem_cons, List.not_mem_nil, or_false] at hs
      rcases hs with rfl | rfl | rfl | rfl | rfl | rfl | rfl | rfl
      all_goals first
        | exact absurd rfl hpre
        | exact absurd rfl hlong
        | simp only [String.reduceEq, reduceIte, List.length_append] at he; omega
        | skip
      simp only [String.reduceEq, reduceIte] at he
      rcases hnot with h0 | rfl
      · rw [if_pos h0] at he
        simp only [List.length_append] at he
        omega
      · simp only [reduceIte, List.length_append, l4] at he
        split at he <;> (try simp only [List.length_append] at he) <;> omega
    · rintro ⟨rfl, rfl⟩
      simp only [styles, List.mem_cons, List.not_mem_nil, or_false] at hs
      rcases hs with rfl | rfl | rfl | rfl | rfl | rfl | rfl | rfl
      all_goals first
        | exact absurd rfl hpre
        | exact absurd rfl hlong
        | simp only [tagged, String.reduceEq, reduceIte, ne_eq, not_true_eq_false, decide_false, Bool.or_false,
            Bool.false_eq_true, List.append_nil]
  · rintro rfl rfl
    have hst : renderStyle ext p (some "pep440-pre") = renderPep440Pre ext p := by
      simp only [renderStyle, String.reduceEq, reduceIte, or_self]
    rw [hst]
    simp only [renderPep440Pre, truthy_some hp, dist_eq hp, bind, Except.bind, pure, Except.pure, ne_eq,
      not_true_eq_false, reduceIte]
  · rintro rfl he
    rw [render_tagged ext hp hs (by decide)] at he
    have he := congrArg (fun r => match r with | Except.ok s => List.length s | .error _ => 0) he
    have l4 : "-g".toList.length = 2 := rfl
    simp only [tagged, String.reduceEq, reduceIte, List.length_append, l4] at he
    omega

/-- Every style but `pep440-pre` tells uncommitted changes apart. -/
theorem C76_dirty (ext : DigitTable) (p q : Pieces) (tag : Option Str) (d : ℤ) (h : Str) (b : Option Str)
    (hp : Has p tag d h true b) (hq : Has q tag d h false b) (style : String) (hs : style ∈ styles)
    (hpre : style ≠ "pep440-pre") : renderStyle ext p (some style) ≠ renderStyle ext q (some style) := by
  have l1 : ".dirty".toList.length = 6 := rfl
  have l2 : ".dev0".toList.length = 5 := rfl
  have l3 : "-dirty".toList.length = 6 := rfl
  have l4 : ∀ a : Str, (if '+' ∈ a then ['.'] else ['+'] : Str).length = 1 := by intro a; split <;> rfl
  have l5 : ([] : Str).length = 0 := rfl
  intro he
  by_cases ht : tag = none ∨ tag = some []
  · rw [render_untagged ext hp ht hs hpre, render_untagged ext hq ht hs hpre] at he
    have he := congrArg (fun r => match r with | Except.ok s => List.length s | .error _ => 0) he
    simp only [untagged] at he
    simp only [styles, List.mem_cons, List.not_mem_nil, or_false] at hs
    rcases hs with rfl | rfl | rfl | rfl | rfl | rfl | rfl | rfl
    all_goals first
      | exact absurd rfl hpre
      | simp only [String.reduceEq, reduceIte, List.length_append, l1, l2, l3, l5, Bool.false_eq_true] at he; omega
  · obtain ⟨c, cs, rfl⟩ : ∃ c cs, tag = some (c :: cs) := by
      match tag, ht with
      | none, ht => exact absurd (.inl rfl) ht
      | some [], ht => exact absurd (.inr rfl) ht
      | some (c :: cs), _ => exact ⟨c, cs, rfl⟩
    rw [render_tagged ext hp hs hpre, render_tagged ext hq hs hpre] at he
    have he := congrArg (fun r => match r with | Except.ok s => List.length s | .error _ => 0) he
    simp only [tagged] at he
    simp only [styles, List.mem_cons, List.not_mem_nil, or_false] at hs
    rcases hs with rfl | rfl | rfl | rfl | rfl | rfl | rfl | rfl <;> by_cases h0 : d = 0
    all_goals first
      | exact absurd rfl hpre
      | simp only [h0, ne_eq, not_true_eq_false, not_false_eq_true, decide_true, decide_false, Bool.or_true, Bool.or_false,
          String.reduceEq, reduceIte, List.length_append, l1, l2, l3, l4, l5, Bool.false_eq_true] at he; omega

/-- `pep440-pre` ignores uncommitted changes, the hash and the branch. -/
theorem C76_pre (ext : DigitTable) (p q : Pieces) (tag : Option Str) (d : ℤ) (h h' : Str) (x x' : Bool) (b b' : Option Str)
    (hp : Has p tag d h x b) (hq : Has q tag d h' x' b') :
    renderStyle ext p (some "pep440-pre") = renderStyle ext q (some "pep440-pre") := by
  have hst : ∀ p, renderStyle ext p (some "pep440-pre") = renderPep440Pre ext p := by
    intro p
    simp only [renderStyle, String.reduceEq, reduceIte, or_self]
  rw [hst, hst]
  simp only [renderPep440Pre, truthyTag, hp.tag, hq.tag, distStr, hp.distance, hq.distance]

/-- On the branch `master` the style `pep440-branch` is `pep440`. -/
theorem C76_branch (ext : DigitTable) (p : Pieces) (tag : Option Str) (d : ℤ) (h : Str) (x : Bool)
    (hp : Has p tag d h x (some "master".toList)) :
    renderStyle ext p (some "pep440-branch") = renderStyle ext p (some "pep440") := by
  have hs : "pep440" ∈ styles ∧ "pep440-branch" ∈ styles := by decide
  by_cases ht : tag = none ∨ tag = some []
  · rw [render_untagged ext hp ht hs.1 (by decide), render_untagged ext hp ht hs.2 (by decide)]
    simp only [untagged, String.reduceEq, reduceIte, ne_eq, not_true_eq_false, List.append_nil]
    rw [show "0+untagged.".toList = "0".toList ++ "+untagged.".toList by decide]
  · obtain ⟨c, cs, rfl⟩ : ∃ c cs, tag = some (c :: cs) := by
      match tag, ht with
      | none, ht => exact absurd (.inl rfl) ht
      | some [], ht => exact absurd (.inr rfl) ht
      | some (c :: cs), _ => exact ⟨c, cs, rfl⟩
    rw [render_tagged ext hp hs.1 (by decide), render_tagged ext hp hs.2 (by decide)]
    simp only [tagged, String.reduceEq, reduceIte, ne_eq, not_true_eq_false, List.append_nil]

/-- `None`, the empty string and `default` mean `pep440`. -/
theorem C76_default (ext : DigitTable) (p : Pieces) :
    render ext p none = render ext p (some "pep440") ∧ render ext p (some "") = render ext p (some "pep440") ∧
      render ext p (some "default") = render ext p (some "pep440") := by
  have h : ∀ s, s = none ∨ s = some "" ∨ s = some "default" → renderStyle ext p s = renderStyle ext p (some "pep440") := by
    rintro s (rfl | rfl | rfl) <;> simp only [renderStyle, String.reduceEq, reduceIte, or_self, true_or, or_true]
  refine ⟨?_, ?_, ?_⟩ <;> simp only [render, h none (.inl rfl), h (some "") (.inr (.inl rfl)),
    h (some "default") (.inr (.inr rfl))]

/-- Other styles raise `ValueError`, unless the pieces carry an error: then the version is `unknown` in every style. -/
theorem C76_unknown (ext : DigitTable) (p : Pieces) (style : String) :
    (p.error = some none → style ∉ styles → style ≠ "" → style ≠ "default" →
      render ext p (some style) = .error .valueError) ∧
    (∀ e, e ≠ [] → p.error = some (some e) →
      render ext p (some style) = .ok ⟨"unknown".toList, p.long, none, some e, none⟩) := by
  constructor
  · intro he hs h1 h2
    simp only [styles, List.mem_cons, List.not_mem_nil, or_false, not_or] at hs
    obtain ⟨s1, s2, s3, s4, s5, s6, s7, s8⟩ := hs
    simp only [render, key, he, bind, Except.bind, renderStyle, h1, h2, or_self, reduceIte, s1, s2, s3, s4, s5, s6, s7, s8]
  · intro e hne he
    obtain ⟨c, cs, rfl⟩ := List.exists_cons_of_ne_nil hne
    simp only [render, key, he, bind, Except.bind, pure, Except.pure]

example : Has (mk (some "1.0".toList) 3 "abc".toList true (some "master".toList)) (some "1.0".toList) 3 "abc".toList true
    (some "master".toList) := mk_has _ _ _ _ _

/-! ## C80: post-releases -/

private theorem post_eq : ".post".toList = ['.', 'p', 'o', 's', 't'] := rfl

private theorem split_post_none (v : Str) (hv : ¬ ".post".toList <:+: v) : split v ".post".toList = [v] := by
  rw [split, splitGo_none]
  · rfl
  · intro t _ hs hp
    exact hv (hp.isInfix.trans hs.isInfix)

private theorem split_post_cut (v rest : Str) (hv : ¬ ".post".toList <:+: v) :
    split (v ++ ".post".toList ++ rest) ".post".toList = v :: split rest ".post".toList := by
  rw [split, splitGo_cut _ (by simp)]
  · rfl
  · intro t ht hs hp
    by_cases hl : ".post".toList.length ≤ t.length
    · rw [List.append_assoc] at hp
      exact hv ((List.prefix_of_prefix_length_le hp (List.prefix_append t _) hl).isInfix.trans hs.isInfix)
    · rw [post_eq] at hp hl
      match t, ht with
      | [_], _ => simp at hp
      | [_, _], _ => simp at hp
      | [_, _, _], _ => simp at hp
      | [_, _, _, _], _ => simp at hp
      | _ :: _ :: _ :: _ :: _ :: _, _ => simp at hl

private theorem dec_no_post (n : ℕ) : ¬ ".post".toList <:+: dec n := by
  intro h
  have : '.' ∈ dec n := h.subset (by simp)
  rw [dec_eq] at this
  exact absurd (natStr_digit n _ this) (by decide)

/-- A version without `.post` is returned with `None`, `V.postN` is split into `V` and `N`, and `V.post` means `N = 0`. -/
theorem C80_split_partial (ext : DigitTable) (v : Str) (hv : ¬ ".post".toList <:+: v) (n : ℕ) :
    splitPost ext v = .ok (v, none) ∧ splitPost ext (v ++ ".post".toList ++ dec n) = .ok (v, some (n : ℤ)) ∧
      splitPost ext (v ++ ".post".toList) = .ok (v, some 0) := by
  refine ⟨?_, ?_, ?_⟩
  · rw [splitPost, split_post_none v hv]
    rfl
  · rw [splitPost, split_post_cut v _ hv, split_post_none _ (dec_no_post n)]
    have hne : (dec n).isEmpty = false := by
      rw [dec_eq]; simpa using natStr_ne_nil n
    simp only [hne, bind, Except.bind, Bool.false_eq_true, reduceIte]
    rw [dec_eq, pyInt_natStr]
    rfl
  · have := split_post_cut v [] hv
    rw [List.append_nil] at this
    rw [splitPost, this, split_post_none [] (by decide)]
    rfl

/-- The documentation of `pep440_split_post` says that the number is -1 if there is no post-release; the code returns `None`. -/
theorem C80_false : ¬ ∀ (ext : DigitTable) (v : Str), ¬ ".post".toList <:+: v → splitPost ext v = .ok (v, some (-1)) := by
  intro h
  have h1 : ¬ ".post".toList <:+: "1.0".toList := by decide
  have := h (fun _ => none) "1.0".toList h1
  rw [(C80_split_partial (fun _ => none) _ h1 0).1] at this
  simp at this

/-- The style `pep440-pre` counts the post-release up: `V` becomes `V.post0.devD` and `V.postN` becomes `V.post(N+1).devD`. -/
theorem C80_pre_partial (ext : DigitTable) (p : Pieces) (v : Str) (hv : ¬ ".post".toList <:+: v) (n d : ℕ) (hd : d ≠ 0)
    (h : Str) (x : Bool) (b : Option Str) :
    (v ≠ [] → Has p (some v) d h x b →
      renderStyle ext p (some "pep440-pre") = .ok (v ++ ".post0.dev".toList ++ dec d)) ∧
    (Has p (some (v ++ ".post".toList ++ dec n)) d h x b →
      renderStyle ext p (some "pep440-pre") = .ok (v ++ ".post".toList ++ dec (n + 1) ++ ".dev".toList ++ dec d)) := by
  have hst : renderStyle ext p (some "pep440-pre") = renderPep440Pre ext p := by
    simp only [renderStyle, String.reduceEq, reduceIte, or_self]
  have hd' : (d : ℤ) ≠ 0 := by exact_mod_cast hd
  rw [hst]
  constructor
  · intro hne hp
    obtain ⟨c, cs, rfl⟩ := List.exists_cons_of_ne_nil hne
    simp only [renderPep440Pre, truthy_some hp, dist_eq hp, bind, Except.bind, pure, Except.pure, if_pos hd',
      (C80_split_partial ext _ hv n).1, intStr_natCast, dec_eq]
  · intro hp
    have ht : truthyTag p = .ok (some (v ++ ".post".toList ++ dec n)) := by
      cases hv' : v ++ ".post".toList ++ dec n with
      | nil => simp at hv'
      | cons c cs =>
        rw [hv'] at hp
        exact truthy_some hp
    simp only [renderPep440Pre, ht, dist_eq hp, bind, Except.bind, pure, Except.pure, if_pos hd',
      (C80_split_partial ext _ hv n).2.1]
    rw [show ((n : ℤ) + 1) = ((n + 1 : ℕ) : ℤ) by push_cast; rfl, intStr_natCast, intStr_natCast, dec_eq, dec_eq]

/-- Other tags are not kept: a post-release with a local identifier raises `ValueError`, and of a tag with `.post` twice
everything after the first one is lost. -/
theorem C80_other :
    renderStyle (fun _ => none) (mk (some "1.0.post1+x".toList) 3 "abc".toList false none) (some "pep440-pre") =
      .error .valueError ∧
    renderStyle (fun _ => none) (mk (some "1.0.post1.post2".toList) 3 "abc".toList false none) (some "pep440-pre") =
      .ok "1.0.post0.dev3".toList := by
  have hst : ∀ p, renderStyle (fun _ => none) p (some "pep440-pre") = renderPep440Pre (fun _ => none) p := by
    intro p
    simp only [renderStyle, String.reduceEq, reduceIte, or_self]
  have hv : ¬ ".post".toList <:+: "1.0".toList := by decide
  rw [hst, hst]
  constructor
  · have h1 : splitPost (fun _ => none) "1.0.post1+x".toList = .error .valueError := by
      have e : "1.0.post1+x".toList = "1.0".toList ++ ".post".toList ++ "1+x".toList := by decide
      rw [e, splitPost, split_post_cut _ _ hv, split_post_none _ (by decide)]
      rfl
    have hp := mk_has (some "1.0.post1+x".toList) 3 "abc".toList false none
    have h2 : truthyTag (mk (some "1.0.post1+x".toList) 3 "abc".toList false none) = .ok (some "1.0.post1+x".toList) := by
      rw [show "1.0.post1+x".toList = '1' :: ".0.post1+x".toList by decide] at hp ⊢
      exact truthy_some hp
    simp only [renderPep440Pre, h2, dist_eq hp, h1, bind, Except.bind, pure, Except.pure]
    rw [if_pos (by decide)]
  · have h1 : splitPost (fun _ => none) "1.0.post1.post2".toList = .ok ("1.0".toList, none) := by
      have e : "1.0.post1.post2".toList = "1.0".toList ++ ".post".toList ++ ("1".toList ++ ".post".toList ++ "2".toList) := by
        decide
      rw [e, splitPost, split_post_cut _ _ hv, split_post_cut _ _ (by decide), split_post_none _ (by decide)]
      rfl
    have hp := mk_has (some "1.0.post1.post2".toList) 3 "abc".toList false none
    have h2 : truthyTag (mk (some "1.0.post1.post2".toList) 3 "abc".toList false none) = .ok (some "1.0.post1.post2".toList) := by
      rw [show "1.0.post1.post2".toList = '1' :: ".0.post1.post2".toList by decide] at hp ⊢
      exact truthy_some hp
    simp only [renderPep440Pre, h2, dist_eq hp, h1, bind, Except.bind, pure, Except.pure]
    rw [if_pos (by decide), show intStr 3 = "3".toList from (intStr_natCast 3).trans ((dec_eq 3).symm.trans rfl)]
    decide

example : ¬ ".post".toList <:+: "1.0".toList := by decide

end Snompy.Props
