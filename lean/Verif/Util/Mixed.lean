import Verif.Util.Model
import Verif.Basic
/-! # `min`, `max` and `minmax` (C98)

`min` and `max` take arguments of two types and return the first; `minmax` takes a list. -/
namespace Ustl.Util
variable {α : Type}

/-! ## Integers of different types -/

/-- An integer type. -/
structure CInt where
  /-- width: 8, 16, 32 or 64 -/
  bits : Nat
  /-- signed -/
  sgn : Bool
deriving DecidableEq, Repr

/-- The types of the language have these widths. -/
def CInt.Real (t : CInt) : Prop := t.bits = 8 ∨ t.bits = 16 ∨ t.bits = 32 ∨ t.bits = 64

/-- `v` is a value of the type. -/
def CInt.Has (t : CInt) (v : Int) : Prop := if t.sgn then -2 ^ (t.bits - 1) ≤ v ∧ v < 2 ^ (t.bits - 1) else 0 ≤ v ∧ v < 2 ^ t.bits

/-- Conversion to the type (C++ [conv.integral]): modulo 2^bits. -/
def CInt.conv (t : CInt) (v : Int) : Int := if t.sgn then (v + 2 ^ (t.bits - 1)) % 2 ^ t.bits - 2 ^ (t.bits - 1) else v % 2 ^ t.bits

/-- Integral promotion (C++ [conv.prom]). -/
def CInt.promote (t : CInt) : CInt := if t.bits < 32 then ⟨32, true⟩ else t

/-- The usual arithmetic conversions (C++ [expr]/11), for promoted types. -/
def CInt.common' (a b : CInt) : CInt :=
  if a.sgn = b.sgn then ⟨max a.bits b.bits, a.sgn⟩
  else
    let u := if a.sgn then b else a
    let s := if a.sgn then a else b
    if s.bits ≤ u.bits then u else s

/-- The type in which `a < b` and `a < b ? a : b` are computed. -/
def CInt.common (a b : CInt) : CInt := CInt.common' a.promote b.promote

/-- `min (a, b)` of a `ta` and a `tb`. Models uutility.h:48-50. -/
def minC (ta tb : CInt) (a b : Int) : Int :=
  let c := CInt.common ta tb
  ta.conv (if c.conv a < c.conv b then c.conv a else c.conv b)

/-- `max (a, b)` of a `ta` and a `tb`. Models uutility.h:53-55. -/
def maxC (ta tb : CInt) (a b : Int) : Int :=
  let c := CInt.common ta tb
  ta.conv (if c.conv b < c.conv a then c.conv a else c.conv b)

theorem conv_has {t : CInt} (ht : t.Real) {v : Int} (h : t.Has v) : t.conv v = v := by
  obtain ⟨n, s⟩ := t
  unfold CInt.Real at ht
  unfold CInt.Has at h
  unfold CInt.conv
  dsimp only at ht h ⊢
  cases s <;> rcases ht with rfl | rfl | rfl | rfl <;> simp at h ⊢ <;> omega

theorem common_real {ta tb : CInt} (ha : ta.Real) (hb : tb.Real) : (CInt.common ta tb).Real := by
  obtain ⟨n, s⟩ := ta
  obtain ⟨m, r⟩ := tb
  rcases ha with ha | ha | ha | ha <;> rcases hb with hb | hb | hb | hb <;> (dsimp only at ha hb; subst ha; subst hb) <;> cases s <;> cases r <;> simp [CInt.common, CInt.promote, CInt.common', CInt.Real]

/-- The unsigned type of the two is narrower than `int`, or than the signed type. -/
def CInt.Narrow (a b : CInt) : Prop := (a.sgn = false → a.bits < 32 ∨ a.bits < b.bits) ∧ (b.sgn = false → b.bits < 32 ∨ b.bits < a.bits)

/-- The common type has both values if neither is negative, the types have the same sign, or the unsigned type is narrow. -/
theorem common_has {ta tb : CInt} (ha : ta.Real) (hb : tb.Real) {a b : Int} (va : ta.Has a) (vb : tb.Has b) (h : ta.sgn = tb.sgn ∨ CInt.Narrow ta tb ∨ 0 ≤ a ∧ 0 ≤ b) :
    (CInt.common ta tb).Has a ∧ (CInt.common ta tb).Has b := by
  obtain ⟨n, s⟩ := ta
  obtain ⟨m, r⟩ := tb
  rcases ha with ha | ha | ha | ha <;> rcases hb with hb | hb | hb | hb <;> (dsimp only at ha hb; subst ha; subst hb) <;> cases s <;> cases r <;>
    simp [CInt.common, CInt.promote, CInt.common', CInt.Has, CInt.Narrow] at va vb h ⊢ <;> omega

/-- **C98**: `min` is the lesser and `max` the greater of the two numbers, if neither is negative, or both types are signed or both unsigned, or the unsigned
type is narrower than `int` or than the signed type, and if the result is a value of the first type. -/
theorem min_max_partial {ta tb : CInt} (ha : ta.Real) (hb : tb.Real) {a b : Int} (va : ta.Has a) (vb : tb.Has b) (h : ta.sgn = tb.sgn ∨ CInt.Narrow ta tb ∨ 0 ≤ a ∧ 0 ≤ b) :
    (ta.Has (min a b) → minC ta tb a b = min a b) ∧ (ta.Has (max a b) → maxC ta tb a b = max a b) := by
  obtain ⟨h1, h2⟩ := common_has ha hb va vb h
  have c1 := conv_has (common_real ha hb) h1
  have c2 := conv_has (common_real ha hb) h2
  unfold minC maxC
  simp only [c1, c2]
  refine ⟨fun hm => ?_, fun hm => ?_⟩
  · rw [show (if a < b then a else b) = min a b by split <;> omega, conv_has ha hm]
  · rw [show (if b < a then a else b) = max a b by split <;> omega, conv_has ha hm]

/-- **C98**: `min` is always right for numbers that are not negative; both are for numbers of one type. -/
theorem min_max_right {ta tb : CInt} (ha : ta.Real) (hb : tb.Real) {a b : Int} (va : ta.Has a) (vb : tb.Has b) :
    (0 ≤ a → 0 ≤ b → minC ta tb a b = min a b) ∧ (ta = tb → minC ta tb a b = min a b ∧ maxC ta tb a b = max a b) := by
  refine ⟨fun h1 h2 => (min_max_partial ha hb va vb (.inr (.inr ⟨h1, h2⟩))).1 ?_, ?_⟩
  · unfold CInt.Has at va ⊢
    have : (0 : Int) ≤ 2 ^ (ta.bits - 1) := Int.pow_nonneg (by decide)
    split at va <;> simp [*] <;> omega
  · rintro rfl
    have h := min_max_partial ha hb va vb (.inl rfl)
    refine ⟨h.1 ?_, h.2 ?_⟩
    · rcases Int.le_total a b with hh | hh
      · rw [Int.min_eq_left hh]; exact va
      · rw [Int.min_eq_right hh]; exact vb
    · rcases Int.le_total a b with hh | hh
      · rw [Int.max_eq_right hh]; exact vb
      · rw [Int.max_eq_left hh]; exact va

/-- A `uint16_t` and a negative `int8_t`. -/
example : minC ⟨8, true⟩ ⟨16, false⟩ (-1) 1000 = -1 := by
  have := (min_max_partial (ta := ⟨8, true⟩) (tb := ⟨16, false⟩) (.inl rfl) (.inr (.inl rfl)) (a := -1) (b := 1000) (by simp [CInt.Has]) (by simp [CInt.Has])
    (.inr (.inl (by simp [CInt.Narrow])))).1 (by rw [show min (-1 : Int) 1000 = -1 from rfl]; simp [CInt.Has])
  rw [this]; rfl

/-- A `uint8_t` and an `int`. -/
example : minC ⟨8, false⟩ ⟨32, true⟩ 200 1000 = 200 := by
  have := (min_max_right (ta := ⟨8, false⟩) (tb := ⟨32, true⟩) (.inl rfl) (.inr (.inr (.inl rfl))) (a := 200) (b := 1000) (by simp [CInt.Has]) (by simp [CInt.Has])).1 (by decide) (by decide)
  rw [this]; rfl

/-- **C98** is false of `min` and `max` otherwise: a negative `int` is not less than any `unsigned`; a result that is no value of the first type is cut. For any
negative `a`, `min (int (a), 5u)` is 5. -/
theorem min_max_violated :
    (∀ a : Int, CInt.Has ⟨32, true⟩ a → a < 0 → minC ⟨32, true⟩ ⟨32, false⟩ a 5 = 5 ∧ maxC ⟨32, true⟩ ⟨32, false⟩ a 5 = a) ∧
    (∀ b : Int, CInt.Has ⟨32, true⟩ b → 255 < b → maxC ⟨8, false⟩ ⟨32, true⟩ 5 b ≤ 255) ∧ minC ⟨8, false⟩ ⟨32, true⟩ 5 (-1) = 255 ∧ maxC ⟨8, false⟩ ⟨32, true⟩ 5 256 = 0 := by
  refine ⟨fun a va h => ?_, fun b vb h => ?_, by decide, by decide⟩
  · simp [CInt.Has] at va
    simp [minC, maxC, CInt.common, CInt.promote, CInt.common', CInt.conv]
    constructor <;> split <;> omega
  · simp [maxC, CInt.common, CInt.promote, CInt.common', CInt.conv]
    omega

/-! ## Lists -/

/-- `minmax ({…})`; `none`: the list is empty, and `*l.begin()` is not there. Models ualgo.h:651-660. -/
def minmaxL (lt : α → α → Bool) : List α → Option (α × α)
  | [] => none
  | x :: l => some ((x :: l).foldl (fun r i => (min' lt r.1 i, max' lt r.2 i)) (x, x))

/-- `minmax ({…}, comp)`. Models ualgo.h:661-672. -/
def minmaxLC (comp : α → α → Bool) : List α → Option (α × α)
  | [] => none
  | x :: l => some ((x :: l).foldl (fun r i => (if comp i r.1 then i else r.1, if comp r.2 i then i else r.2)) (x, x))

/-- `y` is the first of the least elements of `l`. -/
def FirstLeast (lt : α → α → Bool) (l : List α) (y : α) : Prop := ∃ pre post, l = pre ++ y :: post ∧ (∀ z ∈ pre, lt y z = true) ∧ ∀ z ∈ post, lt z y = false

/-- `y` is the last of the least elements of `l`. -/
def LastLeast (lt : α → α → Bool) (l : List α) (y : α) : Prop := ∃ pre post, l = pre ++ y :: post ∧ (∀ z ∈ pre, lt z y = false) ∧ ∀ z ∈ post, lt y z = true

theorem last_fold {lt : α → α → Bool} (h : StrictWeak lt) : ∀ (l seen : List α) (r : α), LastLeast lt seen r →
    LastLeast lt (seen ++ l) (l.foldl (fun r i => if lt r i then r else i) r)
  | [], seen, r, hr => by rw [List.append_nil]; exact hr
  | i :: l, seen, r, ⟨pre, post, e, h1, h2⟩ => by
    have : LastLeast lt (seen ++ [i]) (if lt r i then r else i) := by
      split
      · rename_i hi
        exact ⟨pre, post ++ [i], by simp [e], h1, by simpa [or_imp, forall_and] using ⟨h2, hi⟩⟩
      · rename_i hi
        have hi : lt r i = false := by simpa using hi
        refine ⟨seen, [], rfl, fun z hz => ?_, by simp⟩
        rw [e] at hz
        rcases List.mem_append.1 hz with hz | hz
        · exact h.le_trans hi (h1 z hz)
        · rcases List.mem_cons.1 hz with rfl | hz
          · exact hi
          · exact h.le_trans hi (h.asymm (h2 z hz))
    have := last_fold h l _ _ this
    rwa [List.append_assoc] at this

theorem first_fold {lt : α → α → Bool} (h : StrictWeak lt) : ∀ (l seen : List α) (r : α), FirstLeast lt seen r →
    FirstLeast lt (seen ++ l) (l.foldl (fun r i => if lt i r then i else r) r)
  | [], seen, r, hr => by rw [List.append_nil]; exact hr
  | i :: l, seen, r, ⟨pre, post, e, h1, h2⟩ => by
    have : FirstLeast lt (seen ++ [i]) (if lt i r then i else r) := by
      split
      · rename_i hi
        refine ⟨seen, [], rfl, fun z hz => ?_, by simp⟩
        rw [e] at hz
        rcases List.mem_append.1 hz with hz | hz
        · exact h.trans _ _ _ hi (h1 z hz)
        · rcases List.mem_cons.1 hz with rfl | hz
          · exact hi
          · exact h.lt_of_lt_of_le hi (h2 z hz)
      · rename_i hi
        exact ⟨pre, post ++ [i], by simp [e], h1, by simpa [or_imp, forall_and] using ⟨h2, by simpa using hi⟩⟩
    have := first_fold h l _ _ this
    rwa [List.append_assoc] at this

theorem fold_pair (f g : α → α → α) : ∀ (l : List α) (r : α × α), l.foldl (fun r i => (f r.1 i, g r.2 i)) r = (l.foldl f r.1, l.foldl g r.2)
  | [], _ => rfl
  | i :: l, r => by simp [fold_pair f g l]

/-- **C98** `minmax` of a list that is not empty: the last of its least and the last of its greatest elements; with a comparison, the first of each. -/
theorem minmax_list {lt : α → α → Bool} (h : StrictWeak lt) (l : List α) (hne : l ≠ []) :
    (∃ lo hi, minmaxL lt l = some (lo, hi) ∧ LastLeast lt l lo ∧ LastLeast (fun a b => lt b a) l hi) ∧
    (∃ lo hi, minmaxLC lt l = some (lo, hi) ∧ FirstLeast lt l lo ∧ FirstLeast (fun a b => lt b a) l hi) := by
  cases l with
  | nil => exact absurd rfl hne
  | cons x l =>
    have hL : ∀ lt' : α → α → Bool, LastLeast lt' [x] x := fun _ => ⟨[], [], rfl, by simp, by simp⟩
    have hF : ∀ lt' : α → α → Bool, FirstLeast lt' [x] x := fun _ => ⟨[], [], rfl, by simp, by simp⟩
    constructor
    · refine ⟨_, _, congrArg some (fold_pair (min' lt) (max' lt) (x :: l) (x, x)), ?_, ?_⟩
      · have := last_fold h l [x] x (hL _)
        have e : min' lt = fun r i => if lt r i then r else i := rfl
        rw [e]
        simpa using this
      · have := last_fold h.flip l [x] x (hL _)
        have e : max' lt = fun r i => if lt i r then r else i := rfl
        rw [e]
        simpa using this
    · refine ⟨_, _, congrArg some (fold_pair (fun r i => if lt i r then i else r) (fun r i => if lt r i then i else r) (x :: l) (x, x)), ?_, ?_⟩
      · have := first_fold h l [x] x (hF _)
        simpa using this
      · have := first_fold h.flip l [x] x (hF _)
        simpa using this

/-- The numbers 3, 1, 2. -/
example : minmaxL (fun a b : Nat => decide (a < b)) [3, 1, 2] = some (1, 3) ∧ minmaxLC (fun a b : Nat => decide (b < a)) [3, 1, 2] = some (3, 1) := by decide

/-- **C98** is false of the choice among equivalent elements: C++ has the first least and the last greatest; `minmax ({…})` takes the last least, `minmax ({…}, comp)`
the first greatest, so the two disagree on the same order. -/
theorem minmax_equivalent_violated {lt : α → α → Bool} (h : StrictWeak lt) {a b : α} (e1 : lt a b = false) (e2 : lt b a = false) :
    minmaxL lt [a, b] = some (b, b) ∧ minmaxLC lt [a, b] = some (a, a) := by
  have ha := h.irrefl a
  simp [minmaxL, minmaxLC, min', max', ha, e1, e2]

/-- Pairs compared by the first number. -/
example : minmaxL (fun a b : Nat × Nat => decide (a.1 < b.1)) [(1, 1), (1, 2)] = some ((1, 2), (1, 2)) := by decide

end Ustl.Util
