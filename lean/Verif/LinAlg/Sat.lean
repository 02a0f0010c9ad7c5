import Verif.LinAlg.Props
import Mathlib.Tactic.Linarith
import Mathlib.Tactic.NormNum
/-!
# Saturating and averaging functors of simd.h (C61)

The arithmetic of C++ is modelled: types of less than 32 bits are promoted to `int` (32 bits, in which these sums cannot overflow)
and the result is cut to the type; unsigned types of 32 or 64 bits wrap; overflow of signed types of 32 or 64 bits is undefined
(`none`).
-/
namespace Ustl.LinAlg

/-- An integer type. -/
structure ITy where
  bits : Nat
  sgn : Bool
deriving DecidableEq

/-- `numeric_limits<T>::max()`. Models ulimits.h:223-279. -/
def ITy.max (t : ITy) : Int := if t.sgn then 2 ^ (t.bits - 1) - 1 else 2 ^ t.bits - 1

/-- `numeric_limits<T>::min()`. Models ulimits.h:223-279. -/
def ITy.min (t : ITy) : Int := if t.sgn then - 2 ^ (t.bits - 1) else 0

/-- A value of the type. -/
def ITy.Fits (t : ITy) (v : Int) : Prop := t.min ≤ v ∧ v ≤ t.max

instance (t : ITy) (v : Int) : Decidable (t.Fits v) := inferInstanceAs (Decidable (_ ∧ _))

/-- The types the library has functors for. -/
def ITy.all : List ITy := [⟨8, true⟩, ⟨8, false⟩, ⟨16, true⟩, ⟨16, false⟩, ⟨32, true⟩, ⟨32, false⟩, ⟨64, true⟩, ⟨64, false⟩]

/-- The result of arithmetic on two values of the type, in the type the arithmetic is done in. -/
def ITy.arith (t : ITy) (r : Int) : Option Int :=
  if t.bits < 32 then some r else if t.sgn then (if t.Fits r then some r else none) else some (r % 2 ^ t.bits)

/-- The conversion of the result back to the type. -/
def ITy.cut (t : ITy) (r : Int) : Int := (r - t.min) % 2 ^ t.bits + t.min

/-- `fpadds`: `(b > max - a) ? max : a + b`. Models simd.h:87. -/
def fpadds (t : ITy) (a b : Int) : Option Int := do
  let d ← t.arith (t.max - a)
  if b > d then some t.max
  else do
    let s ← t.arith (a + b)
    some (t.cut s)

/-- `fpsubs`: `(a < min + b) ? min : a - b`. Models simd.h:88. -/
def fpsubs (t : ITy) (a b : Int) : Option Int := do
  let d ← t.arith (t.min + b)
  if a < d then some t.min
  else do
    let s ← t.arith (a - b)
    some (t.cut s)

/-- `fpavg`: `(a + b + 1) / 2`; `/` cuts towards zero. Models simd.h:93. -/
def fpavg (t : ITy) (a b : Int) : Option Int := do
  let s ← t.arith (a + b)
  let s ← t.arith (s + 1)
  some (t.cut (Int.tdiv s 2))

/-- The MMX instructions `paddsb`, `paddusb`, `paddsw`, `paddusw` do this, by the manual. Models simd.h:275-276, 284-285, 296-297, 307-308. -/
def mmxAdds (t : ITy) (a b : Int) : Int := if a + b > t.max then t.max else if a + b < t.min then t.min else a + b

/-- `psubsb`, `psubusb`, `psubsw`, `psubusw`. Models simd.h:275-276, 284-285, 296-297, 307-308. -/
def mmxSubs (t : ITy) (a b : Int) : Int := if a - b > t.max then t.max else if a - b < t.min then t.min else a - b

/-- `pavgb`, `pavgw`: the values are taken as unsigned, also for the signed types. Models simd.h:345-348. -/
def mmxAvg (t : ITy) (a b : Int) : Int := t.cut ((a % 2 ^ t.bits + b % 2 ^ t.bits + 1) / 2)

/-- What saturation means: the value of the type nearest to the true result. -/
def Nearest (t : ITy) (x r : Int) : Prop := t.Fits r ∧ ∀ v, t.Fits v → |x - r| ≤ |x - v|

theorem nearest_clamp (t : ITy) (h : t.min ≤ t.max) (x : Int) : Nearest t x (if x > t.max then t.max else if x < t.min then t.min else x) := by
  unfold Nearest ITy.Fits
  split
  · refine ⟨⟨h, Int.le_refl _⟩, fun v hv => ?_⟩
    rw [abs_of_nonneg (by omega), abs_of_nonneg (by omega)]; omega
  · split
    · refine ⟨⟨Int.le_refl _, h⟩, fun v hv => ?_⟩
      rw [abs_of_nonpos (by omega), abs_of_nonpos (by omega)]; omega
    · refine ⟨⟨by omega, by omega⟩, fun v hv => ?_⟩
      rw [Int.sub_self, abs_zero]; exact abs_nonneg _

theorem limits {t : ITy} (ht : t ∈ ITy.all) : t.min ≤ t.max ∧ t.max - t.min + 1 = 2 ^ t.bits ∧ (t.bits < 32 → 2 ^ t.bits ≤ (65536 : Int)) ∧
    (t.sgn = false → t.min = 0) ∧ (t.sgn = true → t.min < 0 ∧ t.max = - t.min - 1) := by
  revert t; decide

theorem cut_fits {t : ITy} (ht : t ∈ ITy.all) {v : Int} (h : t.Fits v) : t.cut v = v := by
  obtain ⟨h1, h2, _⟩ := limits ht
  rw [ITy.cut, ← h2, Int.emod_eq_of_lt (by have := h.1; omega) (by have := h.2; omega)]
  omega

theorem arith_fits {t : ITy} (ht : t ∈ ITy.all) {v : Int} (h : t.Fits v) : t.arith v = some v := by
  obtain ⟨h1, h2, _, h4, _⟩ := limits ht
  rw [ITy.arith]
  split
  · rfl
  · split
    · rfl
    · rename_i hs
      have h0 := h4 (by simpa using hs)
      rw [Int.emod_eq_of_lt (by have := h.1; omega) (by have := h.2; omega)]

/-- **C61**: the MMX versions saturate. -/
theorem mmxAdds_spec {t : ITy} (ht : t ∈ ITy.all) (a b : Int) : Nearest t (a + b) (mmxAdds t a b) := nearest_clamp t (limits ht).1 _

/-- **C61**: the MMX versions saturate. -/
theorem mmxSubs_spec {t : ITy} (ht : t ∈ ITy.all) (a b : Int) : Nearest t (a - b) (mmxSubs t a b) := nearest_clamp t (limits ht).1 _

/-- **C61** (partial): `fpadds` saturates if its first argument is not negative: for every unsigned type, and for half the values of
a signed one. What is missing: see `fpadds_violated` and `fpadds_int_violated`. -/
theorem fpadds_partial {t : ITy} (ht : t ∈ ITy.all) {a b : Int} (ha : t.Fits a) (hb : t.Fits b) (h0 : 0 ≤ a) :
    ∃ r, fpadds t a b = some r ∧ Nearest t (a + b) r ∧ r = mmxAdds t a b := by
  obtain ⟨h1, h2, _, h4, h5⟩ := limits ht
  have hmin : t.min ≤ 0 := by cases hs : t.sgn with
    | false => rw [h4 hs]
    | true => have := h5 hs; omega
  have hd : t.Fits (t.max - a) := ⟨by have := ha.2; omega, by omega⟩
  have hn := mmxAdds_spec ht a b
  refine ⟨mmxAdds t a b, ?_, hn, rfl⟩
  rw [fpadds, arith_fits ht hd]
  simp only [Option.bind_eq_bind, Option.bind_some]
  by_cases hc : b > t.max - a
  · rw [if_pos hc, mmxAdds, if_pos (by omega)]
  · have hf : t.Fits (a + b) := ⟨by have := hb.1; omega, by omega⟩
    rw [if_neg hc, arith_fits ht hf, Option.bind_some, cut_fits ht hf, mmxAdds, if_neg (by omega), if_neg (by have := hf.1; omega)]

example : fpadds ⟨8, false⟩ 200 100 = some 255 ∧ fpadds ⟨16, true⟩ 32000 1000 = some 32767 ∧ fpadds ⟨8, true⟩ 100 (-128) = some (-28) := by decide

/-- **C61** is false for `fpadds` of signed bytes and shorts when both are negative: it wraps. -128 + -128 is 0. -/
theorem fpadds_violated : fpadds ⟨8, true⟩ (-128) (-128) = some 0 ∧ fpadds ⟨16, true⟩ (-32768) (-1) = some 32767 ∧ mmxAdds ⟨8, true⟩ (-128) (-128) = -128 := by decide

/-- **C61** is false for `fpadds` of `int` and `long`: for every negative first argument it overflows, whatever the second. -/
theorem fpadds_int_violated {t : ITy} (hw : 32 ≤ t.bits) (hs : t.sgn = true) {a : Int} (ha : a < 0) (b : Int) : fpadds t a b = none := by
  rw [fpadds, ITy.arith, if_neg (by omega), if_pos hs, if_neg (by intro h; have := h.2; omega)]
  rfl

/-- **C61** (partial): `fpsubs` saturates if its second argument is not negative. What is missing: see `fpsubs_violated` and
`fpsubs_int_violated`. -/
theorem fpsubs_partial {t : ITy} (ht : t ∈ ITy.all) {a b : Int} (ha : t.Fits a) (hb : t.Fits b) (h0 : 0 ≤ b) :
    ∃ r, fpsubs t a b = some r ∧ Nearest t (a - b) r ∧ r = mmxSubs t a b := by
  obtain ⟨h1, h2, _, h4, h5⟩ := limits ht
  have hmin : t.min ≤ 0 := by cases hs : t.sgn with
    | false => rw [h4 hs]
    | true => have := h5 hs; omega
  have hd : t.Fits (t.min + b) := ⟨by omega, by have := hb.2; omega⟩
  refine ⟨mmxSubs t a b, ?_, mmxSubs_spec ht a b, rfl⟩
  rw [fpsubs, arith_fits ht hd]
  simp only [Option.bind_eq_bind, Option.bind_some]
  by_cases hc : a < t.min + b
  · rw [if_pos hc, mmxSubs, if_neg (by omega), if_pos (by omega)]
  · have hf : t.Fits (a - b) := ⟨by omega, by have := ha.2; omega⟩
    rw [if_neg hc, arith_fits ht hf, Option.bind_some, cut_fits ht hf, mmxSubs, if_neg (by have := hf.2; omega), if_neg (by have := hf.1; omega)]

example : fpsubs ⟨8, false⟩ 100 200 = some 0 ∧ fpsubs ⟨16, true⟩ (-32000) 1000 = some (-32768) := by decide

/-- **C61** is false for `fpsubs` of signed bytes and shorts: 127 - -128 is -1. -/
theorem fpsubs_violated : fpsubs ⟨8, true⟩ 127 (-128) = some (-1) ∧ fpsubs ⟨16, true⟩ 32767 (-1) = some (-32768) ∧ mmxSubs ⟨8, true⟩ 127 (-128) = 127 := by decide

/-- **C61** is false for `fpsubs` of `int` and `long`: for every negative second argument it overflows. -/
theorem fpsubs_int_violated {t : ITy} (hw : 32 ≤ t.bits) (hs : t.sgn = true) (a : Int) {b : Int} (hb : b < 0) : fpsubs t a b = none := by
  rw [fpsubs, ITy.arith, if_neg (by omega), if_pos hs, if_neg (by intro h; have := h.1; omega)]
  rfl

/-- The average, rounded up. -/
def IsAvg (a b r : Int) : Prop := a + b ≤ 2 * r ∧ 2 * r ≤ a + b + 1

/-- **C61** (partial): `fpavg` is the average, rounded up, for unsigned bytes and shorts, and for signed ones whose sum is not negative; with
MMX the same. What is missing: wider types, which wrap, and negative sums. -/
theorem fpavg_partial {t : ITy} (ht : t ∈ ITy.all) (hw : t.bits < 32) {a b : Int} (ha : t.Fits a) (hb : t.Fits b) (h0 : 0 ≤ a + b) :
    ∃ r, fpavg t a b = some r ∧ IsAvg a b r := by
  obtain ⟨h1, h2, h3, h4, h5⟩ := limits ht
  have hmin : t.min ≤ 0 := by cases hs : t.sgn with
    | false => rw [h4 hs]
    | true => have := h5 hs; omega
  have e : Int.tdiv (a + b + 1) 2 = (a + b + 1) / 2 := Int.tdiv_eq_ediv_of_nonneg (by omega)
  have hf : t.Fits ((a + b + 1) / 2) := ⟨by omega, by have := ha.2; have := hb.2; omega⟩
  refine ⟨(a + b + 1) / 2, ?_, by unfold IsAvg; omega⟩
  simp only [fpavg, ITy.arith, if_pos hw, Option.bind_eq_bind, Option.bind_some]
  rw [e, cut_fits ht hf]

example : fpavg ⟨8, false⟩ 255 254 = some 255 ∧ fpavg ⟨16, true⟩ 10 (-3) = some 4 := by decide

/-- **C61**: with MMX `pavg` of unsigned bytes and shorts is the average. -/
theorem mmxAvg_spec {t : ITy} (ht : t ∈ ITy.all) (hs : t.sgn = false) {a b : Int} (ha : t.Fits a) (hb : t.Fits b) : IsAvg a b (mmxAvg t a b) := by
  obtain ⟨h1, h2, h3, h4, h5⟩ := limits ht
  have hm := h4 hs
  have e1 : a % 2 ^ t.bits = a := Int.emod_eq_of_lt (by have := ha.1; omega) (by have := ha.2; omega)
  have e2 : b % 2 ^ t.bits = b := Int.emod_eq_of_lt (by have := hb.1; omega) (by have := hb.2; omega)
  rw [mmxAvg, e1, e2, cut_fits ht ⟨by have := ha.1; have := hb.1; omega, by have := ha.2; have := hb.2; omega⟩]
  unfold IsAvg
  omega

/-- **C61** is false for `fpavg` of negative values, which are rounded towards zero after one was added (the average of -3 and -3 is -2), of
`unsigned`, which wraps, and of signed bytes with MMX, where the average of -1 and 1 is -128. -/
theorem fpavg_violated : fpavg ⟨8, true⟩ (-3) (-3) = some (-2) ∧ fpavg ⟨32, false⟩ 4294967295 4294967295 = some 2147483647 ∧
    mmxAvg ⟨8, true⟩ (-1) 1 = -128 ∧ fpavg ⟨8, true⟩ (-1) 1 = some 0 := by decide

end Ustl.LinAlg
