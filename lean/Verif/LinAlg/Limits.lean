import Verif.LinAlg.Sat
import Mathlib.Data.Nat.Digits.Defs
/-!
# `numeric_limits` (C82)

The integer types of C++ and pointers, as the x86-64 System V ABI lays them out. The bits of an object of the type are a `BitVec`; `val` is the
number it stands for. Floating point types are not modelled.
-/
namespace Ustl.LinAlg.Limits
open Ustl.LinAlg

/-- The types `numeric_limits` is specialised for, pointers among them. -/
inductive CT where
  | bool | char | int | short | long | schar | uchar | uint | ushort | ulong | wchar | llong | ullong | ptr
deriving DecidableEq

/-- All of them. -/
def CT.all : List CT := [.bool, .char, .int, .short, .long, .schar, .uchar, .uint, .ushort, .ulong, .wchar, .llong, .ullong, .ptr]

theorem CT.mem_all (t : CT) : t ∈ CT.all := by cases t <;> decide

/-! ### The platform (specification) -/

/-- `sizeof`, by the ABI. -/
def CT.size : CT → Nat
  | .bool | .char | .schar | .uchar => 1
  | .short | .ushort => 2
  | .int | .uint | .wchar => 4
  | .long | .ulong | .llong | .ullong | .ptr => 8

/-- Whether the type has negative values, by the ABI: `char` and `wchar_t` have. -/
def CT.neg : CT → Bool
  | .char | .schar | .short | .int | .long | .llong | .wchar => true
  | _ => false

/-- The bits that make up the value: all of them but for `bool`, which has one. -/
def CT.valueBits (t : CT) : Nat := if t = .bool then 1 else 8 * t.size

/-- The number an object stands for. -/
def CT.val (t : CT) (b : BitVec t.valueBits) : Int := if t.neg then b.toInt else b.toNat

/-- `v` is a value of the type. -/
def CT.Value (t : CT) (v : Int) : Prop := ∃ b : BitVec t.valueBits, t.val b = v

/-! ### The code -/

/-- One line of the table of specialisations. -/
structure Row where
  min : Int
  max : Int
  isSigned : Bool
  isInteger : Bool
  isIntegral : Bool

/-- The table; the constants of `limits.h` are written out. A pointer stands for its address. Models ulimits.h:78-111, 262-279. -/
def row : CT → Row
  | .bool   => ⟨0, 1, false, false, true⟩
  | .char   => ⟨-128, 127, true, true, true⟩
  | .int    => ⟨-2147483648, 2147483647, true, true, true⟩
  | .short  => ⟨-32768, 32767, true, true, true⟩
  | .long   => ⟨-9223372036854775808, 9223372036854775807, true, true, true⟩
  | .schar  => ⟨-128, 127, true, true, true⟩
  | .uchar  => ⟨0, 255, false, true, true⟩
  | .uint   => ⟨0, 4294967295, false, true, true⟩
  | .ushort => ⟨0, 65535, false, true, true⟩
  | .ulong  => ⟨0, 18446744073709551615, false, true, true⟩
  | .wchar  => ⟨0, 2147483647, false, true, true⟩
  | .llong  => ⟨-9223372036854775808, 9223372036854775807, true, true, true⟩
  | .ullong => ⟨0, 18446744073709551615, false, true, true⟩
  | .ptr    => ⟨0, 18446744073709551615, false, true, true⟩

/-- `numeric_limits<T>::min()`. Models ulimits.h:80, 225. -/
def limMin (t : CT) : Int := (row t).min

/-- `numeric_limits<T>::max()`. Models ulimits.h:81, 226. -/
def limMax (t : CT) : Int := (row t).max

/-- `numeric_limits<T>::lowest()`: the same expression as `min`. Models ulimits.h:82, 227. -/
def limLowest (t : CT) : Int := (row t).min

/-- `numeric_limits<T>::is_signed`. Models ulimits.h:90, 235. -/
def isSigned (t : CT) : Bool := (row t).isSigned

/-- `numeric_limits<T>::is_integer`. Models ulimits.h:91, 236. -/
def isInteger (t : CT) : Bool := (row t).isInteger

/-- `numeric_limits<T>::is_modulo`. Models ulimits.h:96, 241. -/
def isModulo (t : CT) : Bool := (row t).isIntegral

/-- `numeric_limits<T>::digits`: `sizeof(T)*8`. Models ulimits.h:30-31, 110, 255. -/
def digits (t : CT) : Nat := t.size * 8

/-- `numeric_limits<T>::digits10`: `sizeof(T)*8*643/2136+1`. Models ulimits.h:32-33, 111, 256. -/
def digits10 (t : CT) : Nat := t.size * 8 * 643 / 2136 + 1

/-- `numeric_limits<tuple<N,T>>::min()`: a tuple with whatever is in it, filled. Models uspecial.h:130. -/
def tupleMin (t : CT) (v : List Int) : Option (List Int) := fillN (limMin t) 0 v.length v

/-- `numeric_limits<tuple<N,T>>::max()`. Models uspecial.h:131. -/
def tupleMax (t : CT) (v : List Int) : Option (List Int) := fillN (limMax t) 0 v.length v

/-! ### Proofs -/

theorem signed_range (n : Nat) (b : BitVec (n + 1)) : -2 ^ n ≤ b.toInt ∧ b.toInt ≤ 2 ^ n - 1 := by
  have h1 := BitVec.le_toInt b
  have h2 := BitVec.toInt_lt (x := b)
  simp only [Nat.add_sub_cancel] at h1 h2
  omega

theorem ends (t : CT) (ht : t ≠ .wchar) : t.val (BitVec.ofInt _ (limMin t)) = limMin t ∧ t.val (BitVec.ofInt _ (limMax t)) = limMax t := by
  revert ht
  cases t <;> decide +kernel

theorem wchar_range (v : Int) (h : CT.Value .wchar v) : -2147483648 ≤ v ∧ v ≤ 2147483647 := by
  obtain ⟨b, rfl⟩ := h
  exact signed_range 31 b

/-- **C82** (partial): `min()` and `max()` bound every value of the type and are values of it, for every type but `wchar_t`, and `lowest()` is
the least value. What is missing: `wchar_violated`. -/
theorem limits_partial (t : CT) (ht : t ≠ .wchar) :
    (∀ v, t.Value v → limMin t ≤ v ∧ v ≤ limMax t) ∧ t.Value (limMin t) ∧ t.Value (limMax t) ∧ limLowest t = limMin t := by
  cases t <;> first | exact absurd rfl ht | skip
  all_goals
    refine ⟨?_, ?_, ?_, rfl⟩
    · rintro v ⟨b, rfl⟩
      simp only [CT.val, CT.neg, limMin, limMax, row, if_true, Bool.false_eq_true, if_false]
      first
        | (have : b.toNat < 2 ^ 1 := b.isLt; omega)
        | (have : b.toNat < 2 ^ 8 := b.isLt; omega)
        | (have : b.toNat < 2 ^ 16 := b.isLt; omega)
        | (have : b.toNat < 2 ^ 32 := b.isLt; omega)
        | (have : b.toNat < 2 ^ 64 := b.isLt; omega)
        | (exact signed_range 7 b)
        | (exact signed_range 15 b)
        | (exact signed_range 31 b)
        | (exact signed_range 63 b)
    · exact ⟨_, ends _ ht |>.1⟩
    · exact ⟨_, ends _ ht |>.2⟩

example : CT.Value .short (-32768) ∧ ¬ CT.Value .short 32768 :=
  ⟨(limits_partial .short (by decide)).2.1, fun h => absurd ((limits_partial .short (by decide)).1 _ h).2 (by decide)⟩

/-- Every number between the bounds is a value: the bounds say everything. -/
theorem between_partial (t : CT) (ht : t ≠ .wchar) (v : Int) (h : limMin t ≤ v ∧ v ≤ limMax t) : t.Value v := by
  cases t <;> first | exact absurd rfl ht | skip
  all_goals
    simp only [limMin, limMax, row] at h
    refine ⟨BitVec.ofInt _ v, ?_⟩
    simp only [CT.val, CT.neg, if_true, Bool.false_eq_true, if_false, BitVec.toInt_ofInt, BitVec.toNat_ofInt, CT.valueBits, CT.size, reduceCtorEq]
    first
      | (rw [Int.bmod_eq_of_le] <;> omega)
      | omega

example : CT.Value .uint 4000000000 := between_partial .uint (by decide) _ (by decide)

/-- **C82** (partial): `is_signed` tells whether the type has negative values, for every type but `wchar_t`. -/
theorem is_signed_partial (t : CT) (ht : t ≠ .wchar) : isSigned t = true ↔ ∃ v, t.Value v ∧ v < 0 := by
  have hl := limits_partial t ht
  constructor
  · intro h
    exact ⟨_, hl.2.1, by revert h; cases t <;> decide⟩
  · rintro ⟨v, hv, h0⟩
    have := (hl.1 v hv).1
    cases t <;> first | exact absurd rfl ht | rfl | (exfalso; simp only [limMin, row] at this; omega)

example : isSigned .char = true ∧ isSigned .ushort = false := by decide

/-- **C82** is false for `wchar_t`, which is a signed type on this platform: its least value is far below the `min()` of the table, and
`is_signed` is false. -/
theorem wchar_violated : CT.Value .wchar (-2147483648) ∧ limMin .wchar = 0 ∧ isSigned .wchar = false ∧ (∀ v, CT.Value .wchar v → v ≤ limMax .wchar) := by
  refine ⟨⟨BitVec.ofInt _ (-2147483648), by decide +kernel⟩, rfl, rfl, ?_⟩
  rintro v ⟨b, rfl⟩
  exact (signed_range 31 b).2

/-- The decimal digits of a number. -/
def decDigits (n : Nat) : Nat := (Nat.toDigits 10 n).length

/-- **C82**: every value of the type has at most `digits10` decimal digits, so a buffer of `digits10` characters, and one for the sign, holds it. -/
theorem digits10_enough (t : CT) (v : Int) (hv : t.Value v) : decDigits v.natAbs ≤ digits10 t := by
  have hb : v.natAbs < 10 ^ digits10 t := by
    by_cases ht : t = .wchar
    · subst ht
      have := wchar_range v hv
      simp only [digits10, CT.size]
      norm_num
      omega
    · have := (limits_partial t ht).1 v hv
      cases t <;> simp only [limMin, limMax, row, digits10, CT.size] at this ⊢ <;> norm_num <;> omega
  exact Nat.toDigits_length 10 _ _ (by unfold digits10; omega) hb

example : decDigits 18446744073709551615 = 20 ∧ digits10 .ulong = 20 := by decide +kernel

/-- **C82**: and no fewer would do, but for `bool` and the signed types of 64 bits. -/
theorem digits10_tight (t : CT) (hb : t ≠ .bool) (hl : t ≠ .long) (hll : t ≠ .llong) : ∃ v, t.Value v ∧ decDigits v.natAbs = digits10 t := by
  by_cases hw : t = .wchar
  · subst hw
    exact ⟨_, wchar_violated.1, by decide +kernel⟩
  · refine ⟨_, (limits_partial t hw).2.2.1, ?_⟩
    revert hw hl hll hb
    cases t <;> decide +kernel

example : ∃ v, CT.Value .char v ∧ decDigits v.natAbs = 3 := digits10_tight .char (by decide) (by decide) (by decide)

/-- What the standard says of `digits10`: every number of that many digits can be stored. -/
def StdDigits10 (t : CT) (d : Nat) : Prop := ∀ n : Nat, n < 10 ^ d → t.Value n

/-- **C82** is false of `digits10` as the standard has it: for every type there is a number of `digits10` digits that cannot be stored in it.
It is always too large by one, for `long` by two. -/
theorem digits10_violated (t : CT) : ¬ StdDigits10 t (digits10 t) := by
  intro h
  have h := h (10 ^ digits10 t - 1) (Nat.sub_lt (by positivity) Nat.one_pos)
  by_cases ht : t = .wchar
  · subst ht
    have := (wchar_range _ h).2
    simp only [digits10, CT.size] at this
    norm_num at this
  · have := ((limits_partial t ht).1 _ h).2
    cases t <;> simp only [limMax, row, digits10, CT.size] at this <;> norm_num at this

/-- What the standard says of `digits`: the number of bits that are not the sign. -/
def StdDigits (t : CT) (d : Nat) : Prop := ∀ n : Nat, t.Value n ↔ n < 2 ^ d

/-- **C82** (partial): `digits` is the number of value bits for the unsigned types. What is missing: `digits_violated`. -/
theorem digits_partial (t : CT) (ht : t.neg = false) (hb : t ≠ .bool) : StdDigits t (digits t) := by
  intro n
  have hw : t ≠ .wchar := by rintro rfl; simp [CT.neg] at ht
  constructor
  · intro h
    have := ((limits_partial t hw).1 _ h).2
    cases t <;> first | (simp [CT.neg] at ht; done) | exact absurd rfl hb | (simp only [limMax, row, digits, CT.size] at this ⊢; norm_num; omega)
  · intro h
    refine between_partial t hw n ?_
    cases t <;> first | (simp [CT.neg] at ht; done) | exact absurd rfl hb | (simp only [limMin, limMax, row, digits, CT.size] at h ⊢; norm_num at h; omega)

example : StdDigits .ulong 64 := digits_partial .ulong rfl (by decide)

/-- **C82** is false of `digits` for the signed types, where it counts the sign bit, and for `bool`. -/
theorem digits_violated (t : CT) (ht : t.neg = true ∨ t = .bool) : ¬ StdDigits t (digits t) := by
  intro h
  have h := (h (2 ^ digits t - 1)).2 (Nat.sub_lt (by positivity) Nat.one_pos)
  by_cases hw : t = .wchar
  · subst hw
    have := wchar_violated.2.2.2 _ h
    simp only [limMax, row, digits, CT.size] at this
    norm_num at this
  · have := ((limits_partial t hw).1 _ h).2
    cases t <;> first | (simp [CT.neg] at ht; done) | (simp only [limMax, row, digits, CT.size] at this; norm_num at this)

/-- **C82** is false of `is_modulo`, which is true for `int` and `long`: adding one to the largest of them does not wrap, it is undefined; and of
`is_integer`, which is false for `bool` alone. -/
theorem modulo_violated : isModulo .int = true ∧ ITy.arith ⟨32, true⟩ (limMax .int + 1) = none ∧ isModulo .long = true ∧
    ITy.arith ⟨64, true⟩ (limMax .long + 1) = none ∧ (∀ t, isInteger t = false ↔ t = .bool) := by
  refine ⟨rfl, by decide, rfl, by decide, fun t => ?_⟩
  cases t <;> decide

/-- **C82**: the limits of a tuple are tuples of its size which bound every tuple of values in every component, whatever was in the memory. -/
theorem tuple_limits_partial (t : CT) (ht : t ≠ .wchar) (junk v : List Int) (hn : junk.length = v.length) (hv : ∀ x ∈ v, t.Value x) :
    ∃ lo hi, tupleMin t junk = some lo ∧ tupleMax t junk = some hi ∧ lo.length = v.length ∧ hi.length = v.length ∧
      ∀ i, (h1 : i < v.length) → (h2 : i < lo.length) → (h3 : i < hi.length) → lo[i] ≤ v[i] ∧ v[i] ≤ hi[i] := by
  refine ⟨List.replicate junk.length (limMin t), List.replicate junk.length (limMax t), ?_, ?_, by simp [hn], by simp [hn], ?_⟩
  · exact fillN_all _ _
  · exact fillN_all _ _
  · intro i h1 h2 h3
    simp only [List.getElem_replicate]
    exact (limits_partial t ht).1 _ (hv _ (List.getElem_mem _))

example : tupleMin .short [7, 7, 7] = some [-32768, -32768, -32768] ∧ tupleMax .uchar [0, 1] = some [255, 255] := by decide

end Ustl.LinAlg.Limits
