import Verif.Basic
/-!
# Integer helpers (uutility.h, ualgobase.cc)

Unsigned machine integers of `w` bits are naturals below `2^w`, signed ones are integers in `[-2^(w-1), 2^(w-1))`.
`size_t` has 64 bits, `int` 32. Undefined behaviour (a shift by the width or more, signed overflow, division by zero)
is `none`.
-/
namespace Ustl.Util

/-- 2^64. -/
abbrev W : Nat := 2 ^ 64

/-- `AlignDown (n, grain)` for an unsigned `n`: `n - n % grain`, in `size_t`. The result is not above `n`, so it is
unchanged by the conversion back to the type of `n`. Models uutility.h:65-67. -/
def alignDown (n g : Nat) : Option Nat := if g = 0 then none else some (n - n % g)

/-- `Align (n, grain)` for an unsigned `n` of `w` bits: `n + grain - 1` is computed in `size_t`, rounded down, and the
result converted to the type of `n`. Models uutility.h:70-72. -/
def align (w n g : Nat) : Option Nat :=
  match alignDown ((n + g + (W - 1)) % W) g with
  | none => none
  | some r => some (r % 2 ^ w)

/-- A signed value converted to `size_t`. -/
def toU (n : Int) : Nat := (n % (W : Int)).toNat

/-- A `size_t` converted to a signed type of `w` bits. -/
def toS (w : Nat) (n : Nat) : Int :=
  let r := n % 2 ^ w
  if r < 2 ^ (w - 1) then r else (r : Int) - 2 ^ w

/-- `AlignDown (n, grain)` for a signed `n` of `w` bits: `n - n % grain` is computed in `size_t`.
Models uutility.h:65-67. -/
def alignDownS (w : Nat) (n : Int) (g : Nat) : Option Int :=
  match alignDown (toU n) g with
  | none => none
  | some r => some (toS w r)

/-- The result of signed arithmetic in `w` bits: undefined if it does not fit. -/
def inRange (w : Nat) (x : Int) : Option Int :=
  if -2 ^ (w - 1) ≤ x ∧ x < 2 ^ (w - 1) then some x else none

/-- `absv (v)` of a signed type. Models uutility.h:98-110. -/
def absv (w : Nat) (v : Int) : Option Int := if v < 0 then inRange w (-v) else some v

/-- `sign (v)`. Models uutility.h:113-117. -/
def sign (v : Int) : Int := (if 0 < v then 1 else 0) - (if v < 0 then 1 else 0)

/-- `gcd (a, b)` of a signed type: `b ? gcd (b, a % b) : absv (a)`. The remainder has the sign of `a`; the remainder of
the least value by -1 overflows. Models uutility.h:120-124. -/
def gcd (w : Nat) (a b : Int) : Option Int :=
  if _h : b = 0 then absv w a
  else if a = -2 ^ (w - 1) ∧ b = -1 then none
  else gcd w b (a.tmod b)
termination_by b.natAbs
decreasing_by
  rw [Int.natAbs_tmod]
  exact Nat.mod_lt _ (by omega)

/-- `lcm (a, b)` of a signed type: `a / gcd (a, b) * b`. Models uutility.h:127-131. -/
def lcm (w : Nat) (a b : Int) : Option Int :=
  match gcd w a b with
  | none => none
  | some g => if g = 0 then none else inRange w (a.tdiv g * b)

/-- `DivRU (n1, n2)` for signed arguments of `w` bits. Models uutility.h:219-226. -/
def divRU (w : Nat) (n1 n2 : Int) : Option Int :=
  match inRange w (n2 - 1) with
  | none => none
  | some adj =>
    match inRange w (n1 + if n1 < 0 then -adj else adj) with
    | none => none
    | some s => if n2 = 0 then none else inRange w (s.tdiv n2)

/-- `DivRU (n1, n2)` for unsigned arguments of `w` bits (`w` is 32 or 64): the sum wraps. Models uutility.h:219-226. -/
def divRUu (w n1 n2 : Nat) : Option Nat :=
  if n2 = 0 then none else some ((n1 + (n2 + (2 ^ w - 1)) % 2 ^ w) % 2 ^ w / n2)

/-- The `bsr` instruction: the index of the highest set bit; a zero source leaves the destination alone (this is what
the processors do, and what the code relies on). Models uutility.h:251, 265, 283. -/
def bsr (v old : Nat) : Nat := if v = 0 then old else v.log2

/-- `FirstBit (v, nbv)`. Models uutility.h:247-275: both variants, `bsr` into `n = nbv` and
`if (v) n = 31 - __builtin_clz (v)`, are this. -/
def firstBit (v nbv : Nat) : Nat := bsr v nbv

/-- `1 << n` for the `int` 1, converted to `uint32_t`. -/
def shl1 (n : Nat) : Option Nat := if n < 32 then some (2 ^ n) else none

/-- `NextPow2 (v)` as compiled for a `v` that is not a compile-time constant. Models uutility.h:279-287. -/
def nextPow2 (v : Nat) : Option Nat :=
  let r := (v + (2 ^ 32 - 1)) % 2 ^ 32
  shl1 (1 + bsr r r)

/-- `NextPow2 (v)` for a compile-time constant. Models uutility.h:279-287. -/
def nextPow2c (v : Nat) : Option Nat :=
  let r := (v + (2 ^ 32 - 1)) % 2 ^ 32
  let r := firstBit r r
  let r := if r ≥ 31 then 2 ^ 32 - 1 else r
  shl1 ((1 + r) % 2 ^ 32)

/-- `v << n` and `v >> n` are defined for an unsigned type of `w` bits: narrow types are promoted to `int`. -/
def shiftOk (w n : Nat) : Bool := n < max w 32

/-- `Rol (v, n)` of an unsigned type of `w` bits; `BitsInType (T) - n` is a `size_t`. Models uutility.h:290-294. -/
def rol (w v n : Nat) : Option Nat :=
  let k := (w + W - n) % W
  if shiftOk w n && shiftOk w k then some ((v <<< n ||| v >>> k) % 2 ^ w) else none

/-- `Ror (v, n)`. Models uutility.h:297-301. -/
def ror (w v n : Nat) : Option Nat :=
  let k := (w + W - n) % W
  if shiftOk w n && shiftOk w k then some ((v >>> n ||| v <<< k) % 2 ^ w) else none

/-- The loop of `pack_type`: `h` doubles until it reaches the width `big`. Models uutility.h:213-214. -/
def packLoop (big : Nat) (h b : Nat) (fuel : Nat) : Nat :=
  match fuel with
  | 0 => b
  | f + 1 => if h < big then packLoop big (h * 2) ((b <<< h ||| b) % 2 ^ big) f else b

/-- `pack_type (s, b)` from an unsigned type of `small` bits into one of `big` bits; the loop runs at most `big` times.
Models uutility.h:209-215. -/
def packType (small big s : Nat) : Nat := packLoop big small (s % 2 ^ big) big

/-- The bytes of a value, lowest first. -/
def bytesOf : Nat → Nat → List Nat
  | 0, _ => []
  | n + 1, v => v % 256 :: bytesOf n (v / 256)

/-- The value of bytes, lowest first. -/
def ofBytes : List Nat → Nat
  | [] => 0
  | b :: bs => b + 256 * ofBytes bs

/-- `bswap (v)` of `n` bytes (`__builtin_bswap16/32/64`, or the value itself for one byte): the bytes in the opposite
order. Models uutility.h:138-150. -/
def bswap (n v : Nat) : Nat := ofBytes (bytesOf n v).reverse

/-- `popcount (uint32_t)`, the version for compilers without the builtin; `+` binds tighter than `&`. Subtraction and
multiplication are modulo 2^32. Models ualgobase.cc:259-264. -/
def popcount32 (v : Nat) : Nat :=
  let w := (v + 2 ^ 32 - (v >>> 1 &&& 0x55555555)) % 2 ^ 32
  let x := ((w &&& 0x33333333) + (w >>> 2 &&& 0x33333333)) % 2 ^ 32
  ((((x + x >>> 4) % 2 ^ 32 &&& 0x0F0F0F0F) * 0x01010101) % 2 ^ 32) >>> 24

/-- `popcount (uint64_t)`, the version for compilers without the builtin. Models ualgobase.cc:268-274. -/
def popcount64 (v : Nat) : Nat :=
  let w := (v + 2 ^ 64 - (v >>> 1 &&& 0x5555555555555555)) % 2 ^ 64
  let x := ((w &&& 0x3333333333333333) + (w >>> 2 &&& 0x3333333333333333)) % 2 ^ 64
  let y := (x + x >>> 4) % 2 ^ 64 &&& 0x0F0F0F0F0F0F0F0F
  ((y * 0x0101010101010101) % 2 ^ 64) >>> 56

/-- `min (a, b)`. Models uutility.h:48-50. -/
def min' {α : Type} (lt : α → α → Bool) (a b : α) : α := if lt a b then a else b

/-- `max (a, b)`. Models uutility.h:53-55. -/
def max' {α : Type} (lt : α → α → Bool) (a b : α) : α := if lt b a then a else b

/-- `VectorElement (v, i)`: the element at `min (i, N-1)`. Models uutility.h:58-59. -/
def vectorElement {α : Type} (v : List α) (i : Nat) : Option α := v[min' (fun a b => decide (a < b)) i (v.length - 1)]?

/-- `operator!=`, `>`, `<=`, `>=` made from `==` and `<`. Models uutility.h:189-206. -/
def opNe {α : Type} (eq : α → α → Bool) (x y : α) : Bool := !(eq x y)
@[inherit_doc opNe] def opGt {α : Type} (lt : α → α → Bool) (x y : α) : Bool := lt y x
@[inherit_doc opNe] def opLe {α : Type} (lt : α → α → Bool) (x y : α) : Bool := !(lt y x)
@[inherit_doc opNe] def opGe {α : Type} (lt : α → α → Bool) (x y : α) : Bool := !(lt x y)

end Ustl.Util
