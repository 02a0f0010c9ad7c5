import Verif.Stream.Model
/-!
# The parts of the C library the text streams call: `strtol`, and `vsnprintf` with one integer conversion

These are not code of the repository: they are written down from the C standard (C11 7.22.1.4 and 7.21.6.1), in the "C"
locale and for 64-bit `long`. What the standard leaves undefined is `none`.
-/
namespace Ustl.Text
open Ustl.Stream (Byte)

/-- `isspace`: space, \t, \n, \v, \f, \r. -/
def isSpace (c : Byte) : Bool := c = 32 || (9 ≤ c && c ≤ 13)

/-- The value of a digit or letter as a digit. -/
def digitVal (c : Byte) : Option Nat :=
  if 48 ≤ c && c ≤ 57 then some (c.toNat - 48)
  else if 97 ≤ c && c ≤ 122 then some (c.toNat - 87)
  else if 65 ≤ c && c ≤ 90 then some (c.toNat - 55)
  else none

/-- Is `c` a digit in the base? -/
def isDigit (b : Nat) (c : Byte) : Bool := match digitVal c with
  | some d => d < b
  | none => false

/-- The number the digits stand for. -/
def digitsVal (b : Nat) (ds : List Byte) : Nat := ds.foldl (fun a c => a * b + (digitVal c).getD 0) 0

/-- `strtol` clips to the range of `long`. -/
def clip (i : Int) : Int := max (-(2 ^ 63)) (min i (2 ^ 63 - 1))

/-- After the sign: the base (0 means: look at the prefix), and the text with the prefix 0x taken off. -/
def prefixed (base : Nat) (s : List Byte) : Nat × List Byte :=
  match s with
  | 48 :: x :: d :: rest =>
    if (x = 120 ∨ x = 88) ∧ isDigit 16 d ∧ (base = 0 ∨ base = 16) then (16, d :: rest)
    else (if base = 0 then 8 else base, s)
  | 48 :: _ => (if base = 0 then 8 else base, s)
  | _ => (if base = 0 then 10 else base, s)

/-- The sign: whether it is a minus, and the rest. -/
def signed (s : List Byte) : Bool × List Byte :=
  match s with
  | 45 :: r => (true, r)
  | 43 :: r => (false, r)
  | _ => (false, s)

/-- `strtol (s, &end, base)`: the value and `end - s`. If there are no digits, 0 and `end = s`. `none` when it runs off
the end of the memory `s`: it looks at characters until one ends the number. -/
def strtol (s : List Byte) (base : Nat) : Option (Int × Nat) :=
  let s1 := s.dropWhile isSpace
  let (neg, s2) := signed s1
  let (b, s3) := prefixed base s2
  let ds := s3.takeWhile (isDigit b)
  let rest := s3.dropWhile (isDigit b)
  if rest = [] ∨ (base = 0 ∨ base = 16) ∧ (s2 = [48, 120] ∨ s2 = [48, 88]) then none
  else if ds = [] then some (0, 0)
  else some (clip (if neg then -(digitsVal b ds : Int) else digitsVal b ds), s.length - rest.length)

/-- A conversion specification with flags, width, length modifier (`h`, none, `l`, `ll`: 16, 32, 64, 64 bits) and conversion
character. -/
structure Conv where
  minus : Bool := false
  plus : Bool := false
  space : Bool := false
  hash : Bool := false
  zero : Bool := false
  width : Nat := 0
  bits : Nat := 32
  conv : Byte := 100
deriving DecidableEq, Repr

/-- The flags, in any order. -/
def parseFlags : List Byte → Conv → Conv × List Byte
  | [], k => (k, [])
  | c :: r, k =>
    if c = 45 then parseFlags r { k with minus := true }
    else if c = 43 then parseFlags r { k with plus := true }
    else if c = 32 then parseFlags r { k with space := true }
    else if c = 35 then parseFlags r { k with hash := true }
    else if c = 48 then parseFlags r { k with zero := true }
    else (k, c :: r)

/-- The length modifier. -/
def parseLen : List Byte → Nat × List Byte
  | 104 :: r => (16, r)
  | 108 :: 108 :: r => (64, r)
  | 108 :: r => (64, r)
  | r => (32, r)

/-- A format string that is one integer conversion specification: `%`, flags, width, length modifier, one of `d u o x X`.
`none` for anything else, and for the flag `#` with `d` or `u`: the behaviour is undefined. -/
def parseConv (f : List Byte) : Option Conv :=
  match f with
  | 37 :: r =>
    let (k, r1) := parseFlags r {}
    let w := digitsVal 10 (r1.takeWhile (isDigit 10))
    let (n, r2) := parseLen (r1.dropWhile (isDigit 10))
    match r2 with
    | [c] =>
      if c = 100 ∨ c = 117 then (if k.hash then none else some { k with width := w, bits := n, conv := c })
      else if c = 111 ∨ c = 120 ∨ c = 88 then some { k with width := w, bits := n, conv := c }
      else none
    | _ => none
  | _ => none

/-- A digit as a character. -/
def digitChar (upper : Bool) (d : Nat) : Byte :=
  if d < 10 then UInt8.ofNat (48 + d) else if upper then UInt8.ofNat (55 + d) else UInt8.ofNat (87 + d)

/-- The digits of a number, most significant first, at least one. -/
def digs (b : Nat) (upper : Bool) (n : Nat) : List Byte :=
  if _h : n < b ∨ b < 2 then [digitChar upper n] else digs b upper (n / b) ++ [digitChar upper (n % b)]
termination_by n
decreasing_by exact Nat.div_lt_self (by omega) (by omega)

/-- The argument as the `bits`-bit signed number it is printed as. -/
def toS (bits : Nat) (v : Int) : Int := (v + 2 ^ (bits - 1)) % 2 ^ bits - 2 ^ (bits - 1)

/-- The argument as the `bits`-bit unsigned number it is printed as. -/
def toU (bits : Nat) (v : Int) : Nat := (v % 2 ^ bits).toNat

/-- Sign and prefix, then the digits. -/
def convText (k : Conv) (v : Int) : List Byte × List Byte :=
  if k.conv = 100 then
    let w := toS k.bits v
    (if w < 0 then [45] else if k.plus then [43] else if k.space then [32] else [], digs 10 false w.natAbs)
  else if k.conv = 117 then ([], digs 10 false (toU k.bits v))
  else if k.conv = 111 then
    let ds := digs 8 false (toU k.bits v)
    ([], if k.hash ∧ toU k.bits v ≠ 0 then 48 :: ds else ds)
  else
    let n := toU k.bits v
    (if k.hash ∧ n ≠ 0 then [48, k.conv] else [], digs 16 (k.conv = 88) n)

/-- What `vsnprintf` prints for the conversion of `v`. -/
def convPrint (k : Conv) (v : Int) : List Byte :=
  let (p, ds) := convText k v
  let fill := k.width - (p.length + ds.length)
  if k.minus then p ++ ds ++ List.replicate fill 32
  else if k.zero then p ++ List.replicate fill 48 ++ ds
  else List.replicate fill 32 ++ p ++ ds

end Ustl.Text
