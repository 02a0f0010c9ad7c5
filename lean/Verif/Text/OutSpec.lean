import Verif.Text.Out
/-! # Specification of integers as text -/
namespace Ustl.Text
open Ustl.Stream

/-- The bases. -/
inductive Base | dec | oct | hex
deriving DecidableEq, Repr

/-- The format settings of a stream. -/
structure Fmt where
  base : Base := .dec
  upper : Bool := false
  showbase : Bool := false
  showpos : Bool := false
  left : Bool := false
  zero : Bool := false
  width : Nat := 0
deriving DecidableEq, Repr

/-- The base that the flags say (uios.h:24-36). -/
def Base.ofFlags (flags : Nat) : Base := if flags.testBit 9 then .hex else if flags.testBit 8 then .oct else .dec

/-- The settings of an output stream (uios.h:24-36: `left` is bit 12, `showpos` bit 3, `showbase` bit 1, `uppercase` bit 6,
`hex` bit 9 and `oct` bit 8). -/
def TOS.fmt (s : TOS) : Fmt where
  base := Base.ofFlags s.flags
  upper := s.flags.testBit 6
  showbase := s.flags.testBit 1
  showpos := s.flags.testBit 3
  left := s.flags.testBit 12
  zero := s.fill = 48
  width := s.width

/-- The integer types that are printed: `short`, `int`, `long` and their unsigned versions. -/
def ITy.all : List ITy := [⟨16, true⟩, ⟨16, false⟩, ⟨32, true⟩, ⟨32, false⟩, ⟨64, true⟩, ⟨64, false⟩]

/-- `v` is a value of the type. -/
def ITy.fits (t : ITy) (v : Int) : Prop :=
  if t.sgn then -(2 ^ (t.bits - 1) : Int) ≤ v ∧ v < (2 ^ (t.bits - 1) : Int) else 0 ≤ v ∧ v < (2 ^ t.bits : Int)

/-- The digits of a number, by Lean's `Nat.toDigits`. -/
def digits (b : Nat) (upper : Bool) (n : Nat) : List Byte :=
  (Nat.toDigits b n).map fun c => UInt8.ofNat (if upper then c.toUpper else c).toNat

/-- The number whose digits are written: the value in decimal, the value modulo 2^bits otherwise. -/
def numVal (f : Fmt) (t : ITy) (v : Int) : Int := if f.base = .dec then v else v % (2 ^ t.bits : Int)

/-- Sign or prefix, and digits. -/
def intParts (f : Fmt) (t : ITy) (v : Int) : List Byte × List Byte :=
  let n := (numVal f t v).natAbs
  match f.base with
  | .dec => (if v < 0 then [45] else if f.showpos ∧ t.sgn then [43] else [], digits 10 false n)
  | .oct => ([], (if f.showbase ∧ n ≠ 0 then [48] else []) ++ digits 8 false n)
  | .hex => (if f.showbase ∧ n ≠ 0 then [48, if f.upper then 88 else 120] else [], digits 16 f.upper n)

/-- The text of a number, filled to the width. -/
def intText (f : Fmt) (t : ITy) (v : Int) : List Byte :=
  let (p, d) := intParts f t v
  let pad := f.width - (p.length + d.length)
  if f.left then p ++ d ++ List.replicate pad 32
  else if f.zero then p ++ List.replicate pad 48 ++ d
  else List.replicate pad 32 ++ p ++ d

end Ustl.Text
