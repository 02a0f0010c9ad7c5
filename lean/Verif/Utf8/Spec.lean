import Verif.Utf8.Model
/-!
# Specification: the UTF-8 table (utf8.h:9-15, RFC 2279)
-/
namespace Ustl.Utf8

/-- A byte from its value. -/
def byte (n : Nat) : Byte := UInt8.ofNat n

/-- A continuation byte `10xxxxxx`. -/
def cont (n : Nat) : Byte := byte (0x80 + n % 64)

/-- The encoding of a value below 2^31, row by row of the table. -/
def table (v : Nat) : List Byte :=
  if v ≤ 0x7F then [byte v]
  else if v ≤ 0x7FF then [byte (0xC0 + v / 64), cont v]
  else if v ≤ 0xFFFF then [byte (0xE0 + v / 64 / 64), cont (v / 64), cont v]
  else if v ≤ 0x1FFFFF then [byte (0xF0 + v / 64 / 64 / 64), cont (v / 64 / 64), cont (v / 64), cont v]
  else if v ≤ 0x3FFFFFF then
    [byte (0xF8 + v / 64 / 64 / 64 / 64), cont (v / 64 / 64 / 64), cont (v / 64 / 64), cont (v / 64), cont v]
  else [byte (0xFC + v / 64 / 64 / 64 / 64 / 64), cont (v / 64 / 64 / 64 / 64), cont (v / 64 / 64 / 64),
    cont (v / 64 / 64), cont (v / 64), cont v]

/-- A text: the encodings one after another. -/
def text (vs : List Nat) : List Byte := (vs.map table).flatten

/-- All values have an encoding in the table. -/
def Valid (vs : List Nat) : Prop := ∀ v ∈ vs, v < 2 ^ 31

end Ustl.Utf8
