import Verif.Text.Lemmas
/-!
# Text streams: specification

`TIS.unread` is the text still to be read, `TIS.adv k` the stream with the position moved on by `k`, `TIS.eof` the stream
with `eofbit` and `failbit` set, `TIS.Ok` an ordinary state (all in `Verif.Text.Lemmas`).
-/
namespace Ustl.Text
open Ustl.Stream

/-- A piece of a word or of a quoted text: a character that stands for itself, or an escape, which is a backslash and a
character. -/
inductive Item
  | lit (c : Byte)
  | esc (c : Byte)
deriving DecidableEq, Repr

/-- How it is written. -/
def Item.raw : Item → List Byte
  | .lit c => [c]
  | .esc c => [92, c]

/-- What it stands for: \t, \n, \r, \b and \E (escape) are control characters, any other escaped character is
itself. -/
def Item.val : Item → Byte
  | .lit c => c
  | .esc 116 => 9
  | .esc 110 => 10
  | .esc 114 => 13
  | .esc 98 => 8
  | .esc 69 => 27
  | .esc c => c

/-- The written form of several. -/
def rawAll (l : List Item) : List Byte := l.flatMap Item.raw

/-- `s` with `gcount()` equal to `n`. -/
def TIS.cnt (s : TIS) (n : Nat) : TIS := { s with gcount := n }

end Ustl.Text
