import Verif.StrFind.Model
/-!
# What searching and comparing mean
-/
namespace Ustl.StrFind
open Ustl.Str (Byte)

/-- `s` occurs in `t` at index `k`. -/
def OccursAt (t s : List Byte) (k : Nat) : Prop := ∃ pre post, t = pre ++ s ++ post ∧ pre.length = k

/-- `r` is the first index at or after `pos` with `P`, `npos` exactly when there is none. -/
def IsFirst (P : Nat → Prop) (pos r : Nat) : Prop :=
  (r ≠ npos ∧ pos ≤ r ∧ P r ∧ ∀ k, pos ≤ k → k < r → ¬ P k) ∨ (r = npos ∧ ∀ k, pos ≤ k → ¬ P k)

/-- `r` is the last index at or before `pos` with `P`, `npos` exactly when there is none. -/
def IsLast (P : Nat → Prop) (pos r : Nat) : Prop :=
  (r ≠ npos ∧ r ≤ pos ∧ P r ∧ ∀ k, r < k → k ≤ pos → ¬ P k) ∨ (r = npos ∧ ∀ k, k ≤ pos → ¬ P k)

/-- The C standard's `memcmp` on two equally long ranges: the sign is that of the first differing pair, as
unsigned bytes. -/
def MemcmpOK (mc : List Byte → List Byte → Int) : Prop :=
  ∀ a b : List Byte, a.length = b.length →
    (mc a b = 0 ↔ a = b) ∧
    ∀ p x y u v, a = p ++ x :: u → b = p ++ y :: v → x ≠ y → (mc a b < 0 ↔ x < y)

/-- Lexicographic order of byte strings. -/
def LexLt (s t : List Byte) : Prop :=
  (∃ x u, t = s ++ x :: u) ∨ ∃ p x y u v, s = p ++ x :: u ∧ t = p ++ y :: v ∧ x < y

/-- The hash of a character sequence: starting from 0, for each character rotate the 32-bit value left by 7 bits and
add the sign-extended character. -/
def HashSpec (s : List Byte) : BitVec 32 := s.foldl (fun h c => c.toBitVec.signExtend 32 + h.rotateLeft 7) 0

end Ustl.StrFind
