import Verif.Util.Model
import Verif.Seq.Model
/-!
# Comparison operators (uutility.h, upair.h, uarray.h, utuple.h, ustack.h, uqueue.h, uvector.h, umemory.h, mistream.h, uerror.h)

Operators of the elements are Boolean functions. Addresses are natural numbers.
-/
namespace Ustl.Cmp

/-- An integer type. -/
structure IT where
  /-- width in bits -/
  bits : Nat
  /-- signed? -/
  sgn : Bool
deriving DecidableEq, Repr

/-- The values of the type. -/
def IT.has (t : IT) (v : Int) : Prop :=
  if t.sgn then -2 ^ (t.bits - 1) ≤ v ∧ v < 2 ^ (t.bits - 1) else 0 ≤ v ∧ v < 2 ^ t.bits

/-- Conversion to the type: modulo 2^bits (what all compilers do for signed types too). -/
def IT.conv (t : IT) (v : Int) : Int :=
  let r := v % 2 ^ t.bits
  if t.sgn ∧ 2 ^ (t.bits - 1) ≤ r then r - 2 ^ t.bits else r

/-- Integer promotion: types narrower than `int` become `int`. -/
def IT.promote (t : IT) : IT := if t.bits < 32 then ⟨32, true⟩ else t

/-- The usual arithmetic conversions (C++14 [expr]/10, ranks by width). -/
def common (t1 t2 : IT) : IT :=
  let a := t1.promote
  let b := t2.promote
  if a.sgn = b.sgn then ⟨max a.bits b.bits, a.sgn⟩
  else
    let u := if a.sgn then b else a
    let s := if a.sgn then a else b
    if s.bits ≤ u.bits then u else s

/-- `min (a, b)` of integers of types `t1` and `t2`: compared in the common type, returned as `t1`.
Models uutility.h:48-50. -/
def minInt (t1 t2 : IT) (a b : Int) : Int :=
  let c := common t1 t2
  t1.conv (if c.conv a < c.conv b then c.conv a else c.conv b)

/-- `max (a, b)` of integers. Models uutility.h:53-55. -/
def maxInt (t1 t2 : IT) (a b : Int) : Int :=
  let c := common t1 t2
  t1.conv (if c.conv b < c.conv a then c.conv a else c.conv b)

/-- `pair::operator==`. Models upair.h:35. -/
def pairEq {α β : Type} (eq1 : α → α → Bool) (eq2 : β → β → Bool) (x y : α × β) : Bool :=
  eq1 x.1 y.1 && eq2 x.2 y.2

/-- `pair::operator<`. Models upair.h:36. -/
def pairLt {α β : Type} (lt1 eq1 : α → α → Bool) (lt2 : β → β → Bool) (x y : α × β) : Bool :=
  lt1 x.1 y.1 || (eq1 x.1 y.1 && lt2 x.2 y.2)

/-- The loop of `operator==` of arrays and tuples of `n` elements, from index `i`; `!=` of the elements is `!(==)`.
Models uarray.h:86-93, utuple.h:167-174, uutility.h:189-191. -/
def arrayEqFrom {α : Type} (eq : α → α → Bool) (t1 t2 : List α) (n : Nat) (i : Nat) : Option Bool :=
  if i < n then
    match rd t1 i, rd t2 i with
    | some x, some y => if !(eq x y) then some false else arrayEqFrom eq t1 t2 n (i + 1)
    | _, _ => none
  else some true
termination_by n - i

/-- The loop of `operator<` of arrays and tuples of `n` elements, from index `i`; `<=` of the elements is `!(y < x)`.
Models uarray.h:95-102, utuple.h:176-183, uutility.h:199-201. -/
def arrayLtFrom {α : Type} (lt : α → α → Bool) (t1 t2 : List α) (n : Nat) (i : Nat) : Option Bool :=
  if i < n then
    match rd t1 i, rd t2 i with
    | some x, some y =>
      if !(lt y x) then
        if lt x y then some true else arrayLtFrom lt t1 t2 n (i + 1)
      else some false
    | _, _ => none
  else some false
termination_by n - i

/-- `stack::operator<`. Models ustack.h:36. -/
def stackLt {α : Type} (a b : List α) : Bool := decide (a.length < b.length)

/-- `stack::operator==`: the storage is compared. Models ustack.h:35. -/
def stackEq {α : Type} (veq : List α → List α → Bool) (a b : List α) : Bool := veq a b

/-- `queue::operator<`. Models uqueue.h:43; `size()` underflows for a broken queue only. -/
def queueLt {α : Type} (a b : Seq.Queue α) : Option Bool :=
  match a.size, b.size with
  | some x, some y => some (decide (x < y))
  | _, _ => none

/-- `vector::operator==`: the sizes in bytes, then the bytes of the elements; `rep` gives the bytes of an element. (The
shortcut for the same block changes nothing.) Models uvector.h:46, cmemlink.h:61-62. -/
def vectorEq {α : Type} (rep : α → List UInt8) (a b : List α) : Bool :=
  let x := a.flatMap rep
  let y := b.flatMap rep
  decide (y.length = x.length) && decide (y = x)

/-- `unique_ptr::operator<` and `shared_ptr::operator<` on the addresses held. Models umemory.h:95, 127, 202. -/
def ptrLt (a b : Nat) : Bool := decide (a < b)

/-- `auto_ptr::operator<`. Models umemory.h:54. -/
def autoLt (a b : Nat) : Bool := decide (b < a)

/-- `operator==` of the owning pointers. Models umemory.h:53, 94, 126, 201. -/
def ptrEq (a b : Nat) : Bool := decide (a = b)

/-- `istream_iterator::operator==`: an iterator is the stream it points to (`none` at the end), `pos` gives the positions
of the streams. Models mistream.h:148. -/
def isiEq (pos : Nat → Nat) (a b : Option Nat) : Bool :=
  match a, b with
  | none, none => true
  | some x, some y => decide (pos x = pos y)
  | _, _ => false

/-- `istream_iterator::operator<`. Models mistream.h:149. -/
def isiLt (pos : Nat → Nat) (a b : Option Nat) : Bool :=
  match b with
  | none => true
  | some y => match a with
    | none => false
    | some x => decide (pos x < pos y)

/-- `error_code`, `error_condition`: the constructor drops the category. Models uerror.h:133, 152, 164, 184. -/
structure ErrCode where
  /-- `_ec` -/
  ec : Int
deriving DecidableEq, Repr

/-- The constructor from a number and a category (only one class of categories exists). Models uerror.h:133, 164. -/
def ErrCode.make (ec : Int) (_category : Nat) : ErrCode := ⟨ec⟩

/-- `operator==` of error codes and conditions: `category() == v.category()` is always true. Models uerror.h:120,
149, 179-182, 199-200. -/
def ErrCode.eq (a b : ErrCode) : Bool := true && decide (a.ec = b.ec)

/-- `explicit operator bool`. Models uerror.h:146, 176. -/
def ErrCode.toBool (a : ErrCode) : Bool := decide (a.ec ≠ 0)

end Ustl.Cmp
