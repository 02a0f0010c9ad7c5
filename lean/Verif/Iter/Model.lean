import Verif.Basic
/-!
# Iterator adaptors (uiterator.h)

The wrapped random access iterator is a pointer into an array: a position (an integer, so that positions outside the
array can be talked about) and the array, a list. Dereferencing outside the array is `none`.
-/
namespace Ustl.Iter

/-- Dereferencing a pointer at position `p` of the array `l`. -/
def deref {α : Type} (l : List α) (p : Int) : Option α := if 0 ≤ p then l[p.toNat]? else none

/-- `distance (i1, i2)`. Models uiterator.h:35-37. -/
def distance (i1 i2 : Int) : Int := i2 - i1

/-- `reverse_iterator`: `_i`. Models uiterator.h:246, 272. -/
structure Rev where
  i : Int
deriving DecidableEq

namespace Rev
/-- `operator==`. Models uiterator.h:256. -/
def eq (a b : Rev) : Bool := a.i == b.i
/-- `operator<`. Models uiterator.h:257. -/
def lt (a b : Rev) : Bool := decide (b.i < a.i)
/-- `operator*`. Models uiterator.h:259. -/
def get {α : Type} (l : List α) (a : Rev) : Option α := deref l (a.i - 1)
/-- `operator++`. Models uiterator.h:261. -/
def inc (a : Rev) : Rev := ⟨a.i - 1⟩
/-- `operator--`. Models uiterator.h:262. -/
def dec (a : Rev) : Rev := ⟨a.i + 1⟩
/-- `operator+=`. Models uiterator.h:265. -/
def addAssign (a : Rev) (n : Nat) : Rev := ⟨a.i - n⟩
/-- `operator-=`. Models uiterator.h:266. -/
def subAssign (a : Rev) (n : Nat) : Rev := ⟨a.i + n⟩
/-- `operator+`. Models uiterator.h:267. -/
def add (a : Rev) (n : Nat) : Rev := ⟨a.i - n⟩
/-- `operator-` of an offset. Models uiterator.h:268. -/
def sub (a : Rev) (n : Nat) : Rev := ⟨a.i + n⟩
/-- `operator[]`. Models uiterator.h:269. -/
def at' {α : Type} (l : List α) (a : Rev) (n : Nat) : Option α := (a.add n).get l
/-- `operator-` of an iterator. Models uiterator.h:270. -/
def diff (a b : Rev) : Int := distance b.i a.i
end Rev

/-- `move_iterator`: `_i`. Models uiterator.h:289, 315. -/
structure Mov where
  i : Int
deriving DecidableEq

namespace Mov
/-- `operator==`. Models uiterator.h:299. -/
def eq (a b : Mov) : Bool := a.i == b.i
/-- `operator<`. Models uiterator.h:300. -/
def lt (a b : Mov) : Bool := decide (a.i < b.i)
/-- `operator*`: the element (the caller may move from it). Models uiterator.h:302. -/
def get {α : Type} (l : List α) (a : Mov) : Option α := deref l a.i
/-- `operator++`. Models uiterator.h:304. -/
def inc (a : Mov) : Mov := ⟨a.i + 1⟩
/-- `operator--`. Models uiterator.h:305. -/
def dec (a : Mov) : Mov := ⟨a.i - 1⟩
/-- `operator+=`. Models uiterator.h:308. -/
def addAssign (a : Mov) (n : Nat) : Mov := ⟨a.i + n⟩
/-- `operator-=`. Models uiterator.h:309. -/
def subAssign (a : Mov) (n : Nat) : Mov := ⟨a.i - n⟩
/-- `operator+`. Models uiterator.h:310. -/
def add (a : Mov) (n : Nat) : Mov := ⟨a.i - n⟩
/-- `operator-` of an offset. Models uiterator.h:311. -/
def sub (a : Mov) (n : Nat) : Mov := ⟨a.i + n⟩
/-- `operator[]`. Models uiterator.h:312. -/
def at' {α : Type} (l : List α) (a : Mov) (n : Nat) : Option α := (a.add n).get l
/-- `operator-` of an iterator. Models uiterator.h:313. -/
def diff (a b : Mov) : Int := distance a.i b.i
end Mov

/-- `index_iterate`: `_base` (a position in the array) and `_i` (a position in the container of indexes).
Models uiterator.h:431, 458-460. -/
structure Idx where
  base : Int
  i : Int
deriving DecidableEq

namespace Idx
/-- `operator==`. Models uiterator.h:441. -/
def eq (a b : Idx) : Bool := a.i == b.i
/-- `operator<`. Models uiterator.h:442. -/
def lt (a b : Idx) : Bool := decide (a.i < b.i)
/-- `operator*`: a position in the array; `xs` are the indexes. Models uiterator.h:446. -/
def get (xs : List Nat) (a : Idx) : Option Int := (deref xs a.i).map fun x => a.base + (x : Int)
/-- `operator++`. Models uiterator.h:448. -/
def inc (a : Idx) : Idx := ⟨a.base, a.i + 1⟩
/-- `operator--`. Models uiterator.h:449. -/
def dec (a : Idx) : Idx := ⟨a.base, a.i - 1⟩
/-- `operator+=`. Models uiterator.h:452. -/
def addAssign (a : Idx) (n : Nat) : Idx := ⟨a.base, a.i + n⟩
/-- `operator-=`. Models uiterator.h:453. -/
def subAssign (a : Idx) (n : Nat) : Idx := ⟨a.base, a.i - n⟩
/-- `operator+`. Models uiterator.h:454. -/
def add (a : Idx) (n : Nat) : Idx := ⟨a.base, a.i + n⟩
/-- `operator-` of an offset. Models uiterator.h:455. -/
def sub (a : Idx) (n : Nat) : Idx := ⟨a.base, a.i - n⟩
/-- `operator[]`. Models uiterator.h:456. -/
def at' (xs : List Nat) (a : Idx) (n : Nat) : Option Int := (a.add n).get xs
/-- `operator-` of an iterator. Models uiterator.h:457. -/
def diff (a b : Idx) : Int := distance a.i b.i
end Idx

/-- `copy (first, last, result)` into an output iterator whose state is `σ`: `*result = v; ++result` for each element.
Models ualgobase.h:77-83. -/
def copyTo {α σ : Type} (assign : σ → α → Option σ) (next : σ → σ) : List α → σ → Option σ
  | [], s => some s
  | v :: vs, s => (assign s v).bind fun s => copyTo assign next vs (next s)

/-- An `insert_iterator` on a container: the contents and the position `_ip`. The container may move its elements on
insertion; the iterator takes the position it returns. -/
structure Ins (α : Type) where
  l : List α
  ip : Nat

/-- `insert_iterator::operator=`: `_ip = _rctr.insert (_ip, v)`. `insert` is that of vector or list: it puts `v` before
the position and returns the position of `v`. Models uiterator.h:342-343. -/
def Ins.assign {α : Type} (s : Ins α) (v : α) : Option (Ins α) :=
  if s.ip ≤ s.l.length then some ⟨s.l.take s.ip ++ v :: s.l.drop s.ip, s.ip⟩ else none

/-- `insert_iterator::operator++`. Models uiterator.h:345. -/
def Ins.inc {α : Type} (s : Ins α) : Ins α := ⟨s.l, s.ip + 1⟩

/-- `back_insert_iterator::operator=`: `push_back`; `operator++` does nothing. Models uiterator.h:374-377. -/
def backAssign {α : Type} (l : List α) (v : α) : Option (List α) := some (l ++ [v])

/-- `front_insert_iterator::operator=`: `push_front`; `operator++` does nothing. Models uiterator.h:405-408. -/
def frontAssign {α : Type} (l : List α) (v : α) : Option (List α) := some (v :: l)

end Ustl.Iter
