import Verif.Stream.Model
/-!
# cmemlink and memlink (cmemlink.h, cmemlink.cc, memlink.h, memlink.cc)

A link is a pointer and a size; it owns nothing. Memory is a number of blocks, which belong to others. A pointer is a block
and an offset, or null (`none`). `none` as an outcome is undefined behaviour: an access outside a block. The assertions are not
part of the program (they are compiled out); what they ask for are hypotheses of the theorems. `rot` is the `rotate` of the
build (`Memblock.RotateOK`).
-/
namespace Ustl.Link

/-- The memory: the contents of each block. -/
abbrev Mem (α : Type _) := Nat → List α

/-- A pointer: block and offset; null is `none`. -/
abbrev Ptr := Option (Nat × Nat)

/-- `cmemlink`: `_data` and `_size`. Models cmemlink.h:80-81. -/
structure Lnk where
  /-- `_data` -/
  ptr : Ptr
  /-- `_size` -/
  size : Nat
deriving DecidableEq, Repr

/-- `cmemlink ()` and `unlink ()`. Models cmemlink.h:51, 59. -/
def Lnk.empty : Lnk := ⟨none, 0⟩

/-- Replace one block. -/
def setB {α : Type _} (m : Mem α) (b : Nat) (l : List α) : Mem α := fun k => if k = b then l else m k

/-- Memory and the links. -/
structure World (α : Type _) where
  /-- the blocks -/
  mem : Mem α
  /-- the links -/
  obj : Nat → Lnk

/-- Replace one link. -/
def World.setObj {α : Type _} (w : World α) (i : Nat) (o : Lnk) : World α := { w with obj := fun k => if k = i then o else w.obj k }

/-- `link (p, n)`: `false` if it throws `bad_alloc`. Models cmemlink.cc:18-24. -/
def link {α : Type _} (w : World α) (i : Nat) (p : Ptr) (n : Nat) : Bool × World α :=
  if p = none ∧ n ≠ 0 then (false, w) else (true, w.setObj i ⟨p, n⟩)

/-- `link (first, last)`. Models cmemlink.h:57. -/
def linkRange {α : Type _} (w : World α) (i : Nat) (b first last : Nat) : Bool × World α := link w i (some (b, first)) (last - first)

/-- `operator=`, and `link (l)`. Models cmemlink.h:56, 60, memlink.h:56-60. -/
def assign {α : Type _} (w : World α) (i j : Nat) : Bool × World α := link w i (w.obj j).ptr (w.obj j).size

/-- `swap (l)`: the three assignments of `::ustl::swap` for each of the two members. Models cmemlink.h:63, uutility.h (swap). -/
def swap {α : Type _} (w : World α) (i j : Nat) : World α :=
  let d := (w.obj i).ptr
  let w := w.setObj i { w.obj i with ptr := (w.obj j).ptr }
  let w := w.setObj j { w.obj j with ptr := d }
  let n := (w.obj i).size
  let w := w.setObj i { w.obj i with size := (w.obj j).size }
  w.setObj j { w.obj j with size := n }

/-- `resize (n)`: nothing is checked. Models cmemlink.h:73. -/
def resize {α : Type _} (w : World α) (i n : Nat) : World α := w.setObj i { w.obj i with size := n }

/-- One byte copied from `(sb, s)` to `(db, d)`. -/
def copy1 {α : Type _} (m : Mem α) (sb s db d : Nat) : Option (Mem α) :=
  match (m sb)[s]? with
  | none => none
  | some x => if d < (m db).length then some (setB m db ((m db).set d x)) else none

/-- `copy_n (s, n, d)`: byte after byte, which is what the fast versions do too for ranges that do not overlap.
Models ualgobase.h:93-99, 155-165. -/
def copyN {α : Type _} (m : Mem α) (sb s db d : Nat) : Nat → Option (Mem α)
  | 0 => some m
  | n + 1 => match copy1 m sb s db d with
    | none => none
    | some m' => copyN m' sb (s + 1) db (d + 1) n

/-- `fill_n (d, n, v)`. Models ualgobase.h:144-150. -/
def fillN {α : Type _} (m : Mem α) (x : α) (db d : Nat) : Nat → Option (Mem α)
  | 0 => some m
  | n + 1 => if d < (m db).length then fillN (setB m db ((m db).set d x)) x db (d + 1) n else none

/-- The loop of `fill`: `elCount` times `start = copy_n (p, elSize, start)`. Models memlink.cc:39-40. -/
def fillLoop {α : Type _} (m : Mem α) (sb s db d elSize : Nat) : Nat → Option (Mem α)
  | 0 => some m
  | c + 1 => match copyN m sb s db d elSize with
    | none => none
    | some m' => fillLoop m' sb s db (d + elSize) elSize c

/-- `fill (begin() + start, p, elSize, elCount)` with `p` the pointer `(sb, s)`. The pattern is read through `p` even if
nothing is written, when it is one byte long. A null link has nowhere to write to. Models memlink.cc:32-41. -/
def fill {α : Type _} (w : World α) (i start sb s elSize elCount : Nat) : Option (World α) :=
  match (w.obj i).ptr with
  | none => if elSize * elCount = 0 then some w else none
  | some (b, o) =>
    if elSize = 1 then
      match (w.mem sb)[s]? with
      | none => none
      | some x => (fillN w.mem x b (o + start) elCount).map fun m => { w with mem := m }
    else (fillLoop w.mem sb s b (o + start) elSize elCount).map fun m => { w with mem := m }

/-- `rotate (begin() + f, begin() + k, end())` on the linked bytes: with an empty half it returns at once.
Models memlink.h:80, 91, ualgobase.cc:225-229. -/
def rotateIn {α : Type _} (rot : List α → Nat → Nat → Nat → Option (List α)) (w : World α) (i f k : Nat) : Option (World α) :=
  if f = k ∨ k = (w.obj i).size then some w
  else match (w.obj i).ptr with
    | none => none
    | some (b, o) => (rot (w.mem b) (o + f) (o + k) (o + (w.obj i).size)).map fun l => { w with mem := setB w.mem b l }

/-- `memlink::insert (begin() + start, n)`. Models memlink.h:75-82. -/
def insert {α : Type _} (rot : List α → Nat → Nat → Nat → Option (List α)) (w : World α) (i start n : Nat) : Option (World α) :=
  rotateIn rot w i start ((w.obj i).size - n)

/-- `memlink::erase (begin() + start, n)`. Models memlink.h:86-93. -/
def erase {α : Type _} (rot : List α → Nat → Nat → Nat → Option (List α)) (w : World α) (i start n : Nat) : Option (World α) :=
  rotateIn rot w i start (start + n)

/-- A byte stored through the link: `*iat (k) = x`. Models memlink.h:49. -/
def poke {α : Type _} (w : World α) (i k : Nat) (x : α) : Option (World α) :=
  match (w.obj i).ptr with
  | none => none
  | some (b, o) => if o + k < (w.mem b).length then some { w with mem := setB w.mem b ((w.mem b).set (o + k) x) } else none

/-- The bytes of `[p, p + n)`: what `memcmp` and other readers get to see. -/
def load {α : Type _} (m : Mem α) (p : Ptr) (n : Nat) : Option (List α) :=
  match p with
  | none => if n = 0 then some [] else none
  | some (b, o) => if o + n ≤ (m b).length then some (((m b).drop o).take n) else none

/-- `operator==`. Models cmemlink.h:61-62. -/
def eq {α : Type _} [DecidableEq α] (w : World α) (i j : Nat) : Option Bool :=
  let a := w.obj i
  let l := w.obj j
  if l.size = a.size then
    if l.ptr = a.ptr then some true
    else match load w.mem l.ptr a.size, load w.mem a.ptr a.size with
      | some x, some y => some (decide (x = y))
      | _, _ => none
  else some false

/-- The operations. -/
inductive Op (α : Type _) where
  /-- `link (p, n)` -/
  | link (i : Nat) (p : Ptr) (n : Nat)
  /-- `unlink ()` -/
  | unlink (i : Nat)
  /-- `a = b`, `a.link (b)` -/
  | assign (i j : Nat)
  /-- `a.swap (b)` -/
  | swap (i j : Nat)
  /-- `resize (n)` -/
  | resize (i n : Nat)
  /-- `fill (iat (start), p, elSize, elCount)` -/
  | fill (i start sb s elSize elCount : Nat)
  /-- `insert (iat (start), n)` -/
  | insert (i start n : Nat)
  /-- `erase (iat (start), n)` -/
  | erase (i start n : Nat)
  /-- `*iat (k) = x` -/
  | poke (i k : Nat) (x : α)

/-- Run one operation: `none` is undefined behaviour, `false` an exception. -/
def step {α : Type _} (rot : List α → Nat → Nat → Nat → Option (List α)) (w : World α) : Op α → Option (Bool × World α)
  | .link i p n => some (link w i p n)
  | .unlink i => some (true, w.setObj i .empty)
  | .assign i j => some (assign w i j)
  | .swap i j => some (true, swap w i j)
  | .resize i n => some (true, resize w i n)
  | .fill i start sb s z c => (fill w i start sb s z c).map fun w => (true, w)
  | .insert i start n => (insert rot w i start n).map fun w => (true, w)
  | .erase i start n => (erase rot w i start n).map fun w => (true, w)
  | .poke i k x => (poke w i k x).map fun w => (true, w)

/-- Run a history; an exception does not end it. -/
def run {α : Type _} (rot : List α → Nat → Nat → Nat → Option (List α)) (w : World α) : List (Op α) → Option (World α)
  | [] => some w
  | op :: ops => match step rot w op with
    | none => none
    | some (_, w') => run rot w' ops

/-! ## Reading a link from a stream -/

open Ustl.Stream in
/-- `memlink::read` after the length `n`, into linked bytes `win`: the new contents, of `n` bytes; `none` if it throws
`length_error`. Models memlink.cc:16-22. -/
def linkBody (win : List Byte) (n : Nat) : M IS (Option (List Byte)) := do
  if ← IS.verify n then
    if win.length < n then pure none
    else
      let d ← IS.read (win.take n) n
      IS.align 4
      pure (some d)
  else pure (some win)

open Ustl.Stream in
/-- `memlink::read`. Models memlink.cc:12-23. -/
def readLink (win : List Byte) : M IS (Option (List Byte)) := do
  let n ← IS.readInt 4 0
  linkBody win n

end Ustl.Link
