import Verif.Memblock.Model
/-!
# vector (uvector.h)

A vector is a memblock (its only member `_data`) whose cells are either raw or part of a live element, so
that constructing over a live element, destroying or assigning to a raw slot, and losing or duplicating an
element are all undefined behaviour in the model. Element types have a fixed number `sz = sizeof(T)` of
bytes per element (`enc`); elements are moved bitwise by `realloc` and `rotate`, as uSTL documents.
Constructing or destroying several elements is modelled as one step over the concatenated bytes; exceptions
thrown by element constructors are not modelled. The vectors are never linked to foreign memory
(`link`/`manage` are memblock operations, treated in `Verif.Memblock`); sizes are multiples of `sz`.
-/
namespace Ustl.Vector
open Ustl.Memblock

/-- A byte of storage. -/
inductive Cell (β : Type _) where
  | raw
  | live (b : β)
deriving DecidableEq

variable {β T : Type _} (enc : T → List β) (sz : Nat) (rot : List (Cell β) → Nat → Nat → Nat → Option (List (Cell β)))

/-- The representation of a sequence of live elements. -/
def lv (xs : List T) : List (Cell β) := xs.flatMap fun t => (enc t).map Cell.live

/-- The allocator's answer: fresh memory is raw. -/
def allocAns (ok : Bool) : Option (Nat → Cell β) := if ok then some fun _ => .raw else none

/-- `n` cells at `p` satisfy `q` (all raw, or all live). -/
def cellsAre (q : Cell β → Bool) (h : Heap (Cell β)) (p : Option (Nat × Nat)) (n : Nat) : Bool :=
  match ld h p n with
  | none => false
  | some xs => xs.all q

/-- Is the cell raw? -/
def Cell.isRaw : Cell β → Bool
  | .raw => true
  | .live _ => false

/-- Advance a pointer. -/
def adv (p : Option (Nat × Nat)) (k : Nat) : Option (Nat × Nat) := p.map fun q => (q.1, q.2 + k)

/-- Construct the elements `xs` at `p`: the slots must be raw. Models umemory.h `construct_at`,
`uninitialized_copy`, `uninitialized_fill`, `uninitialized_default_construct` (umemory.h:307-353, 440-478). -/
def construct (h : Heap (Cell β)) (p : Option (Nat × Nat)) (xs : List T) : Option (Heap (Cell β)) :=
  if cellsAre Cell.isRaw h p (xs.length * sz) then st h p (lv enc xs) else none

/-- Destroy the elements in `n` bytes at `p`: they must be live. Models umemory.h `destroy`, `destroy_n` (umemory.h:370-409). -/
def destroyN (h : Heap (Cell β)) (p : Option (Nat × Nat)) (n : Nat) : Option (Heap (Cell β)) :=
  if cellsAre (fun c => !c.isRaw) h p n then st h p (List.replicate n .raw) else none

/-- Copy-assign to live elements at `p`. Models `copy` and `fill` on elements (ualgobase.h:78-137). -/
def assignElems (h : Heap (Cell β)) (p : Option (Nat × Nat)) (xs : List T) : Option (Heap (Cell β)) :=
  if cellsAre (fun c => !c.isRaw) h p (xs.length * sz) then st h p (lv enc xs) else none

/-- `vector::append_hole (n)`: reserve, then extend the size. Models uvector.h:139-147. -/
def appendHole (h : Heap (Cell β)) (o : Obj) (n : Nat) (a : Bool) : Option (Bool × Heap (Cell β) × Obj) :=
  match reserve 0 h o (o.size + n * sz) false (allocAns a) with
  | none => none
  | some (false, h1, o1) => some (false, h1, o1)
  | some (true, h1, o1) => some (true, h1, { o1 with size := o.size + n * sz })

/-- Append constructed elements: `push_back (v)` with one, the copying and range constructors and the
initializer-list constructor with several. Models uvector.h:319-324, 185-206, 111. -/
def append (h : Heap (Cell β)) (o : Obj) (xs : List T) (a : Bool) : Option (Bool × Heap (Cell β) × Obj) :=
  match appendHole sz h o xs.length a with
  | none => none
  | some (false, h1, o1) => some (false, h1, o1)
  | some (true, h1, o1) =>
    match construct enc sz h1 (adv o1.ptr o.size) xs with
    | none => none
    | some h2 => some (true, h2, o1)

/-- `vector::pop_back`. Models uvector.h:83. -/
def popBack (h : Heap (Cell β)) (o : Obj) : Option (Heap (Cell β) × Obj) :=
  if o.size < sz then none
  else
    match destroyN h (adv o.ptr (o.size - sz)) sz with
    | none => none
    | some h1 => some (h1, { o with size := o.size - sz })

/-- `vector::resize (n, v)`; `resize (n)` is the same with `v = T()`. Models uvector.h:150-175. -/
def resizeV (h : Heap (Cell β)) (o : Obj) (n : Nat) (v : T) (a : Bool) : Option (Bool × Heap (Cell β) × Obj) :=
  let nb := n * sz
  match reserve 0 h o nb false (allocAns a) with
  | none => none
  | some (false, h1, o1) => some (false, h1, o1)
  | some (true, h1, o1) =>
    if nb < o1.size then
      match destroyN h1 (adv o1.ptr nb) (o1.size - nb) with
      | none => none
      | some h2 => some (true, h2, { o1 with size := nb })
    else
      match construct enc sz h1 (adv o1.ptr o1.size) (List.replicate (n - o1.size / sz) v) with
      | none => none
      | some h2 => some (true, h2, { o1 with size := nb })

/-- Insert constructed elements before element `ip`: `insert (ip, v)`, `insert (ip, n, v)`,
`insert (ip, i1, i2)`, through `insert_hole`. Models uvector.h:257-300. -/
def insertV (h : Heap (Cell β)) (o : Obj) (ip : Nat) (xs : List T) (a : Bool) :
    Option (Bool × Heap (Cell β) × Obj) :=
  match reserve 0 h o ((o.size / sz + xs.length) * sz) false (allocAns a) with
  | none => none
  | some (false, h1, o1) => some (false, h1, o1)
  | some (true, h1, o1) =>
    match Memblock.insert 0 rot h1 o1 (ip * sz) (xs.length * sz) (allocAns a) with
    | none => none
    | some (false, h2, o2) => some (false, h2, o2)
    | some (true, h2, o2) =>
      match construct enc sz h2 (adv o2.ptr (ip * sz)) xs with
      | none => none
      | some h3 => some (true, h3, o2)

/-- `vector::erase (ep, n)`: destroy, then close the gap. Models uvector.h:303-317. -/
def eraseV (h : Heap (Cell β)) (o : Obj) (ep n : Nat) (a : Bool) : Option (Bool × Heap (Cell β) × Obj) :=
  match destroyN h (adv o.ptr (ep * sz)) (n * sz) with
  | none => none
  | some h1 => Memblock.erase 0 rot h1 o (ep * sz) (n * sz) (allocAns a)

/-- `vector::assign (i1, i2)` / `assign (n, v)` / `operator=`: resize with default elements, then copy.
Models uvector.h:232-254. -/
def assignV (h : Heap (Cell β)) (o : Obj) (xs : List T) (dflt : T) (a : Bool) :
    Option (Bool × Heap (Cell β) × Obj) :=
  match resizeV enc sz h o xs.length dflt a with
  | none => none
  | some (false, h1, o1) => some (false, h1, o1)
  | some (true, h1, o1) =>
    match assignElems enc sz h1 o1.ptr xs with
    | none => none
    | some h2 => some (true, h2, o1)

/-- `vector::destroy_all`. Models uvector.h:126-127. -/
def destroyAll (h : Heap (Cell β)) (o : Obj) : Option (Heap (Cell β)) :=
  if o.cap = 0 then some h else destroyN h o.ptr o.size

/-- `vector::clear`. Models uvector.h:84. -/
def clearV (h : Heap (Cell β)) (o : Obj) (a : Bool) : Option (Bool × Heap (Cell β) × Obj) :=
  match destroyAll h o with
  | none => none
  | some h1 => Memblock.resize 0 h1 o 0 true (allocAns a)

/-- The destructor, and `vector::deallocate`. Freeing a block that still holds a live element (losing the
element without running its destructor) is made an error here. Models uvector.h:179-183, 225-229. -/
def destructV (h : Heap (Cell β)) (o : Obj) : Option (Heap (Cell β) × Obj) :=
  match destroyAll h o with
  | none => none
  | some h1 => if cellsAre Cell.isRaw h1 o.ptr o.cap then Memblock.deallocate h1 o else none

/-- `v[k] = x`. Models uvector.h:74-76 (element access) with `T::operator=`. -/
def setElem (h : Heap (Cell β)) (o : Obj) (k : Nat) (x : T) : Option (Heap (Cell β)) :=
  if (k + 1) * sz ≤ o.size then assignElems enc sz h (adv o.ptr (k * sz)) [x] else none

/-- `v[k]`, `front()` (`k = 0`), `back()` (`k = size() - 1`): the element's bytes.
Models uvector.h:72-80. -/
def getElem (h : Heap (Cell β)) (o : Obj) (k : Nat) : Option (List (Cell β)) :=
  if (k + 1) * sz ≤ o.size then ld h (adv o.ptr (k * sz)) sz else none

/-- `v.push_back (v[k])`: the argument is a reference into the vector, so it is read from the address the
element had before `append_hole`. Models uvector.h:320-324. -/
def pushBackRef (h : Heap (Cell β)) (o : Obj) (k : Nat) (a : Bool) : Option (Bool × Heap (Cell β) × Obj) :=
  let ref := adv o.ptr (k * sz)
  match appendHole sz h o 1 a with
  | none => none
  | some (false, h1, o1) => some (false, h1, o1)
  | some (true, h1, o1) =>
    match ld h1 ref sz with
    | none => none
    | some bs =>
      match st h1 (adv o1.ptr o.size) bs with
      | none => none
      | some h2 => some (true, h2, o1)

/-- `v.insert (v.begin() + ip, v[k])`, likewise with a reference into the vector. Models uvector.h:284-290. -/
def insertRef (h : Heap (Cell β)) (o : Obj) (ip k : Nat) (a : Bool) : Option (Bool × Heap (Cell β) × Obj) :=
  let ref := adv o.ptr (k * sz)
  match reserve 0 h o ((o.size / sz + 1) * sz) false (allocAns a) with
  | none => none
  | some (false, h1, o1) => some (false, h1, o1)
  | some (true, h1, o1) =>
    match Memblock.insert 0 rot h1 o1 (ip * sz) sz (allocAns a) with
    | none => none
    | some (false, h2, o2) => some (false, h2, o2)
    | some (true, h2, o2) =>
      match ld h2 ref sz with
      | none => none
      | some bs =>
        match st h2 (adv o2.ptr (ip * sz)) bs with
        | none => none
        | some h3 => some (true, h3, o2)

/-- The operations of a history over several vectors. `assignObj` is `operator=`; copy construction is
`assignObj` (from the model's point of view: `append` of the other's elements) into an empty vector; move
construction and move assignment are `swap`; `destruct` is the destructor. -/
inductive Op (T : Type _) where
  | reserve (i n : Nat)
  | append (i : Nat) (xs : List T)
  | popBack (i : Nat)
  | resize (i n : Nat) (v : T)
  | insert (i ip : Nat) (xs : List T)
  | erase (i ep n : Nat)
  | assign (i : Nat) (xs : List T) (dflt : T)
  | clear (i : Nat)
  | set (i k : Nat) (x : T)
  | swap (i j : Nat)
  | shrinkToFit (i : Nat)
  | destruct (i : Nat)

/-- One operation; `a` tells whether the allocator succeeds if asked. -/
def step (w : World (Cell β)) (op : Op T) (a : Bool) : Option (Bool × World (Cell β)) :=
  match op with
  | .reserve i n => w.put i (Memblock.reserve 0 w.heap (w.obj i) (n * sz) false (allocAns a))
  | .append i xs => w.put i (append enc sz w.heap (w.obj i) xs a)
  | .popBack i => w.put i ((popBack sz w.heap (w.obj i)).map fun r => (true, r.1, r.2))
  | .resize i n v => w.put i (resizeV enc sz w.heap (w.obj i) n v a)
  | .insert i ip xs => w.put i (insertV enc sz rot w.heap (w.obj i) ip xs a)
  | .erase i ep n => w.put i (eraseV sz rot w.heap (w.obj i) ep n a)
  | .assign i xs d => w.put i (assignV enc sz w.heap (w.obj i) xs d a)
  | .clear i => w.put i (clearV w.heap (w.obj i) a)
  | .set i k x => w.put i ((setElem enc sz w.heap (w.obj i) k x).map fun h => (true, h, w.obj i))
  | .swap i j => some (true, (w.setObj i (w.obj j)).setObj j (w.obj i))
  | .shrinkToFit i => w.put i (shrinkToFit w.heap (w.obj i) (allocAns a))
  | .destruct i => w.put i ((destructV w.heap (w.obj i)).map fun r => (true, r.1, r.2))

end Ustl.Vector
