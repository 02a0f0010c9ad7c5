import Verif.Memblock.Model
/-!
# vector linked to memory it does not own (uvector.h:95-104)

`vector::link` makes a vector a view of somebody else's array, `manage` gives it a malloc'ed block to free,
`unlink` makes it forget its block and `copy_link` makes it take a private copy. All other members are the
ordinary ones: this file models them for a *plain* element type (`is_pod`: destroying does nothing,
umemory.h:384-387, 397), whose values are `sz = sizeof(T)` bytes, on any memblock, linked or not. The byte-level
machine is that of `Verif.Memblock.Model`: reading outside a block, freeing what is not a live malloc'ed block
and writing to foreign memory are undefined (`none`). What linking does with elements that have destructors is
in `Verif.VecLink.Owning`, on the model of `Verif.Vector.Model`.
-/
namespace Ustl.VecLink
open Ustl.Memblock

variable {α T : Type _} (enc : T → List α) (sz : Nat) (rot : List α → Nat → Nat → Nat → Option (List α))

/-- The bytes of a sequence of elements. -/
def encs (xs : List T) : List α := xs.flatMap enc

/-- Advance a pointer. -/
def adv (p : Option (Nat × Nat)) (k : Nat) : Option (Nat × Nat) := p.map fun q => (q.1, q.2 + k)

/-- Append: `push_back (v)` (one element), `append_hole` followed by constructing the new elements.
Models uvector.h:138-147, 319-324. -/
def append (h : Heap α) (o : Obj) (xs : List T) (a : Option (Nat → α)) : Option (Bool × Heap α × Obj) :=
  match reserve 0 h o (o.size + xs.length * sz) false a with
  | none => none
  | some (false, h1, o1) => some (false, h1, o1)
  | some (true, h1, o1) =>
    match st h1 (adv o1.ptr o1.size) (encs enc xs) with
    | none => none
    | some h2 => some (true, h2, { o1 with size := o.size + xs.length * sz })

/-- `pop_back`: only the size changes. Models uvector.h:83. -/
def popBack (h : Heap α) (o : Obj) : Option (Heap α × Obj) :=
  if o.size < sz then none else some (h, { o with size := o.size - sz })

/-- `resize (n, v)`, and `resize (n)` with `v = T()`. Models uvector.h:150-175. -/
def resize (h : Heap α) (o : Obj) (n : Nat) (v : T) (a : Option (Nat → α)) : Option (Bool × Heap α × Obj) :=
  match reserve 0 h o (n * sz) false a with
  | none => none
  | some (false, h1, o1) => some (false, h1, o1)
  | some (true, h1, o1) =>
    if n * sz < o1.size then some (true, h1, { o1 with size := n * sz })
    else
      match st h1 (adv o1.ptr o1.size) (encs enc (List.replicate (n - o1.size / sz) v)) with
      | none => none
      | some h2 => some (true, h2, { o1 with size := n * sz })

/-- `insert (ip, v)`, `insert (ip, n, v)`, `insert (ip, i1, i2)`, through `insert_hole`.
Models uvector.h:257-300. -/
def insert (h : Heap α) (o : Obj) (ip : Nat) (xs : List T) (a : Option (Nat → α)) :
    Option (Bool × Heap α × Obj) :=
  match reserve 0 h o ((o.size / sz + xs.length) * sz) false a with
  | none => none
  | some (false, h1, o1) => some (false, h1, o1)
  | some (true, h1, o1) =>
    match Memblock.insert 0 rot h1 o1 (ip * sz) (xs.length * sz) a with
    | none => none
    | some (false, h2, o2) => some (false, h2, o2)
    | some (true, h2, o2) =>
      match st h2 (adv o2.ptr (ip * sz)) (encs enc xs) with
      | none => none
      | some h3 => some (true, h3, o2)

/-- `erase (ep, n)`. Models uvector.h:303-317. -/
def erase (h : Heap α) (o : Obj) (ep n : Nat) (a : Option (Nat → α)) : Option (Bool × Heap α × Obj) :=
  Memblock.erase 0 rot h o (ep * sz) (n * sz) a

/-- `assign (i1, i2)`, `assign (n, v)`, `operator=`: resize, then copy over. Models uvector.h:231-254. -/
def assign (h : Heap α) (o : Obj) (xs : List T) (dflt : T) (a : Option (Nat → α)) :
    Option (Bool × Heap α × Obj) :=
  match resize enc sz h o xs.length dflt a with
  | none => none
  | some (false, h1, o1) => some (false, h1, o1)
  | some (true, h1, o1) =>
    match st h1 o1.ptr (encs enc xs) with
    | none => none
    | some h2 => some (true, h2, o1)

/-- `v[k] = x`. Models uvector.h:74-76. -/
def set (h : Heap α) (o : Obj) (k : Nat) (x : T) : Option (Heap α) :=
  if (k + 1) * sz ≤ o.size then st h (adv o.ptr (k * sz)) (enc x) else none

/-- `v[k]`. Models uvector.h:74-77. -/
def get (h : Heap α) (o : Obj) (k : Nat) : Option (List α) :=
  if (k + 1) * sz ≤ o.size then ld h (adv o.ptr (k * sz)) sz else none

/-- The operations of a history over several vectors. `link i p n` links vector `i` to `n` elements of foreign
memory at `p`; `manage i xs` passes it a fresh malloc'ed block holding `xs`; `swap` is also move construction
and move assignment; `destruct` is the destructor and `deallocate`. -/
inductive Op (T : Type _) where
  | link (i : Nat) (p : Nat × Nat) (n : Nat)
  | manage (i : Nat) (xs : List T)
  | unlink (i : Nat)
  | copyLink (i : Nat)
  | reserve (i n : Nat)
  | append (i : Nat) (xs : List T)
  | popBack (i : Nat)
  | resize (i n : Nat) (v : T)
  | insert (i ip : Nat) (xs : List T)
  | erase (i ep n : Nat)
  | assign (i : Nat) (xs : List T) (dflt : T)
  | clear (i : Nat)
  | set (i k : Nat) (x : T)
  | swap (i j : Nat)
  | shrinkToFit (i : Nat)
  | destruct (i : Nat)

/-- One operation. `link`, `manage`, `unlink`, `copy_link` are uvector.h:95-104 (memblock.cc:21-25, 47-60);
`reserve` is uvector.h:131-136; `clear`, `swap` and `shrink_to_fit` are uvector.h:84-89; the destructor of a plain
vector is that of its memblock (uvector.h:178-183, 224-229, memblock.cc:19, 36-44). -/
def step (w : World α) (op : Op T) (a : Option (Nat → α)) : Option (Bool × World α) :=
  match op with
  | .link i p n => w.put i (some (true, w.heap, Memblock.link (w.obj i) p (n * sz)))
  | .manage i xs =>
    w.put i ((Memblock.manage (w.obj i) w.heap.next (xs.length * sz)).map fun o =>
      (true, { blk := fun k => if k = w.heap.next then some ⟨true, encs enc xs⟩ else w.heap.blk k,
               next := w.heap.next + 1 }, o))
  | .unlink i => w.put i (some (true, w.heap, Memblock.unlink (w.obj i)))
  | .copyLink i => w.put i (Memblock.reserve 0 w.heap (w.obj i) (w.obj i).size false a)
  | .reserve i n => w.put i (Memblock.reserve 0 w.heap (w.obj i) (n * sz) false a)
  | .append i xs => w.put i (append enc sz w.heap (w.obj i) xs a)
  | .popBack i => w.put i ((popBack sz w.heap (w.obj i)).map fun r => (true, r.1, r.2))
  | .resize i n v => w.put i (resize enc sz w.heap (w.obj i) n v a)
  | .insert i ip xs => w.put i (insert enc sz rot w.heap (w.obj i) ip xs a)
  | .erase i ep n => w.put i (erase sz rot w.heap (w.obj i) ep n a)
  | .assign i xs d => w.put i (assign enc sz w.heap (w.obj i) xs d a)
  | .clear i => w.put i (Memblock.resize 0 w.heap (w.obj i) 0 true a)
  | .set i k x => w.put i ((set enc sz w.heap (w.obj i) k x).map fun h => (true, h, w.obj i))
  | .swap i j => some (true, (w.setObj i (w.obj j)).setObj j (w.obj i))
  | .shrinkToFit i => w.put i (shrinkToFit w.heap (w.obj i) a)
  | .destruct i => w.put i ((deallocate w.heap (w.obj i)).map fun r => (true, r.1, r.2))

end Ustl.VecLink
