import Verif.Permute.Model
import Verif.Bytes.Model
/-!
# cmemlink, memlink, memblock (cmemlink.h/.cc, memlink.h/.cc, memblock.h/.cc)

The heap is a map from block numbers to blocks; a block is a list of cells with a flag telling malloc'ed
blocks from foreign memory (static arrays, other people's buffers). A pointer is a block number and an
offset. Everything the C++ standard leaves undefined (access outside a block or to a freed block, freeing
what is not a live malloc'ed block) and every store by a library function into foreign memory makes the
operation `none`. `size_t` arithmetic is modelled by unbounded naturals except in `NextPow2`, which is
32 bits wide and is modelled exactly.

An operation that may allocate takes the allocator's answer as an argument: `none` is failure (the
operation throws `bad_alloc`), `some junk` success, with `junk` the unspecified contents of fresh memory.
Operations return the completion flag (`true` = returned, `false` = threw `bad_alloc`), the heap and the
object.

`mf` is `minimumFreeCapacity()`: 0 for `memblock`, 1 for `string` (ustring.h). `rot` is the build's
`rotate` on bytes.
-/
namespace Ustl.Memblock
variable {α : Type _}

/-- A block of memory; `heap` distinguishes malloc'ed blocks from foreign memory. -/
structure Blk (α : Type _) where
  heap : Bool
  bytes : List α

/-- All memory blocks; numbers from `next` on have never been used. -/
structure Heap (α : Type _) where
  blk : Nat → Option (Blk α)
  next : Nat

/-- A `memblock` object: `_data`, `_size` (cmemlink.h:80-81) and `_capacity` (memblock.h:59). -/
structure Obj where
  ptr : Option (Nat × Nat)
  size : Nat
  cap : Nat
deriving DecidableEq

/-- The default constructor. Models memblock.h:23, cmemlink.h:51. -/
def Obj.empty : Obj := ⟨none, 0, 0⟩

/-- Replace one block. -/
def Heap.setBlk (h : Heap α) (id : Nat) (b : Option (Blk α)) : Heap α :=
  { h with blk := fun k => if k = id then b else h.blk k }

/-- `free (p)`: only a live malloc'ed block, by its start address. -/
def Heap.free (h : Heap α) (p : Nat × Nat) : Option (Heap α) :=
  match h.blk p.1 with
  | some ⟨true, _⟩ => if p.2 = 0 then some (h.setBlk p.1 none) else none
  | _ => none

/-- `malloc (n)` when it succeeds: a new block of `n` cells. -/
def Heap.malloc (h : Heap α) (n : Nat) (bytes : List α) (junk : Nat → α) : Heap α :=
  { blk := fun k => if k = h.next then some ⟨true, bytes.take n ++ (List.range (n - bytes.length)).map junk⟩
                    else h.blk k,
    next := h.next + 1 }

/-- `realloc (p, n)`: `p` must be null or a live malloc'ed block; `realloc (p, 0)` frees and returns null;
otherwise the result is a new block that starts with the old contents and the old block is gone.
The inner option is the returned pointer. -/
def realloc (a : Option (Nat → α)) (h : Heap α) (p : Option (Nat × Nat)) (n : Nat) :
    Option (Heap α × Option Nat) :=
  match p with
  | none =>
    match a with
    | none => some (h, none)
    | some junk => some (h.malloc n [] junk, some h.next)
  | some p =>
    match h.blk p.1 with
    | some ⟨true, bytes⟩ =>
      if p.2 ≠ 0 then none
      else if n = 0 then some (h.setBlk p.1 none, none)
      else
        match a with
        | none => some (h, none)
        | some junk => some ((h.setBlk p.1 none).malloc n bytes junk, some h.next)
    | _ => none

/-- Read `n` cells at `p`. -/
def ld (h : Heap α) (p : Option (Nat × Nat)) (n : Nat) : Option (List α) :=
  if n = 0 then some []
  else
    match p with
    | none => none
    | some p =>
      match h.blk p.1 with
      | none => none
      | some b => if p.2 + n ≤ b.bytes.length then some ((b.bytes.drop p.2).take n) else none

/-- Store `xs` at `p`; only into malloc'ed memory. -/
def st (h : Heap α) (p : Option (Nat × Nat)) (xs : List α) : Option (Heap α) :=
  if xs = [] then some h
  else
    match p with
    | none => none
    | some p =>
      match h.blk p.1 with
      | some ⟨true, bytes⟩ =>
        if p.2 + xs.length ≤ bytes.length then
          some (h.setBlk p.1 (some ⟨true, bytes.take p.2 ++ xs ++ bytes.drop (p.2 + xs.length)⟩))
        else none
      | _ => none

/-- `NextPow2` on the low 32 bits of its argument: `1 << (1 + index of the highest bit of v-1)`, and 1 when
that shift would be by 32. For `v = 1` the highest bit of 0 is taken as 0, which is what both the `bsr`
path (destination unchanged) and `FirstBit (0, 0)` give. Models uutility.h:279-287. -/
def nextPow2 (v : Nat) : Nat :=
  let r := (v + 2 ^ 32 - 1) % 2 ^ 32
  if 2 ^ 31 ≤ r then 1 else 2 ^ (1 + Nat.log2 r)

/-- `memblock::reserve`. The copy of linked data is `min (size() + 1, newSize)` bytes, as written.
Models memblock.cc:80-95 (with `link` and `unlink`, cmemlink.cc:18-24, memblock.cc:21-25). -/
def reserve (mf : Nat) (h : Heap α) (o : Obj) (newSize : Nat) (exact : Bool) (a : Option (Nat → α)) :
    Option (Bool × Heap α × Obj) :=
  let n := newSize + mf
  if n ≤ o.cap then some (true, h, o)
  else
    let old := if o.cap = 0 then none else o.ptr
    let n' := if exact then n else nextPow2 n
    match realloc a h old n' with
    | none => none
    | some (h1, none) => some (false, h1, o)
    | some (h1, some id) =>
      if old = none ∧ o.ptr ≠ none then
        match ld h1 o.ptr (min (o.size + 1) n') with
        | none => none
        | some xs =>
          match st h1 (some (id, 0)) xs with
          | none => none
          | some h2 => some (true, h2, ⟨some (id, 0), o.size, n'⟩)
      else some (true, h1, ⟨some (id, 0), o.size, n'⟩)

/-- `memblock::resize` (the default is exact). Models memblock.cc:28-33, memlink.h (`memlink::resize` just
sets the size). -/
def resize (mf : Nat) (h : Heap α) (o : Obj) (newSize : Nat) (exact : Bool) (a : Option (Nat → α)) :
    Option (Bool × Heap α × Obj) :=
  if o.cap < newSize + mf then
    match reserve mf h o newSize exact a with
    | none => none
    | some (false, h1, o1) => some (false, h1, o1)
    | some (true, h1, o1) => some (true, h1, { o1 with size := newSize })
  else some (true, h, { o with size := newSize })

/-- `memblock::assign (p, n)`: resize, then copy. Models memblock.cc:63-68; `assign (const cmemlink&)`,
`operator=` and the copy constructors (memblock.cc:14-18, memblock.h:31-34) call it with the other
object's pointer and size. -/
def assign (mf : Nat) (h : Heap α) (o : Obj) (p : Option (Nat × Nat)) (n : Nat) (a : Option (Nat → α)) :
    Option (Bool × Heap α × Obj) :=
  match resize mf h o n true a with
  | none => none
  | some (false, h1, o1) => some (false, h1, o1)
  | some (true, h1, o1) =>
    match ld h1 p n with
    | none => none
    | some xs =>
      match st h1 o1.ptr xs with
      | none => none
      | some h2 => some (true, h2, o1)

/-- `rotate (begin() + f, begin() + m, begin() + size())` inside a memblock: a rotation with an empty half
returns at once, otherwise it writes to the block. Models memlink.h:75-93, ualgobase.cc:225-229. -/
def rotateIn (rot : List α → Nat → Nat → Nat → Option (List α)) (h : Heap α) (o : Obj) (f m : Nat) :
    Option (Heap α) :=
  if f = m ∨ m = o.size then some h
  else
    match o.ptr with
    | none => none
    | some p =>
      match h.blk p.1 with
      | some ⟨true, bytes⟩ =>
        match rot bytes (p.2 + f) (p.2 + m) (p.2 + o.size) with
        | none => none
        | some bytes' => some (h.setBlk p.1 (some ⟨true, bytes'⟩))
      | _ => none

/-- `memblock::insert`. Models memblock.cc:110-117, memlink.h:75-82. -/
def insert (mf : Nat) (rot : List α → Nat → Nat → Nat → Option (List α)) (h : Heap α) (o : Obj) (ip n : Nat)
    (a : Option (Nat → α)) : Option (Bool × Heap α × Obj) :=
  if ip ≤ o.size then
    match resize mf h o (o.size + n) false a with
    | none => none
    | some (false, h1, o1) => some (false, h1, o1)
    | some (true, h1, o1) =>
      match rotateIn rot h1 o1 ip (o1.size - n) with
      | none => none
      | some h2 => some (true, h2, o1)
  else none

/-- `memblock::erase`. Models memblock.cc:120-129, memlink.h:86-93. -/
def erase (mf : Nat) (rot : List α → Nat → Nat → Nat → Option (List α)) (h : Heap α) (o : Obj) (ep n : Nat)
    (a : Option (Nat → α)) : Option (Bool × Heap α × Obj) :=
  if ep + n ≤ o.size then
    match reserve mf h o o.size false a with
    | none => none
    | some (false, h1, o1) => some (false, h1, o1)
    | some (true, h1, o1) =>
      match rotateIn rot h1 o1 ep (ep + n) with
      | none => none
      | some h2 => some (true, h2, { o1 with size := o1.size - n })
  else none

/-- `memblock::unlink`: forgets the block without freeing it. Models memblock.cc:21-25. -/
def unlink (_ : Obj) : Obj := Obj.empty

/-- `memblock::link (p, n)`, `p` not null. Models cmemlink.cc:18-24. -/
def link (_ : Obj) (p : Nat × Nat) (n : Nat) : Obj := ⟨some p, n, 0⟩

/-- `memblock::manage (p, n)`; requires (asserts) that nothing is owned. Models memblock.cc:48-54. -/
def manage (o : Obj) (id n : Nat) : Option Obj :=
  if o.cap = 0 then some ⟨some (id, 0), n, n⟩ else none

/-- `memblock::deallocate`, also the destructor. Models memblock.cc:36-44, 19. -/
def deallocate (h : Heap α) (o : Obj) : Option (Heap α × Obj) :=
  if o.cap ≠ 0 then
    match o.ptr with
    | none => none
    | some p =>
      match h.free p with
      | none => none
      | some h' => some (h', unlink o)
  else some (h, unlink o)

/-- `memblock::shrink_to_fit`. Models memblock.cc:98-107. -/
def shrinkToFit (h : Heap α) (o : Obj) (a : Option (Nat → α)) : Option (Bool × Heap α × Obj) :=
  if o.cap = 0 then some (true, h, o)
  else
    match realloc a h o.ptr o.size with
    | none => none
    | some (h1, none) =>
      if o.size ≠ 0 then some (false, h1, o) else some (true, h1, ⟨none, o.size, o.size⟩)
    | some (h1, some id) => some (true, h1, ⟨some (id, 0), o.size, o.size⟩)

/-- `begin()[k] = x` by the user, into owned memory. -/
def poke (h : Heap α) (o : Obj) (k : Nat) (x : α) : Option (Heap α) :=
  match o.ptr with
  | none => none
  | some p => st h (some (p.1, p.2 + k)) [x]

/-- The bytes visible through `begin()` and `size()`. -/
def view (h : Heap α) (o : Obj) : List α :=
  match o.ptr with
  | none => []
  | some p =>
    match h.blk p.1 with
    | none => []
    | some b => (b.bytes.drop p.2).take o.size

/-! ## Histories over several objects -/

/-- All objects of a program and its heap. Objects not yet constructed are the empty object. -/
structure World (α : Type _) where
  heap : Heap α
  obj : Nat → Obj

/-- Replace one object. -/
def World.setObj (w : World α) (i : Nat) (o : Obj) : World α :=
  { w with obj := fun k => if k = i then o else w.obj k }

/-- The operations of a history; `i`, `j` name objects. `assignForeign` and `linkForeign` take a pointer
into foreign memory; `manage` passes ownership of a fresh malloc'ed block with the given contents.
Move construction and move assignment are `swap` (memblock.h:53-54), copy construction is
`assignObj` into an empty object, destruction is `deallocate`. -/
inductive Op (α : Type _) where
  | reserve (i n : Nat) (exact : Bool)
  | resize (i n : Nat) (exact : Bool)
  | assignForeign (i : Nat) (p : Nat × Nat) (n : Nat)
  | assignObj (i j : Nat)
  | insert (i ip n : Nat)
  | erase (i ep n : Nat)
  | clear (i : Nat)
  | linkForeign (i : Nat) (p : Nat × Nat) (n : Nat)
  | unlink (i : Nat)
  | manage (i : Nat) (bytes : List α)
  | copyLink (i : Nat)
  | deallocate (i : Nat)
  | shrinkToFit (i : Nat)
  | swap (i j : Nat)
  | poke (i k : Nat) (x : α)

/-- Store the outcome of an operation on object `i`. -/
def World.put (w : World α) (i : Nat) : Option (Bool × Heap α × Obj) → Option (Bool × World α)
  | none => none
  | some (ok, h, o) => some (ok, { heap := h, obj := fun k => if k = i then o else w.obj k })

/-- One operation. -/
def step (mf : Nat) (rot : List α → Nat → Nat → Nat → Option (List α)) (w : World α) (op : Op α)
    (a : Option (Nat → α)) : Option (Bool × World α) :=
  match op with
  | .reserve i n e => w.put i (reserve mf w.heap (w.obj i) n e a)
  | .resize i n e => w.put i (resize mf w.heap (w.obj i) n e a)
  | .assignForeign i p n => w.put i (assign mf w.heap (w.obj i) (some p) n a)
  | .assignObj i j => w.put i (assign mf w.heap (w.obj i) (w.obj j).ptr (w.obj j).size a)
  | .insert i ip n => w.put i (insert mf rot w.heap (w.obj i) ip n a)
  | .erase i ep n => w.put i (erase mf rot w.heap (w.obj i) ep n a)
  | .clear i => w.put i (resize mf w.heap (w.obj i) 0 true a)
  | .linkForeign i p n => w.put i (some (true, w.heap, link (w.obj i) p n))
  | .unlink i => w.put i (some (true, w.heap, unlink (w.obj i)))
  | .manage i bytes =>
    w.put i ((manage (w.obj i) w.heap.next bytes.length).map fun o =>
      (true, { blk := fun k => if k = w.heap.next then some ⟨true, bytes⟩ else w.heap.blk k,
               next := w.heap.next + 1 }, o))
  | .copyLink i => w.put i (reserve mf w.heap (w.obj i) (w.obj i).size false a)
  | .deallocate i => w.put i ((deallocate w.heap (w.obj i)).map fun r => (true, r.1, r.2))
  | .shrinkToFit i => w.put i (shrinkToFit w.heap (w.obj i) a)
  | .swap i j => some (true, (w.setObj i (w.obj j)).setObj j (w.obj i))
  | .poke i k x => w.put i ((poke w.heap (w.obj i) k x).map fun h => (true, h, w.obj i))

end Ustl.Memblock
