/-! # operator new and operator delete (C104): model and specification

The library's own `operator new` and `delete` (used when it is built without libstdc++) over any `malloc` and `free` that do what C says. -/
namespace Ustl.New

/-- The memory of the program: its bytes, and the blocks that `malloc` gave and `free` has not taken back: address and size. -/
structure Mem where
  byte : Nat → UInt8
  live : Nat → Option Nat

/-- A C library: what its `malloc` and `free` do the n-th time they are called. `malloc` returns an address (0: a null pointer) and
leaves the bytes it leaves. Not code of the library; parameters of the model. -/
structure Lib where
  malloc : Nat → Mem → Nat → Nat × (Nat → UInt8)
  free : Nat → Mem → Nat → (Nat → UInt8)

/-- The byte at `a` belongs to a live block. -/
def Owned (m : Mem) (a : Nat) : Prop := ∃ p n, m.live p = some n ∧ p ≤ a ∧ a < p + n

/-- What C says of `malloc` and `free`: a block that is not null has no byte in common with a live one, and an address of its own even if it is
empty; nothing in the live blocks is changed by `malloc`, nor by `free` in those other than the one it frees. -/
structure Lib.Std (l : Lib) : Prop where
  apart : ∀ t m n p k, (l.malloc t m n).1 ≠ 0 → m.live p = some k →
    p + max k 1 ≤ (l.malloc t m n).1 ∨ (l.malloc t m n).1 + max n 1 ≤ p
  keeps : ∀ t m n a, Owned m a → (l.malloc t m n).2 a = m.byte a
  freeKeeps : ∀ t m q a p n, m.live p = some n → p ≠ q → p ≤ a → a < p + n → l.free t m q a = m.byte a

/-- A program: its memory, its pointer variables, and how often the C library was called. -/
structure St where
  mem : Mem
  ptrs : List Nat := []
  calls : Nat := 0

/-- What a step does: it ends, throws `bad_alloc` of a number of bytes, or is undefined behaviour. -/
inductive Out (α : Type) where
  | ret (a : α) (s : St)
  | thrown (n : Nat) (s : St)
  | ub

/-- `malloc (n)` as a step. Not code of the library. -/
def cmalloc (l : Lib) (n : Nat) (s : St) : Nat × St :=
  let r := l.malloc s.calls s.mem n
  (r.1, { s with mem := { byte := r.2, live := fun a => if a = r.1 ∧ r.1 ≠ 0 then some n else s.mem.live a }, calls := s.calls + 1 })

/-- `free (p)` as a step: nothing for a null pointer, undefined for what is no live block. Not code of the library. -/
def cfree (l : Lib) (p : Nat) (s : St) : Out Unit :=
  if p = 0 then .ret () s
  else match s.mem.live p with
    | none => .ub
    | some _ => .ret () { s with mem := { byte := l.free s.calls s.mem p, live := fun a => if a = p then none else s.mem.live a }, calls := s.calls + 1 }

/-- `tmalloc (n)`, which `operator new` and `operator new[]` are. Models unew.cc:8-14, 24-25, 36-37. -/
def tmalloc (l : Lib) (n : Nat) (s : St) : Out Nat :=
  let (p, s') := cmalloc l n s
  if p = 0 then .thrown n s' else .ret p s'

/-- `nfree (p)`, which `operator delete` and `operator delete[]` are. Models unew.cc:16-17, 27-28, 39-40. -/
def nfree (l : Lib) (p : Nat) (s : St) : Out Unit := if p ≠ 0 then cfree l p s else .ret () s

/-- `nfreen (p, n)`, the `operator delete` with a size. Models unew.cc:18-19, 30-31, 42-43. -/
def nfreen (l : Lib) (p _n : Nat) (s : St) : Out Unit := nfree l p s

/-- What a program does with storage. The pointers are kept in variables numbered from 0: `new` makes one (null if it throws); `delete` of a
variable makes it null. -/
inductive Op where
  | new (n : Nat)
  | del (k : Nat)
  | delSized (k n : Nat)
  | store (k i : Nat) (b : UInt8)
  | load (k i : Nat)

/-- What the program sees of an operation. -/
inductive Res where
  | made
  | threw (n : Nat)
  | done
  | byte (b : UInt8)
  deriving DecidableEq

/-- One operation with the storage of the library. A byte outside the block of a pointer is undefined. -/
def step (l : Lib) (op : Op) (s : St) : Option (Res × St) :=
  match op with
  | .new n => match tmalloc l n s with
    | .ret p s' => some (.made, { s' with ptrs := s'.ptrs ++ [p] })
    | .thrown b s' => some (.threw b, { s' with ptrs := s'.ptrs ++ [0] })
    | .ub => none
  | .del k => match s.ptrs[k]? with
    | none => none
    | some p => match nfree l p s with
      | .ret _ s' => some (.done, { s' with ptrs := s'.ptrs.set k 0 })
      | _ => none
  | .delSized k n => match s.ptrs[k]? with
    | none => none
    | some p => match nfreen l p n s with
      | .ret _ s' => some (.done, { s' with ptrs := s'.ptrs.set k 0 })
      | _ => none
  | .store k i b => match s.ptrs[k]? with
    | none => none
    | some p => match s.mem.live p with
      | none => none
      | some n => if p ≠ 0 ∧ i < n then some (.done, { s with mem := { s.mem with byte := fun a => if a = p + i then b else s.mem.byte a } }) else none
  | .load k i => match s.ptrs[k]? with
    | none => none
    | some p => match s.mem.live p with
      | none => none
      | some n => if p ≠ 0 ∧ i < n then some (.byte (s.mem.byte (p + i)), s) else none

/-- A program: what it sees, and where it ends; `none` is undefined behaviour. -/
def run (l : Lib) : List Op → St → Option (List Res × St)
  | [], s => some ([], s)
  | op :: ops, s => match step l op s with
    | none => none
    | some (r, s') => match run l ops s' with
      | none => none
      | some (rs, s'') => some (r :: rs, s'')

/-! ## The specification: objects that have nothing to do with each other -/

/-- What the program thinks it has: for each variable nothing, or an object of bytes that have been stored or not yet. -/
abbrev Objs := List (Option (List (Option UInt8)))

/-- The program may do this. -/
def Valid (o : Objs) : Op → Prop
  | .new _ => True
  | .del k => k < o.length
  | .delSized k n => k < o.length ∧ ∀ bs, o[k]? = some (some bs) → bs.length = n
  | .store k i _ => ∃ bs, o[k]? = some (some bs) ∧ i < bs.length
  | .load k i => ∃ bs, o[k]? = some (some bs) ∧ i < bs.length

/-- What an operation may do: `new` makes an object of the size asked for, with any bytes, or throws `bad_alloc` of that size and makes
nothing; `delete` ends one object and no other; a byte that was stored is what is loaded. -/
inductive Does : Objs → Op → Res → Objs → Prop where
  | made (o n) : Does o (.new n) .made (o ++ [some (List.replicate n none)])
  | threw (o n) : Does o (.new n) (.threw n) (o ++ [none])
  | del (o k) : Does o (.del k) .done (o.set k none)
  | delSized (o k n) : Does o (.delSized k n) .done (o.set k none)
  | store (o k i b bs) : o[k]? = some (some bs) → Does o (.store k i b) .done (o.set k (some (bs.set i (some b))))
  | load (o k i b bs x) : o[k]? = some (some bs) → bs[i]? = some x → (x = none ∨ x = some b) → Does o (.load k i) (.byte b) o

/-- A history of them. -/
inductive DoesAll : Objs → List Op → List Res → Objs → Prop where
  | nil (o) : DoesAll o [] [] o
  | cons {o op r o' ops rs o''} : Does o op r o' → DoesAll o' ops rs o'' → DoesAll o (op :: ops) (r :: rs) o''

/-- The program, run with that library, comes to something it may not do: what it saw until then is what such objects do, and it then does
something that is not valid for them. -/
def Wrong (l : Lib) (s : St) (o : Objs) (ops : List Op) : Prop :=
  ∃ pre op post rs s' o', ops = pre ++ op :: post ∧ run l pre s = some (rs, s') ∧ DoesAll o pre rs o' ∧ ¬ Valid o' op

end Ustl.New
