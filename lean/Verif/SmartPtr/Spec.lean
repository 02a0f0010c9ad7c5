import Verif.SmartPtr.Model
/-!
# Histories of owning pointers

A client makes objects, holds raw pointers to them, and uses smart pointer objects in any way the documentation allows:
it gives a smart pointer only raw pointers it holds (fresh from `new`, or got back from `release`), which it then no
longer holds, and it uses only pointer objects that exist. `Reach` are the states any such history leads to.
-/
namespace Ustl.SmartPtr

/-- What the client can do with `auto_ptr`/`unique_ptr`. -/
inductive Cmd
  | new (o : Nat)                        -- `o = new T`
  | del (o : Nat)                        -- `delete o` of a raw pointer
  | ctor (i : Nat) (p : Option Nat)      -- `unique_ptr<T> i (p)`
  | move (i j : Nat)                     -- `unique_ptr<T> i (move (j))`
  | dtor (i : Nat)                       -- `i` goes out of scope
  | reset (i : Nat) (p : Option Nat)     -- `i.reset (p)` or `i = p`
  | assign (i j : Nat)                   -- `i = move (j)`, also with `i` and `j` the same
  | swap (i j : Nat)                     -- `i.swap (j)`
  | release (i : Nat)                    -- `o = i.release()`

/-- The state of the program: smart pointers, free store, raw pointers the client holds, objects made so far. -/
structure World (σ : Type) where
  ptrs : Nat → Option σ
  mem : Mem
  raw : List Nat
  made : List Nat

/-- What the client may do in a state. -/
def legal : Cmd → World (Option Nat) → Prop
  | .new o, w => o ∉ w.made
  | .del o, w => o ∈ w.raw
  | .ctor i p, w => w.ptrs i = none ∧ ∀ o, p = some o → o ∈ w.raw
  | .move i j, w => w.ptrs i = none ∧ w.ptrs j ≠ none
  | .dtor i, w => w.ptrs i ≠ none
  | .reset i p, w => w.ptrs i ≠ none ∧ ∀ o, p = some o → o ∈ w.raw
  | .assign i j, w => w.ptrs i ≠ none ∧ w.ptrs j ≠ none
  | .swap i j, w => w.ptrs i ≠ none ∧ w.ptrs j ≠ none
  | .release i, w => w.ptrs i ≠ none

/-- The raw pointers the client holds after giving `p` away. -/
def give (p : Option Nat) (raw : List Nat) : List Nat :=
  match p with
  | none => raw
  | some o => raw.erase o

/-- The raw pointers the client holds after getting `p`. -/
def take (p : Option Nat) (raw : List Nat) : List Nat :=
  match p with
  | none => raw
  | some o => o :: raw

/-- What the commands do; `none` is undefined behaviour (a pointer deleted twice, or one that never was allocated). -/
def exec (k : Kind) : Cmd → World (Option Nat) → Option (World (Option Nat))
  | .new o, w => some { w with mem := ⟨upd w.mem.live o true, w.mem.log⟩, raw := o :: w.raw, made := o :: w.made }
  | .del o, w => (delete (some o) w.mem).map fun m => { w with mem := m, raw := w.raw.erase o }
  | .ctor i p, w => some { w with ptrs := ctor i p w.ptrs, raw := give p w.raw }
  | .move i j, w => (ctorMove i j w.ptrs).map fun s => { w with ptrs := s }
  | .dtor i, w => (dtor i w.ptrs w.mem).map fun r => { w with ptrs := r.1, mem := r.2 }
  | .reset i p, w => (reset k i p w.ptrs w.mem).map fun r => { w with ptrs := r.1, mem := r.2, raw := give p w.raw }
  | .assign i j, w => (assignMove k i j w.ptrs w.mem).map fun r => { w with ptrs := r.1, mem := r.2 }
  | .swap i j, w => (swap i j w.ptrs).map fun s => { w with ptrs := s }
  | .release i, w => (release i w.ptrs).map fun r => { w with ptrs := r.2, raw := take r.1 w.raw }

/-- The states histories lead to. -/
inductive Reach (k : Kind) : World (Option Nat) → Prop
  | start : Reach k ⟨fun _ => none, ⟨fun _ => false, []⟩, [], []⟩
  | step {w w' c} : Reach k w → legal c w → exec k c w = some w' → Reach k w'

/-- What the client can do with `unique_resource`. -/
inductive RCmd
  | new (o : Nat)
  | del (o : Nat)
  | ctor (i o : Nat)                -- `unique_resource<R,D> i (o, d)`
  | ctorOff (i o : Nat)             -- `unique_resource<R,D> i (o, d, false)`: not owned
  | move (i j : Nat)
  | dtor (i : Nat)
  | reset (i : Nat)                 -- `i.reset()`
  | resetTo (i o : Nat)             -- `i.reset (o)`
  | assign (i j : Nat)              -- `i = move (j)`, also with `i` and `j` the same
  | release (i : Nat)               -- `o = i.release()`; the client holds `o` if the resource was owned

/-- What the client may do in a state. -/
def rlegal : RCmd → World (Nat × Bool) → Prop
  | .new o, w => o ∉ w.made
  | .del o, w => o ∈ w.raw
  | .ctor i o, w => w.ptrs i = none ∧ o ∈ w.raw
  | .ctorOff i _, w => w.ptrs i = none
  | .move i j, w => w.ptrs i = none ∧ w.ptrs j ≠ none
  | .dtor i, w => w.ptrs i ≠ none
  | .reset i, w => w.ptrs i ≠ none
  | .resetTo i o, w => w.ptrs i ≠ none ∧ o ∈ w.raw
  | .assign i j, w => w.ptrs i ≠ none ∧ w.ptrs j ≠ none
  | .release i, w => w.ptrs i ≠ none

/-- What a `unique_resource` owns. -/
def ownR : Option (Nat × Bool) → Option Nat
  | some (r, true) => some r
  | _ => none

/-- What the commands do. -/
def rexec : RCmd → World (Nat × Bool) → Option (World (Nat × Bool))
  | .new o, w => some { w with mem := ⟨upd w.mem.live o true, w.mem.log⟩, raw := o :: w.raw, made := o :: w.made }
  | .del o, w => (delete (some o) w.mem).map fun m => { w with mem := m, raw := w.raw.erase o }
  | .ctor i o, w => some { w with ptrs := resCtor i o true w.ptrs, raw := w.raw.erase o }
  | .ctorOff i o, w => some { w with ptrs := resCtor i o false w.ptrs }
  | .move i j, w => (resMove i j w.ptrs).map fun s => { w with ptrs := s }
  | .dtor i, w => (resDtor i w.ptrs w.mem).map fun r => { w with ptrs := r.1, mem := r.2 }
  | .reset i, w => (resReset i w.ptrs w.mem).map fun r => { w with ptrs := r.1, mem := r.2 }
  | .resetTo i o, w => (resResetTo i o w.ptrs w.mem).map fun r => { w with ptrs := r.1, mem := r.2, raw := w.raw.erase o }
  | .assign i j, w => (resAssign i j w.ptrs w.mem).map fun r => { w with ptrs := r.1, mem := r.2 }
  | .release i, w => (resRelease i w.ptrs).map fun r => { w with ptrs := r.2, raw := take (ownR (w.ptrs i)) w.raw }

/-- The states histories lead to. -/
inductive RReach : World (Nat × Bool) → Prop
  | start : RReach ⟨fun _ => none, ⟨fun _ => false, []⟩, [], []⟩
  | step {w w' c} : RReach w → rlegal c w → rexec c w = some w' → RReach w'

/-- Every object made is in exactly one place: held raw by the client, owned by exactly one smart pointer, or deleted,
once. Only objects that exist are owned or held. -/
structure Placed (own : Nat → Option Nat) (m : Mem) (raw made : List Nat) : Prop where
  deleted_once : m.log.Nodup
  raw_once : raw.Nodup
  owner_once : ∀ i j o, own i = some o → own j = some o → i = j
  raw_not_deleted : ∀ o, o ∈ raw → o ∉ m.log
  owned_not_deleted : ∀ i o, own i = some o → o ∉ m.log
  owned_not_raw : ∀ i o, own i = some o → o ∉ raw
  somewhere : ∀ o, o ∈ made ↔ o ∈ raw ∨ o ∈ m.log ∨ ∃ i, own i = some o
  exists_iff : ∀ o, m.live o = true ↔ o ∈ made ∧ o ∉ m.log

end Ustl.SmartPtr
