import Verif.Basic
/-!
# Owning pointers (umemory.h): auto_ptr, unique_ptr, unique_resource, scope_exit

Objects on the free store are numbered. The memory knows which are allocated and not yet deleted; deleting anything else
is undefined behaviour, `none`. Smart pointer objects are numbered too: a store maps them to their members, or to `none`
if no such pointer object exists (not yet constructed, or destructed).
-/
namespace Ustl.SmartPtr

/-- The free store: `live o` if object `o` exists, `log` the objects deleted, the last first. -/
structure Mem where
  live : Nat → Bool
  log : List Nat

/-- `f` with the value at `i` replaced. -/
def upd {α : Type} (f : Nat → α) (i : Nat) (a : α) : Nat → α := fun j => if j = i then a else f j

/-- `delete p`; `delete nullptr` does nothing. -/
def delete (p : Option Nat) (m : Mem) : Option Mem :=
  match p with
  | none => some m
  | some o => if m.live o then some ⟨upd m.live o false, o :: m.log⟩ else none

/-! ## auto_ptr and unique_ptr: one member, the pointer -/

/-- The pointer objects: for each, `_p`. Models umemory.h:56, 97, 129. -/
abbrev Ptrs := Nat → Option (Option Nat)

/-- `release ()`: returns the pointer and clears it. Models umemory.h:43, 82, 114. -/
def release (i : Nat) (s : Ptrs) : Option (Option Nat × Ptrs) :=
  match s i with
  | none => none
  | some rv => some (rv, upd s i (some none))

/-- `auto_ptr::reset (p)`: `if (p != _p) { delete _p; _p = p; }`. Models umemory.h:45. -/
def autoReset (i : Nat) (p : Option Nat) (s : Ptrs) (m : Mem) : Option (Ptrs × Mem) :=
  match s i with
  | none => none
  | some q =>
    if p ≠ q then
      match delete q m with
      | none => none
      | some m => some (upd s i (some p), m)
    else some (s, m)

/-- `unique_ptr::reset (p)`: `auto ov (_p); _p = p; delete ov;`. The assertion is the rule for the caller that a pointer is
not reset to what it owns. Models umemory.h:83, 115. -/
def uniqueReset (i : Nat) (p : Option Nat) (s : Ptrs) (m : Mem) : Option (Ptrs × Mem) :=
  match s i with
  | none => none
  | some ov =>
    match delete ov m with
    | none => none
    | some m => some (upd s i (some p), m)

/-- Which class the pointers are of. -/
inductive Kind | auto | unique
deriving DecidableEq

/-- `reset` of the class. -/
def reset : Kind → Nat → Option Nat → Ptrs → Mem → Option (Ptrs × Mem)
  | .auto => autoReset
  | .unique => uniqueReset

/-- The constructor from a pointer. Models umemory.h:35, 76-77, 108-109. -/
def ctor (i : Nat) (p : Option Nat) (s : Ptrs) : Ptrs := upd s i (some p)

/-- The constructor from another smart pointer `j`: `_p (p.release())`. Models umemory.h:37, 78, 110. -/
def ctorMove (i j : Nat) (s : Ptrs) : Option Ptrs :=
  match release j s with
  | none => none
  | some (rv, s) => some (upd s i (some rv))

/-- The destructor: `delete _p`. Models umemory.h:39, 80, 112. -/
def dtor (i : Nat) (s : Ptrs) (m : Mem) : Option (Ptrs × Mem) :=
  match s i with
  | none => none
  | some p =>
    match delete p m with
    | none => none
    | some m => some (upd s i none, m)

/-- Assignment from another smart pointer: `reset (p.release())`. Models umemory.h:49, 87, 119. -/
def assignMove (k : Kind) (i j : Nat) (s : Ptrs) (m : Mem) : Option (Ptrs × Mem) :=
  match release j s with
  | none => none
  | some (rv, s) => reset k i rv s m

/-- `swap`: exchanges the members. Models umemory.h:84, 116, ualgobase.h:52-57. -/
def swap (i j : Nat) (s : Ptrs) : Option Ptrs :=
  match s i, s j with
  | some p, some q => some (upd (upd s i (some q)) j (some p))
  | _, _ => none

/-! ## unique_resource: the resource and whether it is to be destroyed -/

/-- The `unique_resource` objects: `_resource` and `_enabled`. All deleters are taken to be the same function, which
destroys the resource like `delete`. Models umemory.h:279-282. -/
abbrev Ress := Nat → Option (Nat × Bool)

/-- `reset ()`. Models umemory.h:255-260. -/
def resReset (i : Nat) (s : Ress) (m : Mem) : Option (Ress × Mem) :=
  match s i with
  | none => none
  | some (r, en) =>
    if en then
      match delete (some r) m with
      | none => none
      | some m => some (upd s i (some (r, false)), m)
    else some (s, m)

/-- `reset (r)`. Models umemory.h:261-265. -/
def resResetTo (i r : Nat) (s : Ress) (m : Mem) : Option (Ress × Mem) :=
  match resReset i s m with
  | none => none
  | some (s, m) => some (upd s i (some (r, true)), m)

/-- `release ()`. Models umemory.h:254. -/
def resRelease (i : Nat) (s : Ress) : Option (Nat × Ress) :=
  match s i with
  | none => none
  | some (r, _) => some (r, upd s i (some (r, false)))

/-- The constructor. Models umemory.h:245-246. -/
def resCtor (i r : Nat) (en : Bool) (s : Ress) : Ress := upd s i (some (r, en))

/-- The move constructor. Models umemory.h:247-248. -/
def resMove (i j : Nat) (s : Ress) : Option Ress :=
  match s j with
  | none => none
  | some (r, en) =>
    match resRelease j (upd s i (some (r, en))) with
    | none => none
    | some (_, s) => some s

/-- Move assignment; `r` may be `*this`. Models umemory.h:267-274. -/
def resAssign (i j : Nat) (s : Ress) (m : Mem) : Option (Ress × Mem) :=
  match resReset i s m with
  | none => none
  | some (s, m) =>
    match s j with
    | none => none
    | some (r, en) =>
      match resRelease j (upd s i (some (r, en))) with
      | none => none
      | some (_, s) => some (s, m)

/-- The destructor: `reset ()`. Models umemory.h:250-251. -/
def resDtor (i : Nat) (s : Ress) (m : Mem) : Option (Ress × Mem) :=
  match resReset i s m with
  | none => none
  | some (s, m) => some (upd s i none, m)

end Ustl.SmartPtr
