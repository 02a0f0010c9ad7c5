/-!
# Raw storage (umemory.h)

A region of memory is a list of element-sized slots: a slot holds an object or nothing. Constructing over an
object loses it (its destructor never runs); destroying an empty slot, or touching a slot outside the region, is
undefined behaviour. A constructor or an assignment may throw: `ok k` says whether call number `k` returns.
-/
namespace Ustl.Raw
variable {α : Type _}

/-- One element's worth of storage. -/
inductive Slot (α : Type _) where
  | raw
  | live (x : α)
deriving DecidableEq, Repr

/-- The region, the number of constructor and assignment calls so far, the number of objects overwritten without
having been destroyed. -/
structure St (α : Type _) where
  slots : List (Slot α)
  calls : Nat := 0
  lost : Nat := 0

/-- An operation returns, lets an exception pass, or has undefined behaviour. -/
inductive Res (σ : Type _) where
  | ret (s : σ)
  | threw (s : σ)
  | ub

/-- Sequencing: an exception or undefined behaviour ends the operation. -/
def Res.andThen {σ τ : Type _} (r : Res σ) (f : σ → Res τ) (g : σ → τ) : Res τ :=
  match r with
  | .ret s => f s
  | .threw s => .threw (g s)
  | .ub => .ub

/-- Is there an object in the slot? -/
def Slot.isLive : Slot α → Bool
  | .raw => false
  | .live _ => true

/-- `construct_at (p)`, `construct_at (p, value)`, `construct_at (p, move(value))`, `construct (p)`: placement new
of `v` in slot `i`. Models umemory.h:307-329. -/
def constructAt (ok : Nat → Bool) (i : Nat) (v : α) (s : St α) : Res (St α) :=
  match s.slots[i]? with
  | none => .ub
  | some t =>
    if ok s.calls then
      .ret { slots := s.slots.set i (.live v), calls := s.calls + 1, lost := s.lost + (if t.isLive then 1 else 0) }
    else .threw { s with calls := s.calls + 1 }

/-- `destroy_at (p)`, `destroy (p)`. Models umemory.h:370-376. -/
def destroyAt (i : Nat) (s : St α) : Res (St α) :=
  match s.slots[i]? with
  | some (.live _) => .ret { s with slots := s.slots.set i .raw }
  | _ => .ub

/-- `for (; first < last; ++first) body (first)`. Models umemory.h:465-466. -/
def upLoop (body : Nat → St α → Res (St α)) (first last : Nat) (s : St α) : Res (St α) :=
  if first < last then (body first s).andThen (upLoop body (first + 1) last) id else .ret s
termination_by last - first

/-- The value of `intptr_t (p)` for a pointer `p` of `w` bits. -/
def signed (w a : Nat) : Int := if a < 2 ^ (w - 1) then (a : Int) else (a : Int) - 2 ^ w

/-- The loop `for (--last; intptr_t(first) <= intptr_t(last); ++first) body (&*first)` after its `--last`, at most
`fuel` turns (`none`: more are needed). Pointers are addresses of `w` bits, elements have `sz` bytes; the address
`base + i * sz` is that of slot `i`, any other one is outside the region. Models umemory.h:344-345, 360-361, 383. -/
def sLoop (w sz base : Nat) (body : Nat → St α → Res (St α)) : Nat → Nat → Nat → St α → Option (Res (St α))
  | 0, _, _, _ => none
  | fuel + 1, first, last, s =>
    if signed w first ≤ signed w last then
      if base ≤ first ∧ (first - base) % sz = 0 then
        match body ((first - base) / sz) s with
        | .ret s' => sLoop w sz base body fuel ((first + sz) % 2 ^ w) last s'
        | .threw s' => some (.threw s')
        | .ub => some .ub
      else some .ub
    else some (.ret s)

/-- The whole loop, from `--last` on. Models umemory.h:344-345, 360-361, 383. -/
def ptrLoop (w sz base : Nat) (body : Nat → St α → Res (St α)) (fuel first last : Nat) (s : St α) :
    Option (Res (St α)) := sLoop w sz base body fuel first ((last + 2 ^ w - sz) % 2 ^ w) s

/-- `uninitialized_default_construct (first, last)`, `construct (first, last)` for a type that is not POD; `dflt`
is what the default constructor makes. Models umemory.h:334-353. -/
def defaultConstruct (w sz base : Nat) (ok : Nat → Bool) (dflt : α) (fuel first last : Nat) (s : St α) :=
  ptrLoop w sz base (fun i => constructAt ok i dflt) fuel first last s

/-- `uninitialized_value_construct (first, last)`. Models umemory.h:356-362. -/
def valueConstruct (w sz base : Nat) (ok : Nat → Bool) (dflt : α) (fuel first last : Nat) (s : St α) :=
  ptrLoop w sz base (fun i => constructAt ok i dflt) fuel first last s

/-- `destroy (first, last)`: `dtors`, or nothing for a POD type. Models umemory.h:381-406. -/
def destroyRange (w sz base : Nat) (pod : Bool) (fuel first last : Nat) (s : St α) : Option (Res (St α)) :=
  if pod then some (.ret s) else ptrLoop w sz base destroyAt fuel first last s

/-- `first + n` for a pointer to elements of `sz` bytes: the `_n` forms call the range form with it.
Models umemory.h:348-350, 363-365, 407-409. -/
def plus (w sz first n : Nat) : Nat := (first + n * sz) % 2 ^ w

/-- `uninitialized_default_construct` for a POD type: `memset` of `max (distance (first, last), 0)` elements, seen as
slots; `zero` is the object of all zero bytes. Positions instead of addresses. Models umemory.h:337-342. -/
def podConstruct (zero : α) (first last : Nat) (s : St α) : Res (St α) :=
  if last ≤ s.slots.length ∨ last ≤ first then
    .ret { s with slots := s.slots.take first ++ List.replicate (last - first) (.live zero) ++
      s.slots.drop (max first last) }
  else .ub

/-- `uninitialized_fill (first, last, v)`. Models umemory.h:462-467. -/
def uninitFill (ok : Nat → Bool) (v : α) (first last : Nat) (s : St α) : Res (St α) :=
  upLoop (fun i => constructAt ok i v) first last s

/-- Reading the object in a slot. -/
def look (s : St α) (i : Nat) : Option α :=
  match s.slots[i]? with
  | some (.live x) => some x
  | _ => none

/-- One turn of the copying loops: `construct_at (&*result, *first)`; with `mv` the source is left as the move
constructor leaves it. Models umemory.h:443-444, 454-455, 488-489, 499-500. -/
def copyOne (ok : Nat → Bool) (mv : α → α) (first result : Nat) (s : St α) : Res (St α) :=
  match look s first with
  | none => .ub
  | some x => (constructAt ok result x s).andThen
      (fun s' => .ret { s' with slots := s'.slots.set first (.live (mv x)) }) id

/-- `uninitialized_copy (first, last, result)` with `mv = id`, `uninitialized_move (first, last, result)` with
`mv x` what is left of `x`. Returns the position after the last one written. Models umemory.h:440-446, 485-491. -/
def uninitCopy (ok : Nat → Bool) (mv : α → α) (first last result : Nat) (s : St α) : Res (St α × Nat) :=
  if first < last then
    (copyOne ok mv first result s).andThen (uninitCopy ok mv (first + 1) last (result + 1)) (fun s' => (s', result))
  else .ret (s, result)
termination_by last - first

/-- The loop `for (++n; --n; ++result, ++first)` after its `++n`; `n` is a `size_t` of `w` bits. At most `fuel`
turns. Models umemory.h:454, 475, 499. -/
def cntLoop (w : Nat) (body : Nat → St α → Res (St α)) : Nat → Nat → Nat → St α → Option (Res (St α))
  | 0, _, _, _ => none
  | fuel + 1, n, k, s =>
    let m := (n + 2 ^ w - 1) % 2 ^ w
    if m ≠ 0 then
      match body k s with
      | .ret s' => cntLoop w body fuel m (k + 1) s'
      | .threw s' => some (.threw s')
      | .ub => some .ub
    else some (.ret s)

/-- `uninitialized_fill_n (first, n, v)`. Models umemory.h:472-478. -/
def uninitFillN (w : Nat) (ok : Nat → Bool) (v : α) (first n fuel : Nat) (s : St α) :=
  cntLoop w (fun k => constructAt ok (first + k) v) fuel ((n + 1) % 2 ^ w) 0 s

/-- `uninitialized_copy_n (first, n, result)`, `uninitialized_move_n (first, n, result)`.
Models umemory.h:451-457, 496-502. -/
def uninitCopyN (w : Nat) (ok : Nat → Bool) (mv : α → α) (first n result fuel : Nat) (s : St α) :=
  cntLoop w (fun k => copyOne ok mv (first + k) (result + k)) fuel ((n + 1) % 2 ^ w) 0 s

/-- `make_temporary_buffer (p, n, ptype)`: the pointer and the number of elements it has room for.
Models umemory.h:421-425. -/
def makeTemporaryBuffer (w : Nat) (p : Option Nat) (n : Nat) : Option Nat × Int :=
  (p, signed w (if p.isSome then n else 0))

end Ustl.Raw
