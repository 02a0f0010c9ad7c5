import Verif.Assoc.Model
import Verif.Permute.Model
import Verif.Forward.Model
/-!
# queue, stack, list (uqueue.h, ustack.h, ulist.h)

All three are wrappers of `vector`; its operations have the list semantics proved in `Verif.Vector`
(`vector_history_partial`), `none` standing for a call outside their contract.
-/
namespace Ustl.Seq
open Ustl.Assoc

variable {α : Type _}

/-! ## queue -/

/-- The members of `queue`. Models uqueue.h:51-54. -/
structure Queue (α : Type _) where
  storage : List α
  front : Nat

/-- `queue()`. Models uqueue.h:25. -/
def Queue.empty : Queue α := ⟨[], 0⟩
/-- `queue (const container_type&)` and `queue (container_type&&)`. Models uqueue.h:26, 46. -/
def Queue.ofContainer (s : List α) : Queue α := ⟨s, 0⟩
/-- `queue (const queue&)`. Models uqueue.h:27. -/
def Queue.copy (s : Queue α) : Queue α := ⟨s.storage, 0⟩
/-- `queue (queue&&)`: the new queue and what is left of the source; moving a vector leaves it empty
(uvector.h:110). Models uqueue.h:45. -/
def Queue.move (s : Queue α) : Queue α × Queue α := (⟨s.storage, s.front⟩, ⟨[], 0⟩)
/-- `size()`. Models uqueue.h:28 (`none`: the subtraction wraps). -/
def Queue.size (q : Queue α) : Option Nat :=
  if q.front ≤ q.storage.length then some (q.storage.length - q.front) else none
/-- `front()`. Models uqueue.h:30-31. -/
def Queue.head (q : Queue α) : Option α := rd q.storage q.front
/-- `back()`. Models uqueue.h:32-33 and `vector::back`, uvector.h:80-81. -/
def Queue.last (q : Queue α) : Option α :=
  if q.storage.length = 0 then none else rd q.storage (q.storage.length - 1)
/-- `push (v)`, `emplace`. Models uqueue.h:34, 49. -/
def Queue.push (q : Queue α) (v : α) : Queue α := ⟨q.storage ++ [v], q.front⟩
/-- `pop()`. Models uqueue.h:35-40. -/
def Queue.pop (q : Queue α) : Option (Queue α) :=
  let f := q.front + 1
  if f > q.storage.length / 2 then
    match verase q.storage 0 f with
    | none => none
    | some s => some ⟨s, 0⟩
  else some ⟨q.storage, f⟩
/-- `operator==`, taking `vector::operator==` (a comparison of bytes, uvector.h:46) as equality of the elements.
Models uqueue.h:42. -/
def Queue.eq [DecidableEq α] (a b : Queue α) : Bool := decide (a.storage = b.storage) && decide (a.front = b.front)

/-- Operations on a family of queues. -/
inductive QOp (α : Type _) where
  | push (i : Nat) (v : α)
  | pop (i : Nat)
  | init (i : Nat) (s : List α)
  | move (i j : Nat)
  | copy (i j : Nat)

/-- Replace one of a family of objects. -/
def upd {β : Type _} (f : Nat → β) (i : Nat) (x : β) : Nat → β := fun k => if k = i then x else f k

/-- One operation: `push`/`pop` on queue `i`, or (re)creating queue `j` from a container, by moving or by copying
queue `i`. Models uqueue.h:25-27, 34-40, 45-46. -/
def qStep (w : Nat → Queue α) : QOp α → Option (Nat → Queue α)
  | .push i v => some (upd w i ((w i).push v))
  | .pop i => ((w i).pop).map (upd w i)
  | .init i s => some (upd w i (Queue.ofContainer s))
  | .move i j => some (upd (upd w i (w i).move.2) j (w i).move.1)
  | .copy i j => some (upd w j (w i).copy)

/-! ## stack -/

/-- `push (v)`, `emplace`. Models ustack.h:32, 42. -/
def stackPush (s : List α) (v : α) : List α := s ++ [v]
/-- `pop()`. Models ustack.h:33 and `vector::pop_back`, uvector.h:83. -/
def stackPop (s : List α) : Option (List α) := if s.length = 0 then none else verase s (s.length - 1) 1
/-- `top()`. Models ustack.h:30-31. -/
def stackTop (s : List α) : Option α := if s.length = 0 then none else rd s (s.length - 1)

/-- Operations on a family of stacks. -/
inductive SOp (α : Type _) where
  | push (i : Nat) (v : α)
  | pop (i : Nat)
  | init (i : Nat) (s : List α)
  | move (i j : Nat)
  | copy (i j : Nat)

/-- One operation on a family of stacks. Models ustack.h:25-27, 32-33, 38-39. -/
def sStep (w : Nat → List α) : SOp α → Option (Nat → List α)
  | .push i v => some (upd w i (stackPush (w i) v))
  | .pop i => (stackPop (w i)).map (upd w i)
  | .init i s => some (upd w i s)
  | .move i j => some (upd (upd w i []) j (w i))
  | .copy i j => some (upd w j (w i))

/-! ## list -/

/-- `vector::insert (ip, i1, i2)`. Models uvector.h:294-300. -/
def vinsertAll (l : List α) (ip : Nat) (xs : List α) : Option (List α) :=
  if ip ≤ l.length then some (l.take ip ++ xs ++ l.drop ip) else none

/-- `push_front`, `emplace_front`. Models ulist.h:36, 53-54. -/
def pushFront (l : List α) (v : α) : Option (List α) := vinsert l 0 v
/-- `pop_front`. Models ulist.h:37. -/
def popFront (l : List α) : Option (List α) := verase l 0 1
/-- `front`. Models ulist.h:38-39. -/
def front (l : List α) : Option α := rd l 0
/-- `remove_if (p)`. Models ulist.h:41-42, uctralgo.h:296-300. -/
def removeIf (p : α → Bool) (l : List α) : Option (List α) :=
  match Forward.removeIf p l 0 l.length with
  | none => none
  | some (m, r) => veraseRange m r m.length
/-- `remove (v)`, with `v` not inside the list. Models ulist.h:40, uctralgo.h:267-271. -/
def remove (eq : α → α → Bool) (l : List α) (v : α) : Option (List α) := removeIf (fun x => eq x v) l

/-- The `remove_copy` loop when `value` is a reference to cell `r` of the list itself: every comparison reads the
cell's current value. Models ualgo.h:275-285 called as in uctralgo.h:270. -/
def removeRefLoop (eq : α → α → Bool) (r : Nat) (l : List α) (first last result : Nat) : Option (List α × Nat) :=
  if first < last then
    match rd l first, rd l r with
    | some x, some v =>
      if eq x v then removeRefLoop eq r l (first + 1) last result
      else match wr l result x with
        | none => none
        | some l' => removeRefLoop eq r l' (first + 1) last (result + 1)
    | _, _ => none
  else if first = last then some (l, result) else none
termination_by last - first

/-- `remove (v)` where `v` is element `r` of the list. Models ulist.h:40, uctralgo.h:267-271. -/
def removeRef (eq : α → α → Bool) (l : List α) (r : Nat) : Option (List α) :=
  match removeRefLoop eq r l 0 l.length 0 with
  | none => none
  | some (m, e) => veraseRange m e m.length

/-- `unique()`. Models ulist.h:44, uctralgo.h:325-329. -/
def unique (eq : α → α → Bool) (l : List α) : Option (List α) :=
  match Forward.unique eq l 0 l.length with
  | none => none
  | some (m, r) => veraseRange m r m.length
/-- `reverse()`. Models ulist.h:43, uctralgo.h:352-356. -/
def reverse (l : List α) : Option (List α) := Permute.reverse l 0 l.length

/-- `copy` inside one block. Models ualgobase.h:77-83. -/
def copyIn (m : List α) (first last result : Nat) : Option (List α) :=
  if first < last then
    match rd m first with
    | none => none
    | some x => match wr m result x with
      | none => none
      | some m' => copyIn m' (first + 1) last (result + 1)
  else if first = last then some m else none
termination_by last - first

/-- `copy` from another block. Models ualgobase.h:77-83. -/
def copyOut (m : List α) : List α → Nat → Option (List α)
  | [], _ => some m
  | y :: b, result => match wr m result y with
    | none => none
    | some m' => copyOut m' b (result + 1)

/-- `merge (first1, last1, first2, last2, result)` with `[first1, last1)` and `result` in one block and `b` in
another. Models ualgo.h:238-252. -/
def mergeIn (lt : α → α → Bool) (m : List α) (first1 last1 : Nat) (b : List α) (result : Nat) : Option (List α) :=
  if first1 < last1 then
    match b with
    | [] => copyIn m first1 last1 result
    | y :: b' =>
      match rd m first1 with
      | none => none
      | some x =>
        if lt x y then
          match wr m result x with
          | none => none
          | some m' => mergeIn lt m' (first1 + 1) last1 (y :: b') (result + 1)
        else
          match wr m result y with
          | none => none
          | some m' => mergeIn lt m' first1 last1 b' (result + 1)
  else if first1 = last1 then copyOut m b result else none
termination_by (last1 - first1) + b.length

/-- `merge (l)`, `l` another list: `insert_space` opens a gap of default values at the front. The other list is left
alone. Models ulist.h:59-64, uvector.h:266-272. -/
def merge (lt : α → α → Bool) (dflt : α) (a b : List α) : Option (List α) :=
  match vinsertAll a 0 (List.replicate b.length dflt) with
  | none => none
  | some m => mergeIn lt m b.length m.length b 0

/-- `splice (ip, l, first, last)`, `l` another list; `none` iterators are the null defaults.
Models ulist.h:67-76. -/
def splice (a : List α) (ip : Nat) (b : List α) (first last : Option Nat) : Option (List α × List α) :=
  let f := first.getD 0
  let t := last.getD b.length
  if f ≤ t ∧ t ≤ b.length then
    match vinsertAll a ip ((b.take t).drop f), veraseRange b f t with
    | some a', some b' => some (a', b')
    | _, _ => none
  else none

/-! ## sort -/

/-- `qsort_adapter`. Models ualgo.h:432-438. -/
def qsortAdapter (lt : α → α → Bool) (x y : α) : Int := if lt x y then -1 else if lt y x then 1 else 0

end Ustl.Seq
