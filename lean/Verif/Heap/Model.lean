import Verif.Basic
/-!
# Heap algorithms and `priority_queue` (uheap.h)

The block of memory is exactly the list `l`; `first` is index 0 and `last` is an index `≤ l.length`.
Simplification: the value type is copied freely (copy construction and assignment have no effect
besides the value), and computing the pointer `first - 1` (make_heap's loop exit, pop_heap on an
empty range) is not treated as undefined.
-/
namespace Ustl.Heap
variable {α : Type _}

/-- The loop of `is_heap`, at the top of an iteration before `++iChild`. Models uheap.h:21-24. -/
def isHeapLoop (comp : α → α → Bool) (l : List α) (first iChild last : Nat) : Option Bool :=
  if iChild + 1 < last then
    match rd l first, rd l (iChild + 1) with
    | some p, some c1 =>
      if comp p c1 then some false
      else if iChild + 2 < last then
        match rd l (iChild + 2) with
        | some c2 => if comp p c2 then some false else isHeapLoop comp l (first + 1) (iChild + 2) last
        | none => none
      else isHeapLoop comp l (first + 1) (iChild + 2) last
    | _, _ => none
  else some true
termination_by last - iChild

/-- `is_heap (first, last, comp)`. Models uheap.h:17-25. -/
def isHeap (comp : α → α → Bool) (l : List α) (last : Nat) : Option Bool :=
  isHeapLoop comp l 0 0 last

/-- `if (iChild + 1 < heapSize) iChild += comp (first[iChild], first[iChild + 1])`, returning the
increment. Models uheap.h:35-36. -/
def childInc (comp : α → α → Bool) (l : List α) (iChild heapSize : Nat) : Option Bool :=
  if iChild + 1 < heapSize then
    match rd l iChild, rd l (iChild + 1) with
    | some a, some b => some (comp a b)
    | _, _ => none
  else some false

/-- The loop of `trickle_down_heap` followed by the final `first[iHole] = v`.
Models uheap.h:34-43. -/
def trickleLoop (comp : α → α → Bool) (v : α) (l : List α) (iHole heapSize : Nat) : Option (List α) :=
  if 2 * iHole + 1 < heapSize then
    match childInc comp l (2 * iHole + 1) heapSize with
    | none => none
    | some inc =>
      match rd l (2 * iHole + 1 + inc.toNat) with
      | none => none
      | some x =>
        if comp v x then
          match wr l iHole x with
          | none => none
          | some l' => trickleLoop comp v l' (2 * iHole + 1 + inc.toNat) heapSize
        else wr l iHole v
  else wr l iHole v
termination_by heapSize - iHole

/-- `trickle_down_heap`. Models uheap.h:29-44. -/
def trickleDown (comp : α → α → Bool) (l : List α) (iHole heapSize : Nat) : Option (List α) :=
  match rd l iHole with
  | none => none
  | some v => trickleLoop comp v l iHole heapSize

/-- The loop of `make_heap` from position `i` down to `first`. Models uheap.h:58-59. -/
def makeHeapLoop (comp : α → α → Bool) (l : List α) (heapSize : Nat) : Nat → Option (List α)
  | 0 => trickleDown comp l 0 heapSize
  | i + 1 =>
    match trickleDown comp l (i + 1) heapSize with
    | none => none
    | some l' => makeHeapLoop comp l' heapSize i

/-- `make_heap`. Models uheap.h:52-60. -/
def makeHeap (comp : α → α → Bool) (l : List α) (last : Nat) : Option (List α) :=
  if last ≤ 0 then some l else makeHeapLoop comp l last ((last - 1) / 2)

/-- The loop of `push_heap` followed by the final `*last = v`. Models uheap.h:72-79. -/
def pushLoop (comp : α → α → Bool) (v : α) (l : List α) (hole : Nat) : Option (List α) :=
  if 0 < hole then
    match rd l ((hole - 1) / 2) with
    | none => none
    | some x =>
      if comp v x then wr l hole v
      else match wr l hole x with
        | none => none
        | some l' => pushLoop comp v l' ((hole - 1) / 2)
  else wr l hole v
termination_by hole

/-- `push_heap`. Models uheap.h:65-80. -/
def pushHeap (comp : α → α → Bool) (l : List α) (last : Nat) : Option (List α) :=
  if last ≤ 0 then some l
  else match rd l (last - 1) with
    | none => none
    | some v => pushLoop comp v l (last - 1)

/-- `pop_heap`. Models uheap.h:86-93. -/
def popHeap (comp : α → α → Bool) (l : List α) (last : Nat) : Option (List α) :=
  if last - 1 ≤ 0 then some l
  else match iterSwap l 0 (last - 1) with
    | none => none
    | some l' => trickleDown comp l' 0 (last - 1)

/-- `sort_heap`. Models uheap.h:98-103. -/
def sortHeap (comp : α → α → Bool) (l : List α) : Nat → Option (List α)
  | 0 => some l
  | last + 1 =>
    match popHeap comp l (last + 1) with
    | none => none
    | some l' => sortHeap comp l' last

/-- `priority_queue::push`: `_v.push_back (v); push_heap (_v.begin(), _v.end(), _c)`.
Models uheap.h:144 (and `emplace`, uheap.h:154). -/
def pqPush (comp : α → α → Bool) (q : List α) (v : α) : Option (List α) :=
  pushHeap comp (q ++ [v]) (q.length + 1)

/-- `priority_queue::pop`: `pop_heap (_v.begin(), _v.end()); _v.pop_back()`. The comparison object is
*not* passed, so `less` is used (uheap.h:105-115). `pop_back` on an empty container is undefined.
Models uheap.h:145. -/
def pqPop (less : α → α → Bool) (q : List α) : Option (List α) :=
  match popHeap less q q.length with
  | none => none
  | some q' => if q'.isEmpty then none else some q'.dropLast

/-- `priority_queue::top`: `_v.front()`. Models uheap.h:143. -/
def pqTop (q : List α) : Option α := rd q 0

/-- The constructor from a range. Models uheap.h:139-140. -/
def pqOfRange (comp : α → α → Bool) (xs : List α) : Option (List α) := makeHeap comp xs xs.length

/-- The operations of a `priority_queue` history. -/
inductive Op (α : Type _) where
  | push (x : α)
  | pop

/-- One operation of a `priority_queue` whose comparison object is `comp` and whose value type's
`operator<` is `less`. -/
def pqStep (less comp : α → α → Bool) (q : List α) : Op α → Option (List α)
  | .push x => pqPush comp q x
  | .pop => pqPop less q

/-- A history of operations. -/
def pqRun (less comp : α → α → Bool) (q : List α) : List (Op α) → Option (List α)
  | [] => some q
  | op :: ops => match pqStep less comp q op with
    | none => none
    | some q' => pqRun less comp q' ops

end Ustl.Heap
