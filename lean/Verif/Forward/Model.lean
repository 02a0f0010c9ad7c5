import Verif.Basic
/-!
# Single-pass algorithms (ualgo.h, upredalgo.h, unumeric.h, ualgobase.h)

Input ranges are `[first, last)` in a memory block (a list); every dereference goes through `rd`, so a
read outside the block makes the whole call `none`. Output iterators that write to a separate
destination are modelled by the list of values written, in order ("appending" destination); in-place
algorithms write through `wr`. A loop `for (; first != last; ++first)` with `first > last` would run off
the block: `none`.
-/
namespace Ustl.Forward
variable {α β γ : Type _}

/-- `find_if`. Models upredalgo.h:33-39. `find` (ualgo.h:28-34) is the instance `pred x := x == value`. -/
def findIf (pred : α → Bool) (l : List α) (first last : Nat) : Option Nat :=
  if first < last then
    match rd l first with
    | none => none
    | some x => if pred x then some first else findIf pred l (first + 1) last
  else if first = last then some first else none
termination_by last - first

/-- The inner loop of `adjacent_find`: `prev`, then `++first != last`. Models ualgo.h:43-45,
upredalgo.h:49-51. -/
def adjLoop (p : α → α → Bool) (l : List α) (prev last : Nat) : Option Nat :=
  if prev + 1 < last then
    match rd l prev, rd l (prev + 1) with
    | some x, some y => if p x y then some prev else adjLoop p l (prev + 1) last
    | _, _ => none
  else if prev + 1 = last then some last else none
termination_by last - prev

/-- `adjacent_find`. Models ualgo.h:39-47, upredalgo.h:45-53. -/
def adjacentFind (p : α → α → Bool) (l : List α) (first last : Nat) : Option Nat :=
  if first ≠ last then adjLoop p l first last else some last

/-- `mismatch` of `[first1,last1)` in one block with the range starting at `first2` in another.
Models ualgo.h:52-59, upredalgo.h:60-66. -/
def mismatch (eq : α → β → Bool) (l1 : List α) (first1 last1 : Nat) (l2 : List β) (first2 : Nat) :
    Option (Nat × Nat) :=
  if first1 < last1 then
    match rd l1 first1, rd l2 first2 with
    | some x, some y =>
      if eq x y then mismatch eq l1 (first1 + 1) last1 l2 (first2 + 1) else some (first1, first2)
    | _, _ => none
  else if first1 = last1 then some (first1, first2) else none
termination_by last1 - first1

/-- `equal`. Models ualgo.h:65-69, upredalgo.h:74-77. -/
def equal (eq : α → β → Bool) (l1 : List α) (first1 last1 : Nat) (l2 : List β) (first2 : Nat) :
    Option Bool :=
  (mismatch eq l1 first1 last1 l2 first2).map (fun r => r.1 == last1)

/-- `count_if`, with the running total. Models upredalgo.h:86-93; `count` (ualgo.h:76-84) is the
instance `pred x := x == value`. -/
def countIf (pred : α → Bool) (l : List α) (first last total : Nat) : Option Nat :=
  if first < last then
    match rd l first with
    | none => none
    | some x => countIf pred l (first + 1) last (if pred x then total + 1 else total)
  else if first = last then some total else none
termination_by last - first

/-- `for_each` with a function object that has state `σ`. Models ualgobase.h:119-125. -/
def forEach {σ : Type _} (f : σ → α → σ) (l : List α) (first last : Nat) (s : σ) : Option σ :=
  if first < last then
    match rd l first with
    | none => none
    | some x => forEach f l (first + 1) last (f s x)
  else if first = last then some s else none
termination_by last - first

/-- `copy` to a separate destination. Models ualgobase.h:77-83. -/
def copy (l : List α) (first last : Nat) : Option (List α) :=
  if first < last then
    match rd l first with
    | none => none
    | some x => (copy l (first + 1) last).map (x :: ·)
  else if first = last then some [] else none
termination_by last - first

/-- `copy_if` to a separate destination. Models upredalgo.h:16-26. -/
def copyIf (pred : α → Bool) (l : List α) (first last : Nat) : Option (List α) :=
  if first < last then
    match rd l first with
    | none => none
    | some x =>
      if pred x then (copyIf pred l (first + 1) last).map (x :: ·) else copyIf pred l (first + 1) last
  else if first = last then some [] else none
termination_by last - first

/-- `remove_copy_if` to a separate destination. Models upredalgo.h:134-140; `remove_copy`
(ualgo.h:275-285) is the instance `pred x := x == value`. -/
def removeCopyIf (pred : α → Bool) (l : List α) (first last : Nat) : Option (List α) :=
  if first < last then
    match rd l first with
    | none => none
    | some x =>
      if pred x then removeCopyIf pred l (first + 1) last
      else (removeCopyIf pred l (first + 1) last).map (x :: ·)
  else if first = last then some [] else none
termination_by last - first

/-- `while (rfirst != rlast && *rfirst < first) ++rfirst;`. Models ualgo.h:299-300. -/
def skipBelow (i : Nat) : List Nat → List Nat
  | [] => []
  | r :: rs => if r < i then skipBelow i rs else r :: rs

/-- `remove_copy` with a sorted list of iterators to leave out (here: positions in the block).
Models ualgo.h:295-307. -/
def removeCopyIters (l : List α) (first last : Nat) (rs : List Nat) : Option (List α) :=
  if first < last then
    match rd l first with
    | none => none
    | some x =>
      match skipBelow first rs with
      | [] => (removeCopyIters l (first + 1) last []).map (x :: ·)
      | r :: rs' =>
        if first ≠ r then (removeCopyIters l (first + 1) last (r :: rs')).map (x :: ·)
        else removeCopyIters l (first + 1) last (r :: rs')
  else if first = last then some [] else none
termination_by last - first

/-- In-place `remove_if`/`remove`: `remove_copy_if (first, last, first, pred)`; `result` is the write
position. Models upredalgo.h:153-156 with 134-141, ualgo.h:319-322 with 275-285. -/
def removeIfLoop (pred : α → Bool) (l : List α) (first last result : Nat) : Option (List α × Nat) :=
  if first < last then
    match rd l first with
    | none => none
    | some x =>
      if pred x then removeIfLoop pred l (first + 1) last result
      else
        match wr l result x with
        | none => none
        | some l' => removeIfLoop pred l' (first + 1) last (result + 1)
  else if first = last then some (l, result) else none
termination_by last - first

/-- See `removeIfLoop`. -/
def removeIf (pred : α → Bool) (l : List α) (first last : Nat) : Option (List α × Nat) :=
  removeIfLoop pred l first last first

/-- The loop of `unique_copy` to a separate destination, `cur` being `*result`, at `while (++first !=
last)`. Models upredalgo.h:175-177, ualgo.h:337-339. -/
def uniqueCopyLoop (eq : α → α → Bool) (l : List α) (cur : α) (first last : Nat) : Option (List α) :=
  if first + 1 < last then
    match rd l (first + 1) with
    | none => none
    | some x =>
      if eq x cur then uniqueCopyLoop eq l cur (first + 1) last
      else (uniqueCopyLoop eq l x (first + 1) last).map (x :: ·)
  else if first + 1 = last then some [] else none
termination_by last - first

/-- `unique_copy`. Models upredalgo.h:170-180, ualgo.h:332-342. -/
def uniqueCopy (eq : α → α → Bool) (l : List α) (first last : Nat) : Option (List α) :=
  if first ≠ last then
    match rd l first with
    | none => none
    | some x => (uniqueCopyLoop eq l x first last).map (x :: ·)
  else some []

/-- The loop of in-place `unique`: `result` points to the last element kept.
Models upredalgo.h:175-178. -/
def uniqueLoop (eq : α → α → Bool) (l : List α) (first last result : Nat) : Option (List α × Nat) :=
  if first + 1 < last then
    match rd l (first + 1), rd l result with
    | some x, some cur =>
      if eq x cur then uniqueLoop eq l (first + 1) last result
      else
        match wr l (result + 1) x with
        | none => none
        | some l' => uniqueLoop eq l' (first + 1) last (result + 1)
    | _, _ => none
  else if first + 1 = last then some (l, result + 1) else none
termination_by last - first

/-- In-place `unique`. Models upredalgo.h:194-197 with 170-181, ualgo.h:354-358. -/
def unique (eq : α → α → Bool) (l : List α) (first last : Nat) : Option (List α × Nat) :=
  if first ≠ last then
    match rd l first with
    | none => none
    | some x =>
      match wr l first x with
      | none => none
      | some l' => uniqueLoop eq l' first last first
  else some (l, first)

/-- `transform` (unary) to a separate destination. Models ualgo.h:96-102. -/
def transform (op : α → β) (l : List α) (first last : Nat) : Option (List β) :=
  if first < last then
    match rd l first with
    | none => none
    | some x => (transform op l (first + 1) last).map (op x :: ·)
  else if first = last then some [] else none
termination_by last - first

/-- `transform` (binary). Models ualgo.h:116-122. -/
def transform2 (op : α → β → γ) (l1 : List α) (first1 last1 : Nat) (l2 : List β) (first2 : Nat) :
    Option (List γ) :=
  if first1 < last1 then
    match rd l1 first1, rd l2 first2 with
    | some x, some y => (transform2 op l1 (first1 + 1) last1 l2 (first2 + 1)).map (op x y :: ·)
    | _, _ => none
  else if first1 = last1 then some [] else none
termination_by last1 - first1

/-- `replace_if`. Models upredalgo.h:101-107; `replace` (ualgo.h:129-135) is the instance
`pred x := x == old_value`. -/
def replaceIf (pred : α → Bool) (new : α) (l : List α) (first last : Nat) : Option (List α) :=
  if first < last then
    match rd l first with
    | none => none
    | some x =>
      if pred x then
        match wr l first new with
        | none => none
        | some l' => replaceIf pred new l' (first + 1) last
      else replaceIf pred new l (first + 1) last
  else if first = last then some l else none
termination_by last - first

/-- `generate`, the k-th call of the generator returning `gen k`. Models ualgo.h:157-162
(`generate_n`, 170-176, is the same loop by count). -/
def generate (gen : Nat → α) (l : List α) (first last k : Nat) : Option (List α) :=
  if first < last then
    match wr l first (gen k) with
    | none => none
    | some l' => generate gen l' (first + 1) last (k + 1)
  else if first = last then some l else none
termination_by last - first

/-- The effect of calling `replace_copy` / `replace_copy_if`: the loop is right, but control then flows
off the end of a function with a non-void result, which is undefined behaviour on *every* call.
Models ualgo.h:145-150, upredalgo.h:118-123. -/
def replaceCopyIf (_pred : α → Bool) (_new : α) (_l : List α) (_first _last : Nat) :
    Option (List α) := none

/-! ### Subsequence search -/

/-- The inner loop `for (; i != last2 && comp(*j,*i); ++i, ++j) {}` and the test `i == last2`.
The pattern is `[first2,last2)`, given as a list. Models upredalgo.h:284-287, 301-304. -/
def matchAt (comp : α → β → Bool) (l : List α) (j : Nat) : List β → Option Bool
  | [] => some true
  | b :: bs =>
    match rd l j with
    | none => none
    | some a => if comp a b then matchAt comp l (j + 1) bs else some false

/-- The loop of `search`. `slast` may lie before `first1`, hence the integer.
Models upredalgo.h:282-290. -/
def searchLoop (comp : α → β → Bool) (l : List α) (first1 last1 : Nat) (pat : List β) (slast : Int) :
    Option Nat :=
  if h : (first1 : Int) < slast then
    match matchAt comp l first1 pat with
    | none => none
    | some true => some first1
    | some false => searchLoop comp l (first1 + 1) last1 pat slast
  else some last1
termination_by (slast - first1).toNat
decreasing_by omega

/-- `search`. Models upredalgo.h:279-291, ualgo.h:488-493. -/
def search (comp : α → β → Bool) (l : List α) (first1 last1 : Nat) (pat : List β) : Option Nat :=
  searchLoop comp l first1 last1 pat ((last1 : Int) - pat.length + 1)

/-- The loop of `find_end`: note that it stops at `s == first1` without testing that position.
Models upredalgo.h:299-305. -/
def findEndLoop (comp : α → β → Bool) (l : List α) (first1 last1 : Nat) (pat : List β) (s : Int) :
    Option Nat :=
  if h : (first1 : Int) < s then
    match matchAt comp l s.toNat pat with
    | none => none
    | some true => some s.toNat
    | some false => findEndLoop comp l first1 last1 pat (s - 1)
  else some last1
termination_by (s - first1).toNat
decreasing_by omega

/-- `find_end`. Models upredalgo.h:296-307, ualgo.h:497-502. -/
def findEnd (comp : α → β → Bool) (l : List α) (first1 last1 : Nat) (pat : List β) : Option Nat :=
  findEndLoop comp l first1 last1 pat ((last1 : Int) - pat.length)

/-- `search_n` with its run counter. Models upredalgo.h:312-323. -/
def searchN (comp : α → β → Bool) (l : List α) (first last count : Nat) (v : β) (n : Nat) : Option Nat :=
  if first < last then
    match rd l first with
    | none => none
    | some x =>
      if comp x v then
        if n + 1 = count then some (first - n) else searchN comp l (first + 1) last count v (n + 1)
      else searchN comp l (first + 1) last count v 0
  else if first = last then some last else none
termination_by last - first

/-- `find_first_of`. Models upredalgo.h:328-336. The inner loop over `[first2,last2)` is `List.any`
on the list of its elements. -/
def findFirstOf (comp : α → β → Bool) (l : List α) (first last : Nat) (set : List β) : Option Nat :=
  if first < last then
    match rd l first with
    | none => none
    | some x => if set.any (comp x) then some first else findFirstOf comp l (first + 1) last set
  else if first = last then some first else none
termination_by last - first

/-! ### Ordering -/

/-- `is_sorted` at its loop head: `++i < last`. Models upredalgo.h:427-434. -/
def isSorted (comp : α → α → Bool) (l : List α) (first last : Nat) : Option Bool :=
  if first + 1 < last then
    match rd l (first + 1), rd l first with
    | some b, some a => if comp b a then some false else isSorted comp l (first + 1) last
    | _, _ => none
  else some true
termination_by last - first

/-- `lexicographical_compare`; the two ranges are given as lists, the loop condition
`(first1 != last1) & (first2 != last2)` guarding every dereference. Models upredalgo.h:439-449. -/
def lexCompare (comp : α → α → Bool) : List α → List α → Bool
  | a :: as, b :: bs => if comp a b then true else if comp b a then false else lexCompare comp as bs
  | [], _ :: _ => true
  | _, [] => false

/-- `max_element` loop with current `result`. Models upredalgo.h:502-510. -/
def maxElement (comp : α → α → Bool) (l : List α) (first last result : Nat) : Option Nat :=
  if first < last then
    match rd l result, rd l first with
    | some r, some x => maxElement comp l (first + 1) last (if comp r x then first else result)
    | _, _ => none
  else if first = last then some result else none
termination_by last - first

/-- `min_element` loop with current `result`. Models upredalgo.h:515-523. -/
def minElement (comp : α → α → Bool) (l : List α) (first last result : Nat) : Option Nat :=
  if first < last then
    match rd l first, rd l result with
    | some x, some r => minElement comp l (first + 1) last (if comp x r then first else result)
    | _, _ => none
  else if first = last then some result else none
termination_by last - first

/-- `minmax_element` loop. Models ualgo.h:676-698. -/
def minmaxElement (comp : α → α → Bool) (l : List α) (first last lo hi : Nat) : Option (Nat × Nat) :=
  if first < last then
    match rd l first, rd l lo, rd l hi with
    | some x, some a, some b =>
      minmaxElement comp l (first + 1) last (if comp x a then first else lo) (if comp b x then first else hi)
    | _, _, _ => none
  else if first = last then some (lo, hi) else none
termination_by last - first

/-- `min (a, b) = a < b ? a : b`. Models uutility.h:48-50 (both arguments of one type). -/
def min' (lt : α → α → Bool) (a b : α) : α := if lt a b then a else b

/-- `max (a, b) = b < a ? a : b`. Models uutility.h:53-55. -/
def max' (lt : α → α → Bool) (a b : α) : α := if lt b a then a else b

/-- `clamp`. Models ualgo.h:611-616. -/
def clamp (lt : α → α → Bool) (v l h : α) : α := if lt v l then l else if lt h v then h else v

/-- `minmax` of two values (ualgo.h:640-647). -/
def minmax (lt : α → α → Bool) (a b : α) : α × α := if lt a b then (a, b) else (b, a)

/-! ### Numeric -/

/-- `accumulate` with an operation. Models unumeric.h:24-30 (and 13-19 with `op = (+)`). -/
def accumulate (op : β → α → β) (l : List α) (first last : Nat) (init : β) : Option β :=
  if first < last then
    match rd l first with
    | none => none
    | some x => accumulate op l (first + 1) last (op init x)
  else some init
termination_by last - first

/-- `iota`, `succ` being `++`. Models unumeric.h:35-40. -/
def iota (succ : α → α) (l : List α) (first last : Nat) (value : α) : Option (List α) :=
  if first < last then
    match wr l first value with
    | none => none
    | some l' => iota succ l' (first + 1) last (succ value)
  else some l
termination_by last - first

/-- `inner_product`. Models unumeric.h:57-65 (and 45-51). -/
def innerProduct (sumOp : γ → γ → γ) (productOp : α → β → γ) (l1 : List α) (first1 last1 : Nat)
    (l2 : List β) (first2 : Nat) (init : γ) : Option γ :=
  if first1 < last1 then
    match rd l1 first1, rd l2 first2 with
    | some x, some y =>
      innerProduct sumOp productOp l1 (first1 + 1) last1 l2 (first2 + 1) (sumOp init (productOp x y))
    | _, _ => none
  else some init
termination_by last1 - first1

/-- The loop `while (first < last) *++result = sumOp (*first++, *result);` on a destination block `d`.
In C++14, which the build uses (configure:155), the increment of `result` and the read of `*result` are
unsequenced; `lhsFirst` says which one the compiler does first. Models unumeric.h:75-77, 88-90. -/
def partialSumLoop (lhsFirst : Bool) (op : α → α → α) (l : List α) (first last : Nat) (d : List α)
    (result : Nat) : Option (List α × Nat) :=
  if first < last then
    match rd l first, rd d (if lhsFirst then result + 1 else result) with
    | some x, some acc =>
      match wr d (result + 1) (op x acc) with
      | none => none
      | some d' => partialSumLoop lhsFirst op l (first + 1) last d' (result + 1)
    | _, _ => none
  else some (d, result)
termination_by last - first

/-- `partial_sum`. Models unumeric.h:71-91. -/
def partialSum (lhsFirst : Bool) (op : α → α → α) (l : List α) (first last : Nat) (d : List α)
    (result : Nat) : Option (List α × Nat) :=
  if first < last then
    match rd l first with
    | none => none
    | some x =>
      match wr d result x with
      | none => none
      | some d' => partialSumLoop lhsFirst op l (first + 1) last d' result
  else some (d, result)

/-- One iteration of the loop `while (first < last) *result++ = *first - *(first - 1);`: it never
changes `first`. The state is (`first`, values written so far). `none`: the loop has ended.
Models unumeric.h:101-102, 114-115. -/
def adjDiffStep (op : α → α → α) (l : List α) (last : Nat) (s : Nat × List α) :
    Option (Nat × List α) :=
  if s.1 < last then
    match rd l s.1, rd l (s.1 - 1) with
    | some x, some y => some (s.1, s.2 ++ [op x y])
    | _, _ => none
  else none

/-- `n` iterations of the loop, `none` if it has ended (or gone wrong) before. -/
def adjDiffRun (op : α → α → α) (l : List α) (last : Nat) : Nat → Nat × List α → Option (Nat × List α)
  | 0, s => some s
  | n + 1, s =>
    match adjDiffStep op l last s with
    | none => none
    | some s' => adjDiffRun op l last n s'

/-- The loop of `power`. Models unumeric.h:127-132, 144-149. -/
def powerLoop (op : α → α → α) (x : α) (n : Nat) (result : α) : α :=
  if n / 2 = 0 then result
  else
    let x' := op x x
    powerLoop op x' (n / 2) (if n / 2 % 2 = 1 then op result x' else result)
termination_by n

/-- `power (x, n)`. Models unumeric.h:124-149. -/
def power (op : α → α → α) (one : α) (x : α) (n : Nat) : α :=
  powerLoop op x n (if n % 2 = 1 then x else one)

end Ustl.Forward
