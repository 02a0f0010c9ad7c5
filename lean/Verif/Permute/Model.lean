import Verif.Basic
/-!
# Permuting and sorting algorithms (ualgo.h, upredalgo.h)

Memory is a list; positions are indices; `none` is undefined behaviour. Forming the pointer
`first - 1` (e.g. `--last` in `reverse` of an empty range) is not treated as undefined, dereferencing it
would be. `rotate` in these algorithms is the generic template (ualgo.h:204-215); the byte-wise
pointer specialisation `rotate_fast` is modelled in `Verif/Bytes`.
-/
namespace Ustl.Permute
variable {α : Type _}

/-- `reverse`: `for (; distance (first, --last) > 0; ++first) iter_swap (first, last)`.
Models ualgo.h:183-188. -/
def reverse (l : List α) (first last : Nat) : Option (List α) :=
  if first + 1 < last then
    match iterSwap l first (last - 1) with
    | none => none
    | some l' => reverse l' (first + 1) (last - 1)
  else some l
termination_by last - first

/-- `reverse_copy`: the values written to `result`, in order. Models ualgo.h:193-199. -/
def reverseCopy (l : List α) (first last : Nat) : Option (List α) :=
  if first < last then
    match rd l (last - 1) with
    | none => none
    | some x => (reverseCopy l first (last - 1)).map (x :: ·)
  else if first = last then some [] else none
termination_by last - first

/-- The swapping loop of the generic `rotate`: returns the memory and the final `first`, `last`.
Models ualgo.h:211-212. -/
def rotateLoop (l : List α) (first middle last : Nat) : Option (List α × Nat × Nat) :=
  if first ≠ middle ∧ middle ≠ last then
    if last = 0 then none else
    match iterSwap l first (last - 1) with
    | none => none
    | some l' => rotateLoop l' (first + 1) middle (last - 1)
  else some (l, first, last)
termination_by last

/-- Generic `rotate`; also the fallback of `rotate_fast`. The second component is the returned iterator.
Models ualgo.h:204-215 and ualgobase.cc:223-256. -/
def rotate (l : List α) (first middle last : Nat) : Option (List α × Nat) :=
  if first = middle ∨ middle = last then some (l, first)
  else
    match reverse l first middle with
    | none => none
    | some l1 =>
      match reverse l1 middle last with
      | none => none
      | some l2 =>
        match rotateLoop l2 first middle last with
        | none => none
        | some (l3, f, t) =>
          (reverse l3 f (if f = middle then t else middle)).map (·, f)

/-- `swap_ranges` on one block. Models ualgo.h:16-22. -/
def swapRanges (l : List α) (first last result : Nat) : Option (List α × Nat) :=
  if first < last then
    match iterSwap l first result with
    | none => none
    | some l' => swapRanges l' (first + 1) last (result + 1)
  else if first = last then some (l, result) else none
termination_by last - first

/-- The scan `for (j = i; j-- > first && comp(*i, *j);) {}` followed by `++j`: the position at which
element `i` belongs. Models ualgo.h:471 and the `++j` of 472. -/
def insertPos (comp : α → α → Bool) (l : List α) (first i : Nat) : Nat → Option Nat
  | 0 => some 0
  | j + 1 =>
    if first < j + 1 then
      match rd l i, rd l j with
      | some v, some x => if comp v x then insertPos comp l first i j else some (j + 1)
      | _, _ => none
    else some (j + 1)

/-- The outer loop of `stable_sort`, at the top before `++i`. Models ualgo.h:470-473. -/
def stableSortLoop (comp : α → α → Bool) (l : List α) (first i last : Nat) : Option (List α) :=
  if i + 1 < last then
    match insertPos comp l first (i + 1) (i + 1) with
    | none => none
    | some j =>
      if j ≠ i + 1 then
        match rotate l j (i + 1) (i + 2) with
        | none => none
        | some (l', _) => stableSortLoop comp l' first (i + 1) last
      else stableSortLoop comp l first (i + 1) last
  else some l
termination_by last - i

/-- `stable_sort`. Models ualgo.h:467-474 (and 479-484 with `less`). -/
def stableSort (comp : α → α → Bool) (l : List α) (first last : Nat) : Option (List α) :=
  stableSortLoop comp l first first last

/-- `partial_sort` just calls `stable_sort`. Models upredalgo.h:529-533, ualgo.h:703-708. -/
def partialSort (comp : α → α → Bool) (l : List α) (first _middle last : Nat) : Option (List α) :=
  stableSort comp l first last

/-- `nth_element` without a comparison object calls `partial_sort`. Models ualgo.h:716-720.
(The overload with a comparison object calls `sort`, i.e. libc `qsort`, and is not modelled.) -/
def nthElement (lt : α → α → Bool) (l : List α) (first nth last : Nat) : Option (List α) :=
  partialSort lt l first nth last

/-- `stable_partition`. Models upredalgo.h:557-569 (`partition`, 579-583, just calls it). -/
def stablePartition (pred : α → Bool) (l : List α) (first last : Nat) : Option (List α × Nat) :=
  if first = last then some (l, first)
  else if last < first then none
  else
    let m := first + (last - first) / 2
    if first = m then
      match rd l first with
      | none => none
      | some x => some (l, if pred x then last else first)
    else
      match stablePartition pred l first m with
      | none => none
      | some (l1, lpos) =>
        match stablePartition pred l1 m last with
        | none => none
        | some (l2, r) =>
          match rotate l2 lpos m r with
          | none => none
          | some (l3, _) => some (l3, lpos + (r - m))
termination_by last - first

/-- `merge`: the sequence written to `result`. `*first1 < *first2` takes from the first range,
otherwise from the second. Models ualgo.h:238-252. -/
def merge (lt : α → α → Bool) : List α → List α → List α
  | [], b => b
  | a, [] => a
  | x :: a, y :: b => if lt x y then x :: merge lt a (y :: b) else y :: merge lt (x :: a) b
termination_by a b => a.length + b.length

/-- The inner loop of `inplace_merge`: `while (*first < *middle) ++ first;`. The fuel is the number of
cells left in the block, so running out is a read past the block, i.e. undefined.
Models ualgo.h:261-262. -/
def skipLess (lt : α → α → Bool) (l : List α) (middle : Nat) (first : Nat) : Option Nat :=
  match h : rd l first, rd l middle with
  | some x, some y => if lt x y then skipLess lt l middle (first + 1) else some first
  | _, _ => none
termination_by l.length - first
decreasing_by
  have : first < l.length := by
    rcases Nat.lt_or_ge first l.length with h' | h'
    · exact h'
    · simp [rd, List.getElem?_eq_none h'] at h
  omega

/-- `inplace_merge`. Models ualgo.h:257-266. -/
def inplaceMerge (lt : α → α → Bool) (l : List α) (first middle last : Nat) : Option (List α) :=
  if middle < last then
    match skipLess lt l middle first with
    | none => none
    | some f =>
      match reverse l f middle with
      | none => none
      | some l1 =>
        match reverse l1 f (middle + 1) with
        | none => none
        | some l2 => inplaceMerge lt l2 (f + 1) (middle + 1) last
  else if middle = last then some l else none
termination_by last - middle

/-- `random_shuffle`; `rnd k` is the k-th result of `rand()`. Models ualgo.h:423-428. -/
def randomShuffle (rnd : Nat → Nat) (k : Nat) (l : List α) (first last : Nat) : Option (List α) :=
  if first < last then
    match iterSwap l first (first + rnd k % (last - first)) with
    | none => none
    | some l' => randomShuffle rnd (k + 1) l' (first + 1) last
  else if first = last then some l else none
termination_by last - first

/-- `while (!comp (*i, *--j)) {}`: returns the final `j`. `j = 0` would decrement below the block.
Models upredalgo.h:465. -/
def findGreater (comp : α → α → Bool) (l : List α) (i : Nat) : Nat → Option Nat
  | 0 => none
  | j + 1 =>
    match rd l i, rd l j with
    | some x, some y => if comp x y then some j else findGreater comp l i j
    | _, _ => none

/-- The loop of `next_permutation` at the top, with current `i`. Models upredalgo.h:461-472. -/
def nextPermLoop (comp : α → α → Bool) (l : List α) (first last : Nat) (i : Nat) :
    Option (List α × Bool) :=
  if first < i then
    match rd l (i - 1), rd l i with
    | some a, some b =>
      if comp a b then
        match findGreater comp l (i - 1) last with
        | none => none
        | some j =>
          match iterSwap l (i - 1) j with
          | none => none
          | some l1 => (reverse l1 i last).map (·, true)
      else nextPermLoop comp l first last (i - 1)
    | _, _ => none
  else (reverse l first last).map (·, false)
termination_by i

/-- `next_permutation`. Models upredalgo.h:455-473 (and ualgo.h:593-598 with `less`). -/
def nextPermutation (comp : α → α → Bool) (l : List α) (first last : Nat) : Option (List α × Bool) :=
  if last - first < 2 then some (l, false)
  else nextPermLoop comp l first last (last - 1)

/-- `while (!comp (*--j, *i)) {}`. Models upredalgo.h:489. -/
def findLess (comp : α → α → Bool) (l : List α) (i : Nat) : Nat → Option Nat
  | 0 => none
  | j + 1 =>
    match rd l j, rd l i with
    | some y, some x => if comp y x then some j else findLess comp l i j
    | _, _ => none

/-- The loop of `prev_permutation`. Models upredalgo.h:485-496. -/
def prevPermLoop (comp : α → α → Bool) (l : List α) (first last : Nat) (i : Nat) :
    Option (List α × Bool) :=
  if first < i then
    match rd l i, rd l (i - 1) with
    | some b, some a =>
      if comp b a then
        match findLess comp l (i - 1) last with
        | none => none
        | some j =>
          match iterSwap l (i - 1) j with
          | none => none
          | some l1 => (reverse l1 i last).map (·, true)
      else prevPermLoop comp l first last (i - 1)
    | _, _ => none
  else (reverse l first last).map (·, false)
termination_by i

/-- `prev_permutation`. Models upredalgo.h:479-497. -/
def prevPermutation (comp : α → α → Bool) (l : List α) (first last : Nat) : Option (List α × Bool) :=
  if last - first < 2 then some (l, false)
  else prevPermLoop comp l first last (last - 1)

/-- `copy_backward` within one block: `while (first != last) *--result = *--last;`.
Models ualgobase.h:105-111. -/
def copyBackward (l : List α) (first last result : Nat) : Option (List α) :=
  if first < last then
    if result = 0 then none else
    match rd l (last - 1) with
    | none => none
    | some x =>
      match wr l (result - 1) x with
      | none => none
      | some l' => copyBackward l' first (last - 1) (result - 1)
  else if first = last then some l else none
termination_by last - first

/-- The inner scan of `partial_sort_copy`: `for (; i != rend && comp (*i, *first); ++i) {}`.
Models upredalgo.h:544. -/
def pscScan (comp : α → α → Bool) (d : List α) (x : α) (i rend : Nat) : Option Nat :=
  if i < rend then
    match rd d i with
    | none => none
    | some y => if comp y x then pscScan comp d x (i + 1) rend else some i
  else some i
termination_by rend - i

/-- The loop of `partial_sort_copy` over the input, on a destination block `d` that is exactly
`[result_first, result_last)`; `rend` is an index into it. Models upredalgo.h:542-551. -/
def pscLoop (comp : α → α → Bool) : List α → List α → Nat → Option (List α × Nat)
  | [], d, rend => some (d, rend)
  | x :: xs, d, rend =>
    match pscScan comp d x 0 rend with
    | none => none
    | some i =>
      if i = d.length then pscLoop comp xs d rend
      else
        let rend' := rend + (if rend < d.length then 1 else 0)
        match copyBackward d i (rend' - 1) rend' with
        | none => none
        | some d1 =>
          match wr d1 i x with
          | none => none
          | some d2 => pscLoop comp xs d2 rend'

/-- `partial_sort_copy`. Models upredalgo.h:538-552. -/
def partialSortCopy (comp : α → α → Bool) (input d : List α) : Option (List α × Nat) :=
  pscLoop comp input d 0

end Ustl.Permute
