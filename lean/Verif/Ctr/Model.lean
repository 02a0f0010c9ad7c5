import Verif.Forward.Model
import Verif.Permute.Model
import Verif.Search.Model
import Verif.Seq.Model
/-!
# Algorithms on whole containers, sorting (uctralgo.h, ualgo.h)

A container is the list of its elements; an iterator is a position `0 .. size`. The non-mutating and the
element-wise forms call the range algorithm on `begin()`, `end()`. The forms that shorten the container run a
copying algorithm onto the container's own storage and then erase the tail (`Assoc.veraseRange`, C22/C36).
`none` is undefined behaviour or a failed assertion.

An argument `const T& value` may refer to an element of the container itself: `Ref`.
-/
namespace Ustl.Ctr
open Ustl (rd wr)
variable {α β γ κ : Type _}

/-- An argument of type `const T&`: a value outside the container or a reference to its element `k`. -/
inductive Ref (α : Type _) where
  | out (x : α)
  | elem (k : Nat)

/-- The value the reference denotes when the container holds `l`. -/
def Ref.get (l : List α) : Ref α → Option α
  | .out x => some x
  | .elem k => rd l k

/-- `find (ctr, value)`, `find_if (ctr, pred)`. Models uctralgo.h:60-86. -/
def find (p : α → Bool) (c : List α) : Option Nat := Forward.findIf p c 0 c.length
/-- `count (ctr, value)`, `count_if (ctr, pred)`. Models uctralgo.h:93-108. -/
def count (p : α → Bool) (c : List α) : Option Nat := Forward.countIf p c 0 c.length 0
/-- `for_each (ctr, f)`, the function object's state being `σ`. Models uctralgo.h:40-57. -/
def forEach {σ : Type _} (f : σ → α → σ) (c : List α) (s : σ) : Option σ := Forward.forEach f c 0 c.length s
/-- `copy (ctr, result)`. Models uctralgo.h:18-22. -/
def copy (c : List α) : Option (List α) := Forward.copy c 0 c.length
/-- `copy_if (ctr, result, pred)`. Models uctralgo.h:28-32. -/
def copyIf (p : α → Bool) (c : List α) : Option (List α) := Forward.copyIf p c 0 c.length

/-- `transform` with the result written over the source: `*result = op (*first)` with `result == first`.
Models ualgo.h:96-102 called as in uctralgo.h:118-122. -/
def transformIn (op : α → α) (l : List α) (first last : Nat) : Option (List α) :=
  if first < last then
    match rd l first with
    | none => none
    | some x =>
      match wr l first (op x) with
      | none => none
      | some l' => transformIn op l' (first + 1) last
  else if first = last then some l else none
termination_by last - first
/-- `transform (ctr, op)`. Models uctralgo.h:118-122. -/
def transform (op : α → α) (c : List α) : Option (List α) := transformIn op c 0 c.length
/-- `transform (ctr, result, op)`. Models uctralgo.h:132-136. -/
def transformTo (op : α → β) (c : List α) : Option (List β) := Forward.transform op c 0 c.length
/-- `transform (ctr, first, result, op)`, `first` pointing at `d`. Models uctralgo.h:148-152. -/
def transform2 (op : α → β → γ) (c : List α) (d : List β) : Option (List γ) := Forward.transform2 op c 0 c.length d 0

/-- The loop of `replace`: both values are references, read at every comparison and at every assignment.
Models ualgo.h:130-135. -/
def replaceLoop (eq : α → α → Bool) (old new : Ref α) (l : List α) (first last : Nat) : Option (List α) :=
  if first < last then
    match rd l first, old.get l, new.get l with
    | some x, some o, some n =>
      if eq x o then
        match wr l first n with
        | none => none
        | some l' => replaceLoop eq old new l' (first + 1) last
      else replaceLoop eq old new l (first + 1) last
    | _, _, _ => none
  else if first = last then some l else none
termination_by last - first
/-- `replace (ctr, old_value, new_value)`. Models uctralgo.h:159-163. -/
def replace (eq : α → α → Bool) (c : List α) (old new : Ref α) : Option (List α) := replaceLoop eq old new c 0 c.length
/-- `replace_if (ctr, pred, new_value)`, `new_value` outside the container. Models uctralgo.h:170-174. -/
def replaceIf (p : α → Bool) (new : α) (c : List α) : Option (List α) := Forward.replaceIf p new c 0 c.length

/-- The loop of `fill`, the value being a reference. Models ualgobase.h:132-137. -/
def fillLoop (v : Ref α) (l : List α) (first last : Nat) : Option (List α) :=
  if first < last then
    match v.get l with
    | none => none
    | some x =>
      match wr l first x with
      | none => none
      | some l' => fillLoop v l' (first + 1) last
  else if first = last then some l else none
termination_by last - first
/-- `fill (ctr, value)`. Models uctralgo.h:209-213. -/
def fill (c : List α) (v : Ref α) : Option (List α) := fillLoop v c 0 c.length
/-- `generate (ctr, gen)`. Models uctralgo.h:219-223. -/
def generate (gen : Nat → α) (c : List α) : Option (List α) := Forward.generate gen c 0 c.length 0
/-- `random_shuffle (ctr)`. Models uctralgo.h:228-232. -/
def randomShuffle (rnd : Nat → Nat) (c : List α) : Option (List α) := Permute.randomShuffle rnd 0 c 0 c.length

/-- `remove_copy (ctr, result, value)`, `remove_copy_if (ctr, result, pred)`. Models uctralgo.h:241-258. -/
def removeCopy (p : α → Bool) (c : List α) : Option (List α) := Forward.removeCopyIf p c 0 c.length
/-- `remove (ctr, value)`. Models uctralgo.h:267-271. -/
def remove (eq : α → α → Bool) (c : List α) : Ref α → Option (List α)
  | .out x => Seq.remove eq c x
  | .elem k => Seq.removeRef eq c k
/-- `remove_if (ctr, pred)`. Models uctralgo.h:296-300. -/
def removeIf (p : α → Bool) (c : List α) : Option (List α) := Seq.removeIf p c

/-- `remove_copy` with a sequence of iterators to leave out, onto the source itself: `result` is the write
position. Models ualgo.h:295-307 called as in uctralgo.h:282-285. -/
def removeItersLoop (rs : List Nat) (l : List α) (first last result : Nat) : Option (List α × Nat) :=
  if first < last then
    match rd l first with
    | none => none
    | some x =>
      match Forward.skipBelow first rs with
      | [] =>
        match wr l result x with
        | none => none
        | some l' => removeItersLoop [] l' (first + 1) last (result + 1)
      | r :: rs' =>
        if first ≠ r then
          match wr l result x with
          | none => none
          | some l' => removeItersLoop (r :: rs') l' (first + 1) last (result + 1)
        else removeItersLoop (r :: rs') l (first + 1) last result
  else if first = last then some (l, result) else none
termination_by last - first
/-- `remove (ctr, rfirst, rlast)`, the iterators to remove being the positions `rs`. Models uctralgo.h:281-285. -/
def removeIters (c : List α) (rs : List Nat) : Option (List α) :=
  match removeItersLoop rs c 0 c.length 0 with
  | none => none
  | some (m, e) => Assoc.veraseRange m e m.length

/-- `unique_copy (ctr, result)`. Models uctralgo.h:309-313. -/
def uniqueCopy (eq : α → α → Bool) (c : List α) : Option (List α) := Forward.uniqueCopy eq c 0 c.length
/-- `unique (ctr)`, `unique (ctr, binary_pred)`. Models uctralgo.h:325-346. -/
def unique (eq : α → α → Bool) (c : List α) : Option (List α) := Seq.unique eq c
/-- `reverse (ctr)`. Models uctralgo.h:352-356. -/
def reverse (c : List α) : Option (List α) := Seq.reverse c

/-- `rotate (ctr, offset)`, with the assertion (compiled in unless NDEBUG). `off_t` is unbounded here: the assertion
has bounded `offset` before it is used. Models uctralgo.h:361-369. -/
def rotate (c : List α) (offset : Int) : Option (List α) :=
  if offset.natAbs < c.length then
    if offset > 0 then (Permute.rotate c 0 (c.length - offset.toNat) c.length).map (·.1)
    else (Permute.rotate c 0 (-offset).toNat c.length).map (·.1)
  else none

/-- `lower_bound (ctr, value)`. Models uctralgo.h:376-385. -/
def lowerBound (cmpEV : α → β → Bool) (c : List α) (v : β) : Option Nat := Search.lowerBound cmpEV c 0 c.length v
/-- `upper_bound (ctr, value)`. Models uctralgo.h:391-400. -/
def upperBound (cmpVE : β → α → Bool) (c : List α) (v : β) : Option Nat := Search.upperBound cmpVE c 0 c.length v
/-- `binary_search (ctr, value)`. Models uctralgo.h:406-415. -/
def binarySearch (lt : α → α → Bool) (c : List α) (v : α) : Option Bool := Search.binarySearch lt lt c 0 c.length v
/-- `equal_range (ctr, value)`. Models uctralgo.h:420-429. -/
def equalRange (lt : α → α → Bool) (c : List α) (v : α) : Option (Nat × Nat) := Search.equalRange lt lt c 0 c.length v
/-- `stable_sort (ctr)`, `stable_sort (ctr, comp)`. Models uctralgo.h:452-465. -/
def stableSort (comp : α → α → Bool) (c : List α) : Option (List α) := Permute.stableSort comp c 0 c.length

/-! ### sort -/

/-- A type of comparison objects: what an object does when called and what the declaration `Compare comp;` makes.
`dflt = none` is a type whose default-initialised objects have an indeterminate value, as function pointers. -/
structure CmpType (κ α : Type _) where
  call : κ → α → α → Bool
  dflt : Option κ

/-- `sort (first, last, comp)`: the object `comp` is unnamed and unused, `qsort_adapter` declares its own.
`qs` is C's `qsort`; with no elements it makes no comparison. Models ualgo.h:444-451 with 432-438. -/
def sort (qs : (α → α → Int) → List α → List α) (T : CmpType κ α) (l : List α) (first last : Nat) (_comp : κ) :
    Option (List α) :=
  if first ≤ last ∧ last ≤ l.length then
    if first = last then some l
    else match T.dflt with
      | none => none
      | some d => some (l.take first ++ qs (Seq.qsortAdapter (T.call d)) ((l.take last).drop first) ++ l.drop last)
  else none

/-- The type `less<T>` for `operator<` being `lt`: it has no state. Models ufunction.h:66. -/
def lessType (lt : α → α → Bool) : CmpType Unit α := ⟨fun _ => lt, some ()⟩

/-- `sort (first, last)`. Models ualgo.h:456-461. -/
def sortLess (qs : (α → α → Int) → List α → List α) (lt : α → α → Bool) (l : List α) (first last : Nat) :
    Option (List α) := sort qs (lessType lt) l first last ()

/-- `nth_element (first, nth, last, comp)`. Models upredalgo.h:270-274. -/
def nthElementComp (qs : (α → α → Int) → List α → List α) (T : CmpType κ α) (l : List α) (first _nth last : Nat) (comp : κ) :
    Option (List α) := sort qs T l first last comp

/-- `sort (ctr)`. Models uctralgo.h:434-438; `list::sort` (ulist.h:45) is the same call. -/
def sortCtr (qs : (α → α → Int) → List α → List α) (lt : α → α → Bool) (c : List α) : Option (List α) :=
  sortLess qs lt c 0 c.length
/-- `sort (ctr, comp)`. Models uctralgo.h:443-447. -/
def sortCtrComp (qs : (α → α → Int) → List α → List α) (T : CmpType κ α) (c : List α) (comp : κ) : Option (List α) :=
  sort qs T c 0 c.length comp

end Ustl.Ctr
