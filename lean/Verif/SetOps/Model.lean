import Verif.Permute.Spec
/-!
# Set algorithms on sorted ranges (upredalgo.h:338-422)

Input ranges are lists (the loop condition `(first1 != last1) & (first2 != last2)` guards every
dereference in the source, and the final `copy` copies the remaining elements); the result is the list of
values written. The Boolean flags of the source (`b1ge2 = !comp(*first1,*first2)`, `first1 += b2ge1`, ...)
are written out as case distinctions: in each case exactly the iterators whose flag is set advance. If
both comparisons held at once the source would loop forever; no strict order allows that, and the model
returns `[]` there.
-/
namespace Ustl.SetOps
variable {α : Type _}

/-- `includes`. Models upredalgo.h:342-351. -/
def includes (comp : α → α → Bool) : List α → List α → Bool
  | x :: a, y :: b =>
    if comp y x then false
    else if comp x y then includes comp a (y :: b)  -- `first2 += 0; ++first1`
    else includes comp a b                          -- `first2 += 1; ++first1`
  | _, b => b.isEmpty

/-- `set_union`. Models upredalgo.h:360-372. -/
def setUnion (comp : α → α → Bool) : List α → List α → List α
  | x :: a, y :: b =>
    if comp y x then y :: setUnion comp (x :: a) b
    else if comp x y then x :: setUnion comp a (y :: b)
    else x :: setUnion comp a b
  | a, b => a ++ b
termination_by a b => a.length + b.length

/-- `set_intersection`. Models upredalgo.h:377-388. -/
def setIntersection (comp : α → α → Bool) : List α → List α → List α
  | x :: a, y :: b =>
    if comp x y then
      if comp y x then [] else setIntersection comp a (y :: b)
    else
      if comp y x then setIntersection comp (x :: a) b else x :: setIntersection comp a b
  | _, _ => []
termination_by a b => a.length + b.length

/-- `set_difference`. Models upredalgo.h:393-404. -/
def setDifference (comp : α → α → Bool) : List α → List α → List α
  | x :: a, y :: b =>
    if comp x y then
      if comp y x then [] else x :: setDifference comp a (y :: b)
    else
      if comp y x then setDifference comp (x :: a) b else setDifference comp a b
  | a, _ => a
termination_by a b => a.length + b.length

/-- `set_symmetric_difference`. Models upredalgo.h:409-422. -/
def setSymmetricDifference (comp : α → α → Bool) : List α → List α → List α
  | x :: a, y :: b =>
    if comp x y then
      if comp y x then [] else x :: setSymmetricDifference comp a (y :: b)
    else
      if comp y x then y :: setSymmetricDifference comp (x :: a) b else setSymmetricDifference comp a b
  | a, b => a ++ b
termination_by a b => a.length + b.length

end Ustl.SetOps
