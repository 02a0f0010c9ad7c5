import Verif.Basic
/-!
# Binary searches (ualgo.h, upredalgo.h)

The overloads without a comparison are the overloads with a comparison instantiated with
`operator<` (textually the same loops: ualgo.h:365-418 vs. upredalgo.h:205-261), except
`binary_search`, which is modelled twice.
The value may have another type than the elements, as in the C++ templates. `cmpEV` is the
comparison called with (element, value) and `cmpVE` the one called with (value, element).
Positions are indices into the memory `l`. An invalid range (`last < first`) is `none`.
-/
namespace Ustl.Search
variable {α β : Type _}

/-- `lower_bound`. Models ualgo.h:365-377 and upredalgo.h:205-217. -/
def lowerBound (cmpEV : α → β → Bool) (l : List α) (first last : Nat) (v : β) : Option Nat :=
  if first < last then
    let mid := first + (last - first) / 2
    match rd l mid with
    | none => none
    | some x => if cmpEV x v then lowerBound cmpEV l (mid + 1) last v
                else lowerBound cmpEV l first mid v
  else if first = last then some first else none
termination_by last - first

/-- `upper_bound`. Models ualgo.h:393-405 and upredalgo.h:235-247. -/
def upperBound (cmpVE : β → α → Bool) (l : List α) (first last : Nat) (v : β) : Option Nat :=
  if first < last then
    let mid := first + (last - first) / 2
    match rd l mid with
    | none => none
    | some x => if cmpVE v x then upperBound cmpVE l first mid v
                else upperBound cmpVE l (mid + 1) last v
  else if first = last then some last else none
termination_by last - first

/-- `binary_search` without a comparison object: `found != last && !(value < *found)`.
Models ualgo.h:382-387. -/
def binarySearch (ltEV : α → β → Bool) (ltVE : β → α → Bool) (l : List α) (first last : Nat) (v : β) :
    Option Bool :=
  match lowerBound ltEV l first last v with
  | none => none
  | some found => if found = last then some false
                  else match rd l found with
                    | none => none
                    | some x => some (!ltVE v x)

/-- `binary_search` with a comparison object: `found != last && !comp(*found, value)`.
Models upredalgo.h:223-228 as written (the arguments of the final `comp` are not swapped). -/
def binarySearchComp (cmpEV : α → β → Bool) (l : List α) (first last : Nat) (v : β) :
    Option Bool :=
  match lowerBound cmpEV l first last v with
  | none => none
  | some found => if found = last then some false
                  else match rd l found with
                    | none => none
                    | some x => some (!cmpEV x v)

/-- The second loop of `equal_range`: advance while not past the end and `!(value < *second)`.
Models ualgo.h:415-416, upredalgo.h:258-259. -/
def advanceWhileNotLess (cmpVE : β → α → Bool) (l : List α) (second last : Nat) (v : β) : Option Nat :=
  if second < last then
    match rd l second with
    | none => none
    | some x => if cmpVE v x then some second else advanceWhileNotLess cmpVE l (second + 1) last v
  else if second = last then some second else none
termination_by last - second

/-- `equal_range`. Models ualgo.h:410-418 and upredalgo.h:253-261. -/
def equalRange (cmpEV : α → β → Bool) (cmpVE : β → α → Bool) (l : List α) (first last : Nat) (v : β) :
    Option (Nat × Nat) := do
  let lo ← lowerBound cmpEV l first last v
  let hi ← advanceWhileNotLess cmpVE l lo last v
  return (lo, hi)

end Ustl.Search
