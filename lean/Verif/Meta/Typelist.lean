import Verif.Basic
/-!
# Type lists (typelist.h, typet.h)

Templates are functions on types, computed by the compiler. A type is the empty list `NullType`, a list cell
`Typelist<H, T>`, or something else. Each template below takes the most specialised of the partial specialisations
that match, in the order of the equations; `none` means that there is no such member: the program does not compile.
-/
namespace Ustl.Meta

/-- Types, as far as type lists tell them apart: typet.h:15, typelist.h:16-20; `other n` is any other type. -/
inductive Ty where
  | null
  | list (head tail : Ty)
  | other (n : Nat)
deriving DecidableEq

/-- `Select<flag, T, U>::Result`. Models typet.h:24-27. -/
def select (flag : Bool) (t u : Ty) : Ty := match flag with
  | true => t
  | false => u

/-- `Length<List>::value`. Models typelist.h:62-65. -/
def length : Ty → Option Nat
  | .null => some 0
  | .list _ u => (length u).map (1 + ·)
  | .other _ => none

/-- `TypeAt<List, i>::Result`. Models typelist.h:68-76. -/
def typeAt : Ty → Nat → Option Ty
  | .list h _, 0 => some h
  | .list _ t, i + 1 => typeAt t i
  | _, _ => none

/-- `TypeAtNonStrict<List, i, Default>::Result`. Models typelist.h:79-90. -/
def typeAtNonStrict (dflt : Ty) : Ty → Nat → Ty
  | .list h _, 0 => h
  | .list _ t, i + 1 => typeAtNonStrict dflt t i
  | _, _ => dflt

/-- `IndexOf<List, T>::value`. Models typelist.h:93-104. -/
def indexOf (t : Ty) : Ty → Option Int
  | .null => some (-1)
  | .list h tl =>
    if h = t then some 0
    else (indexOf t tl).map fun i => if i = -1 then -1 else 1 + i
  | .other _ => none

/-- `Append<List, T>::Result`. Models typelist.h:107-119. -/
def append : Ty → Ty → Option Ty
  | .null, .null => some .null
  | .null, .list h t => some (.list h t)
  | .null, t => some (.list t .null)
  | .list h tl, t => (append tl t).map (.list h)
  | .other _, _ => none

/-- `Erase<List, T>::Result`. Models typelist.h:122-130. -/
def erase (t : Ty) : Ty → Option Ty
  | .null => some .null
  | .list h tl => if h = t then some tl else (erase t tl).map (.list h)
  | .other _ => none

/-- `EraseAll<List, T>::Result`. Models typelist.h:133-143. -/
def eraseAll (t : Ty) : Ty → Option Ty
  | .null => some .null
  | .list h tl => if h = t then eraseAll t tl else (eraseAll t tl).map (.list h)
  | .other _ => none

/-- `NoDuplicates<List>::Result`. Models typelist.h:146-155. -/
def noDuplicates : Ty → Option Ty
  | .null => some .null
  | .list h tl =>
    match noDuplicates tl with
    | none => none
    | some l1 =>
      match erase h l1 with
      | none => none
      | some l2 => some (.list h l2)
  | .other _ => none

/-- `Replace<List, T, U>::Result`. Models typelist.h:158-168. -/
def replace (t u : Ty) : Ty → Option Ty
  | .null => some .null
  | .list h tl => if h = t then some (.list u tl) else (replace t u tl).map (.list h)
  | .other _ => none

/-- `ReplaceAll<List, T, U>::Result`. Models typelist.h:171-181. -/
def replaceAll (t u : Ty) : Ty → Option Ty
  | .null => some .null
  | .list h tl => if h = t then (replaceAll t u tl).map (.list u) else (replaceAll t u tl).map (.list h)
  | .other _ => none

/-- `Reverse<List>::Result`. Models typelist.h:184-189. -/
def reverse : Ty → Option Ty
  | .null => some .null
  | .list h tl =>
    match reverse tl with
    | none => none
    | some r => append r h
  | .other _ => none

variable (void : Ty) (base : Ty → Ty → Bool)

/-- `SuperSubclass<T, U>::value`. `base u t`: a pointer to `u` converts to a pointer to the other type `t`, that is,
`t` is an accessible, unambiguous base class of `u`. Models typet.h:62-79 (and typet.h:38-59: the conversion from a
type to itself exists). -/
def superSubclass (t u : Ty) : Bool :=
  if t = void ∨ u = void then false
  else if u = t then true else base u t

/-- `MostDerived<List, T>::Result`. Models typelist.h:192-200. -/
def mostDerived (t : Ty) : Ty → Option Ty
  | .null => some t
  | .list h tl => (mostDerived t tl).map fun c => select (superSubclass void base c h) h c
  | .other _ => none

/-- How many cells a type list has, to bound the recursion of `DerivedToFront`. -/
def cells : Ty → Nat
  | .list _ t => cells t + 1
  | _ => 0

/-- `DerivedToFront<List>::Result`. The recursion is on a list of the same length as the tail; `fuel` is the number
of cells. Models typelist.h:203-213. -/
def derivedToFrontN : Nat → Ty → Option Ty
  | _, .null => some .null
  | fuel + 1, .list h tl =>
    match mostDerived void base h tl with
    | none => none
    | some m =>
      match replace m h tl with
      | none => none
      | some temp => (derivedToFrontN fuel temp).map (.list m)
  | _, _ => none

/-- `DerivedToFront<List>::Result`. Models typelist.h:203-213. -/
def derivedToFront (t : Ty) : Option Ty := derivedToFrontN void base (cells t) t

/-- A list of types as nested cells. Models the expansion at typelist.h:38-41, 45-48. -/
def ofList : List Ty → Ty
  | [] => .null
  | x :: xs => .list x (ofList xs)

/-- The specialisation of `Seq` that is chosen: the fewest parameters (at least one, at most eight) such that all the
remaining arguments are `NullType`; the primary template takes nine. Models typelist.h:36-49 (metamac.h:45-54, 59-68). -/
def seqArity (args : List Ty) : Nat :=
  match ([1, 2, 3, 4, 5, 6, 7, 8] : List Nat).find? fun n => (args.drop n).all (· = .null) with
  | some n => n
  | none => 9

/-- `Seq<args...>::Type`: missing arguments are `NullType`. Models typelist.h:36-49. -/
def seq (args : List Ty) : Option Ty :=
  if args.length ≤ 9 then
    let all := args ++ List.replicate (9 - args.length) .null
    some (ofList (all.take (seqArity all)))
  else none

end Ustl.Meta
