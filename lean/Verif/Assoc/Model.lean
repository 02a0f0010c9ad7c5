import Verif.Search.Model
/-!
# set, multiset, map, multimap (uset.h, umultiset.h, umap.h, umultimap.h)

All four are sorted vectors. The contents are a `List α`; the vector operations have the list semantics proved in
`Verif.Vector` (`vector_history_partial`), `none` standing for a call outside their contract. The searches are the
index loops of `Verif.Search`. `key` is the identity for set and multiset and `.first` for map and multimap
(`value_key_compare`, umap.h:16-20). Iterators are indices.
-/
namespace Ustl.Assoc
open Ustl.Search

variable {α κ V : Type _}

/-- `vector::insert (ip, x)`. Models uvector.h:285-290 through `Ustl.Vector.insertV`. -/
def vinsert (l : List α) (ip : Nat) (x : α) : Option (List α) :=
  if ip ≤ l.length then some (l.take ip ++ [x] ++ l.drop ip) else none

/-- `vector::erase (ep, n)`. Models uvector.h:304-309 through `Ustl.Vector.eraseV`. -/
def verase (l : List α) (ep n : Nat) : Option (List α) :=
  if ep + n ≤ l.length then some (l.take ep ++ l.drop (ep + n)) else none

/-- `vector::erase (ep1, ep2)`. Models uvector.h:313-317. -/
def veraseRange (l : List α) (ep1 ep2 : Nat) : Option (List α) :=
  if ep1 ≤ ep2 then verase l ep1 (ep2 - ep1) else none

variable (lt : κ → κ → Bool) (key : α → κ)

/-- Member `lower_bound`. Models uset.h:51, umultiset.h:53, umap.h:75, umultimap.h:55. -/
def lb (l : List α) (k : κ) : Option Nat := lowerBound (fun x k => lt (key x) k) l 0 l.length k

/-- Member `upper_bound`. Models uset.h:53, umultiset.h:55, umap.h:77, umultimap.h:57. -/
def ub (l : List α) (k : κ) : Option Nat := upperBound (fun k x => lt k (key x)) l 0 l.length k

/-- Member `equal_range`. Models uset.h:55, umultiset.h:57, umap.h:79, umultimap.h:59. -/
def er (l : List α) (k : κ) : Option (Nat × Nat) :=
  equalRange (fun x k => lt (key x) k) (fun k x => lt k (key x)) l 0 l.length k

/-- Member `count`. Models uset.h:57, umultiset.h:59, umap.h:81, umultimap.h:61. -/
def count (l : List α) (k : κ) : Option Nat :=
  match er lt key l k with
  | none => none
  | some r => some (r.2 - r.1)

/-- `set::insert (v)` and `map::insert (v)`, both overloads; also `push_back`, `emplace`, and `insert` with a hint:
new contents, position, whether inserted. Models uset.h:61-63, 90-97, 102-110; umap.h:70, 82-83, 136-157. -/
def insertU (l : List α) (x : α) : Option (List α × Nat × Bool) :=
  match lb lt key l (key x) with
  | none => none
  | some ip =>
    if ip = l.length then
      match vinsert l ip x with
      | none => none
      | some l' => some (l', ip, true)
    else
      match rd l ip with
      | none => none
      | some y =>
        if lt (key x) (key y) then
          match vinsert l ip x with
          | none => none
          | some l' => some (l', ip, true)
        else some (l, ip, false)

/-- `insert (i1, i2)`. Models uset.h:64, umap.h:84. -/
def insertUs (l : List α) : List α → Option (List α)
  | [] => some l
  | x :: xs => match insertU lt key l x with
    | none => none
    | some r => insertUs r.1 xs

/-- `set::find (v)` and `multiset::find (v)`: the result of `lower_bound` if it is `==` to `v`.
Models uset.h:49, umultiset.h:51. -/
def findEq [DecidableEq κ] (l : List α) (k : κ) : Option Nat :=
  match lb lt key l k with
  | none => none
  | some i =>
    if i = l.length then some l.length
    else match rd l i with
      | none => none
      | some y => if key y = k then some i else some l.length

/-- `map::find (k)` and `multimap::find (k)`. Models umap.h:109-113, umultimap.h:90-94. -/
def findKey (l : List α) (k : κ) : Option Nat :=
  match lb lt key l k with
  | none => none
  | some i =>
    if i < l.length then
      match rd l i with
      | none => none
      | some y => if lt k (key y) then some l.length else some i
    else some i

/-- `if (ip != end()) erase (ip)`. Models uset.h:65, umap.h:163-165. -/
def eraseFound (l : List α) : Option Nat → Option (List α)
  | none => none
  | some ip => if ip = l.length then some l else verase l ip 1

/-- `multiset::insert (v)` and `multimap::insert (v)`; also `push_back`, `emplace`, `insert` with a hint.
Models umultiset.h:60-62, 74; umultimap.h:63-64, 76. -/
def insertM (l : List α) (x : α) : Option (List α × Nat) :=
  match ub lt key l (key x) with
  | none => none
  | some ip => match vinsert l ip x with
    | none => none
    | some l' => some (l', ip)

/-- `insert (i1, i2)`. Models umultiset.h:63, umultimap.h:65. -/
def insertMs (l : List α) : List α → Option (List α)
  | [] => some l
  | x :: xs => match insertM lt key l x with
    | none => none
    | some r => insertMs r.1 xs

/-- `multiset::erase (v)`: contents and returned count. Models umultiset.h:66. -/
def eraseMs (l : List α) (k : κ) : Option (List α × Nat) :=
  match er lt key l k with
  | none => none
  | some r => match veraseRange l r.1 r.2 with
    | none => none
    | some l' => some (l', r.2 - r.1)

/-- `multimap::erase (k)`. Models umultimap.h:67. -/
def eraseMm (l : List α) (k : κ) : Option (List α) :=
  match lb lt key l k, ub lt key l k with
  | some i, some j => veraseRange l i j
  | _, _ => none

/-- `map::operator[] (k)`: contents and the position of the entry. Models umap.h:127-133. -/
def index (dflt : V) (l : List (κ × V)) (k : κ) : Option (List (κ × V) × Nat) :=
  match lb lt Prod.fst l k with
  | none => none
  | some ip =>
    if ip = l.length then
      match vinsert l ip (k, dflt) with
      | none => none
      | some l' => some (l', ip)
    else
      match rd l ip with
      | none => none
      | some y =>
        if lt k y.1 then
          match vinsert l ip (k, dflt) with
          | none => none
          | some l' => some (l', ip)
        else some (l, ip)

/-- Writing `v` through a reference to the `second` of entry `i`. -/
def setSecond (l : List (κ × V)) (i : Nat) (v : V) : Option (List (κ × V)) :=
  match rd l i with
  | none => none
  | some y => wr l i (y.1, v)

/-- `map[k] = v`. Models umap.h:61, 127-133. -/
def indexSet (dflt : V) (l : List (κ × V)) (k : κ) (v : V) : Option (List (κ × V)) :=
  match index lt dflt l k with
  | none => none
  | some r => setSecond r.1 r.2 v

/-- `at (k)`: dereferences the result of `find`. Models umap.h:58-60. -/
def at' (l : List (κ × V)) (k : κ) : Option V :=
  match findKey lt Prod.fst l k with
  | none => none
  | some i => (rd l i).map (·.2)

/-- `find_data (v, first, last)`. Models umap.h:117-123. -/
def findData [DecidableEq V] (l : List (κ × V)) (first last : Nat) (v : V) : Option Nat :=
  if first < last then
    match rd l first with
    | none => none
    | some y => if y.2 ≠ v then findData l (first + 1) last v else some first
  else if first = last then some first else none
termination_by last - first

/-! ## Histories -/

/-- Operations changing a `set`. -/
inductive SetOp (α : Type _) where
  | insert (v : α)
  | insertRange (vs : List α)
  | erase (v : α)
  | eraseAt (i : Nat)
  | eraseRange (i j : Nat)
  | clear
  | assign (vs : List α)

/-- One operation on a set. Models uset.h:60-68. -/
def setStep [DecidableEq α] (lt : α → α → Bool) (l : List α) : SetOp α → Option (List α)
  | .insert v => (insertU lt id l v).map (·.1)
  | .insertRange vs => insertUs lt id l vs
  | .erase v => eraseFound l (findEq lt id l v)
  | .eraseAt i => verase l i 1
  | .eraseRange i j => veraseRange l i j
  | .clear => some []
  | .assign vs => insertUs lt id [] vs

/-- Operations changing a `map`. `setAt` writes through an iterator's `second`. -/
inductive MapOp (κ V : Type _) where
  | insert (k : κ) (v : V)
  | insertRange (ps : List (κ × V))
  | index (k : κ)
  | indexSet (k : κ) (v : V)
  | setAt (i : Nat) (v : V)
  | erase (k : κ)
  | eraseAt (i : Nat)
  | eraseRange (i j : Nat)
  | clear
  | assign (ps : List (κ × V))

/-- One operation on a map. Models umap.h:58-89. -/
def mapStep (dflt : V) (l : List (κ × V)) : MapOp κ V → Option (List (κ × V))
  | .insert k v => (insertU lt Prod.fst l (k, v)).map (·.1)
  | .insertRange ps => insertUs lt Prod.fst l ps
  | .index k => (index lt dflt l k).map (·.1)
  | .indexSet k v => indexSet lt dflt l k v
  | .setAt i v => setSecond l i v
  | .erase k => eraseFound l (findKey lt Prod.fst l k)
  | .eraseAt i => verase l i 1
  | .eraseRange i j => veraseRange l i j
  | .clear => some []
  | .assign ps => insertUs lt Prod.fst [] ps

/-- Operations changing a `multiset` or `multimap`. -/
inductive MultiOp (α κ : Type _) where
  | insert (x : α)
  | insertRange (xs : List α)
  | erase (k : κ)
  | eraseAt (i : Nat)
  | eraseRange (i j : Nat)
  | clear
  | assign (xs : List α)

/-- One operation on a multiset (`isMap = false`, umultiset.h:50-67) or multimap (umultimap.h:62-69). -/
def multiStep (isMap : Bool) (l : List α) : MultiOp α κ → Option (List α)
  | .insert x => (insertM lt key l x).map (·.1)
  | .insertRange xs => insertMs lt key l xs
  | .erase k => if isMap then eraseMm lt key l k else (eraseMs lt key l k).map (·.1)
  | .eraseAt i => verase l i 1
  | .eraseRange i j => veraseRange l i j
  | .clear => some []
  | .assign xs => insertMs lt key [] xs

end Ustl.Assoc
