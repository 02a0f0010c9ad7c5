import Verif.Assoc.Spec
/-!
# Sorted containers used through the vector they publicly are (uset.h:17, umultiset.h:18, umap.h:33, umultimap.h:19)

`set`, `multiset`, `map` and `multimap` derive publicly from `vector` and hide only some of its members: `pop_back`,
`resize`, `front`, `back`, `at`/`operator[]` (of the sets), assignment through iterators and reading from a stream
are the vector's. The model is on the level of element lists, as in `Verif.Assoc.Model`.
-/
namespace Ustl.Assoc
variable {α κ V : Type _}

/-- Changing calls that come from the vector. `write i v` is `c[i] = v` or `*(c.begin() + i) = v`; `load vs` is
`is >> c` with `vs` in the stream. -/
inductive BaseOp (α : Type _) where
  | popBack
  | resize (n : Nat) (d : α)
  | write (i : Nat) (v : α)
  | load (vs : List α)

/-- One such call. `pop_back` is uvector.h:83, `resize` uvector.h:150-175, writing uvector.h:57-60, 74-76, reading
uvector.h:105 (uctrstrm.h:66-82: the container is resized to the count and every element is assigned; what the bytes
are is C38's matter). -/
def baseStep (l : List α) : BaseOp α → Option (List α)
  | .popBack => if l.length = 0 then none else some (l.take (l.length - 1))
  | .resize n d => some (if n < l.length then l.take n else l ++ List.replicate (n - l.length) d)
  | .write i v => wr l i v
  | .load vs => some vs

/-- `c[i]`, `at (i)`. Models uvector.h:74-77. -/
def baseAt (l : List α) (i : Nat) : Option α := rd l i

/-- `front()`. Models uvector.h:78-79. -/
def baseFront (l : List α) : Option α := baseAt l 0

/-- `back()`: `end()[-1]`. Models uvector.h:80-81. -/
def baseBack (l : List α) : Option α := if l.length = 0 then none else rd l (l.length - 1)

/-! ## Specification -/

/-- Exactly `n` members of `S` are below `x`. -/
def Rank (lt : κ → κ → Bool) (S : κ → Prop) (x : κ) (n : Nat) : Prop :=
  ∃ ys : List κ, ys.Nodup ∧ ys.length = n ∧ ∀ y, y ∈ ys ↔ S y ∧ lt y x = true

/-- What the vector's calls require to leave the container sorted: `pop_back` needs an element, `resize` may only
shrink, a written element lies between its neighbours, a loaded sequence is sorted. `R` is how keys of consecutive
elements are related: strictly increasing for set and map, not decreasing for the others. -/
def BaseOp.Pre (R : α → α → Prop) (shown : List α) : BaseOp α → Prop
  | .popBack => shown ≠ []
  | .resize n _ => n ≤ shown.length
  | .write i v => i < shown.length ∧ (∀ x ∈ shown.take i, R x v) ∧ ∀ x ∈ shown.drop (i + 1), R v x
  | .load vs => vs.Pairwise R

/-- Sets: `pop_back` removes the greatest element, `resize (n)` keeps the `n` smallest. -/
def BaseOp.setApply (lt : α → α → Bool) (shown : List α) : BaseOp α → (α → Prop) → (α → Prop)
  | .popBack, S => fun x => S x ∧ ∃ y, S y ∧ lt x y = true
  | .resize n _, S => fun x => S x ∧ ∃ r, r < n ∧ Rank lt S x r
  | .write i v, S => fun x => x = v ∨ (S x ∧ shown[i]? ≠ some x)
  | .load vs, _ => fun x => x ∈ vs

open Classical in
/-- Maps: `pop_back` removes the entry of the greatest key, `resize (n)` keeps those of the `n` smallest keys. -/
noncomputable def BaseOp.mapApply [DecidableEq κ] (lt : κ → κ → Bool) (shown : List (κ × V)) :
    BaseOp (κ × V) → (κ → Option V) → (κ → Option V)
  | .popBack, F => fun k => if ∃ k', F k' ≠ none ∧ lt k k' = true then F k else none
  | .resize n _, F => fun k => if ∃ r, r < n ∧ Rank lt (fun k' => F k' ≠ none) k r then F k else none
  | .write i p, F => fun k => if k = p.1 then some p.2 else if shown[i]?.map (·.1) = some k then none else F k
  | .load ps, _ => fun k => lookup ps k

open Classical in
/-- Multisets and multimaps: `pop_back` removes the newest entry of the greatest key, `resize (n)` keeps the first `n`
entries in order of keys and, for equal keys, of insertion. -/
noncomputable def BaseOp.multiApply (lt : κ → κ → Bool) (key : α → κ) (shown : List α) :
    BaseOp α → (κ → List α) → (κ → List α)
  | .popBack, F => fun k => if ∃ k', F k' ≠ [] ∧ lt k k' = true then F k else (F k).dropLast
  | .resize n _, F => fun k => (F k).take (n - shown.countP fun x => lt (key x) k)
  | .write i v, _ => fun k => ofKey lt key k (shown.take i ++ [v] ++ shown.drop (i + 1))
  | .load vs, _ => fun k => ofKey lt key k vs

/-- Histories of a set mixing its own calls and the vector's. -/
inductive SetHistB [DecidableEq α] (lt : α → α → Bool) : List α → (α → Prop) → Prop where
  | nil : SetHistB lt [] fun _ => False
  | own {l l' S} (op : SetOp α) : SetHistB lt l S → op.Pre l → setStep lt l op = some l' →
      SetHistB lt l' (op.apply l S)
  | base {l l' S} (op : BaseOp α) : SetHistB lt l S → op.Pre (fun a b => lt a b = true) l →
      baseStep l op = some l' → SetHistB lt l' (op.setApply lt l S)

/-- Histories of a map mixing its own calls and the vector's. -/
inductive MapHistB [DecidableEq κ] (lt : κ → κ → Bool) (dflt : V) : List (κ × V) → (κ → Option V) → Prop where
  | nil : MapHistB lt dflt [] fun _ => none
  | own {l l' F} (op : MapOp κ V) : MapHistB lt dflt l F → op.Pre l → mapStep lt dflt l op = some l' →
      MapHistB lt dflt l' (op.apply dflt l F)
  | base {l l' F} (op : BaseOp (κ × V)) : MapHistB lt dflt l F → op.Pre (fun a b => lt a.1 b.1 = true) l →
      baseStep l op = some l' → MapHistB lt dflt l' (op.mapApply lt l F)

/-- Histories of a multiset or multimap mixing its own calls and the vector's. -/
inductive MultiHistB (lt : κ → κ → Bool) (key : α → κ) (isMap : Bool) : List α → (κ → List α) → Prop where
  | nil : MultiHistB lt key isMap [] fun _ => []
  | own {l l' F} (op : MultiOp α κ) : MultiHistB lt key isMap l F → op.Pre l →
      multiStep lt key isMap l op = some l' → MultiHistB lt key isMap l' (op.apply lt key l F)
  | base {l l' F} (op : BaseOp α) : MultiHistB lt key isMap l F → op.Pre (fun a b => lt (key b) (key a) = false) l →
      baseStep l op = some l' → MultiHistB lt key isMap l' (op.multiApply lt key l F)

end Ustl.Assoc
