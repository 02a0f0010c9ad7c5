import Verif.Assoc.Model
/-! # Specification: mathematical sets, finite maps, classes of equivalents -/
namespace Ustl.Assoc

variable {α κ V : Type _}

/-- A linear order: a strict weak order in which equivalent elements are equal. -/
structure Linear (lt : κ → κ → Bool) : Prop extends StrictWeak lt where
  tri : ∀ a b, lt a b = false → lt b a = false → a = b

/-- Set semantics; `shown` are the elements in iteration order before the call. -/
def SetOp.apply (shown : List α) : SetOp α → (α → Prop) → (α → Prop)
  | .insert v, S => fun x => x = v ∨ S x
  | .insertRange vs, S => fun x => x ∈ vs ∨ S x
  | .erase v, S => fun x => S x ∧ x ≠ v
  | .eraseAt i, S => fun x => S x ∧ shown[i]? ≠ some x
  | .eraseRange i j, S => fun x => S x ∧ x ∉ (shown.take j).drop i
  | .clear, _ => fun _ => False
  | .assign vs, _ => fun x => x ∈ vs

/-- Iterators passed must be valid. -/
def SetOp.Pre (shown : List α) : SetOp α → Prop
  | .eraseAt i => i < shown.length
  | .eraseRange i j => i ≤ j ∧ j ≤ shown.length
  | _ => True

/-- Histories of a set, with the mathematical set they define. -/
inductive SetHist [DecidableEq α] (lt : α → α → Bool) : List α → (α → Prop) → Prop where
  | nil : SetHist lt [] fun _ => False
  | step {l l' S} (op : SetOp α) : SetHist lt l S → op.Pre l → setStep lt l op = some l' →
      SetHist lt l' (op.apply l S)

/-- The first entry of `ps` with key `k`. -/
def lookup [DecidableEq κ] (ps : List (κ × V)) (k : κ) : Option V := (ps.find? fun p => decide (p.1 = k)).map (·.2)

/-- Finite map semantics. -/
def MapOp.apply [DecidableEq κ] (dflt : V) (shown : List (κ × V)) : MapOp κ V → (κ → Option V) → (κ → Option V)
  | .insert k v, F => fun x => if x = k then (F k).or (some v) else F x
  | .insertRange ps, F => fun x => (F x).or (lookup ps x)
  | .index k, F => fun x => if x = k then (F k).or (some dflt) else F x
  | .indexSet k v, F => fun x => if x = k then some v else F x
  | .setAt i v, F => fun x => if shown[i]?.map (·.1) = some x then some v else F x
  | .erase k, F => fun x => if x = k then none else F x
  | .eraseAt i, F => fun x => if shown[i]?.map (·.1) = some x then none else F x
  | .eraseRange i j, F => fun x => if x ∈ ((shown.take j).drop i).map (·.1) then none else F x
  | .clear, _ => fun _ => none
  | .assign ps, _ => fun x => lookup ps x

/-- Iterators passed must be valid. -/
def MapOp.Pre (shown : List (κ × V)) : MapOp κ V → Prop
  | .setAt i _ | .eraseAt i => i < shown.length
  | .eraseRange i j => i ≤ j ∧ j ≤ shown.length
  | _ => True

/-- Histories of a map, with the finite map they define. -/
inductive MapHist [DecidableEq κ] (lt : κ → κ → Bool) (dflt : V) : List (κ × V) → (κ → Option V) → Prop where
  | nil : MapHist lt dflt [] fun _ => none
  | step {l l' F} (op : MapOp κ V) : MapHist lt dflt l F → op.Pre l → mapStep lt dflt l op = some l' →
      MapHist lt dflt l' (op.apply dflt l F)

/-- The elements of `l` whose key is equivalent to `k`, in order. -/
def ofKey (lt : κ → κ → Bool) (key : α → κ) (k : κ) (l : List α) : List α :=
  l.filter fun x => decide (Equiv lt k (key x))

/-- Multiset and multimap semantics: for every key the entries in order of insertion. -/
def MultiOp.apply (lt : κ → κ → Bool) (key : α → κ) (shown : List α) : MultiOp α κ → (κ → List α) → (κ → List α)
  | .insert x, F => fun k => if Equiv lt k (key x) then F k ++ [x] else F k
  | .insertRange xs, F => fun k => F k ++ ofKey lt key k xs
  | .erase k', F => fun k => if Equiv lt k k' then [] else F k
  | .eraseAt i, _ => fun k => ofKey lt key k (shown.eraseIdx i)
  | .eraseRange i j, _ => fun k => ofKey lt key k (shown.take i ++ shown.drop j)
  | .clear, _ => fun _ => []
  | .assign xs, _ => fun k => ofKey lt key k xs

/-- Iterators passed must be valid. -/
def MultiOp.Pre (shown : List α) : MultiOp α κ → Prop
  | .eraseAt i => i < shown.length
  | .eraseRange i j => i ≤ j ∧ j ≤ shown.length
  | _ => True

/-- Histories of a multiset or multimap. -/
inductive MultiHist (lt : κ → κ → Bool) (key : α → κ) (isMap : Bool) : List α → (κ → List α) → Prop where
  | nil : MultiHist lt key isMap [] fun _ => []
  | step {l l' F} (op : MultiOp α κ) : MultiHist lt key isMap l F → op.Pre l → multiStep lt key isMap l op = some l' →
      MultiHist lt key isMap l' (op.apply lt key l F)

end Ustl.Assoc
