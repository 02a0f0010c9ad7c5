import Verif.Heap.Model
/-! Specification vocabulary for C03 and C04. -/
namespace Ustl.Heap
variable {α : Type _}

/-- The first `n` cells of `l` form a heap: no element is greater than its parent. -/
def IsHeapN (lt : α → α → Bool) (l : List α) (n : Nat) : Prop :=
  ∀ j, 0 < j → j < n → ∀ x y, l[(j - 1) / 2]? = some x → l[j]? = some y → lt x y = false

/-- `x` is a maximum of the elements of `l`. -/
def IsMax (lt : α → α → Bool) (x : α) (l : List α) : Prop :=
  x ∈ l ∧ ∀ y ∈ l, lt x y = false

/-- The bags a priority queue under `lt` may hold after a history that starts with bag `b₀`: a push
adds the element; a pop of a nonempty bag removes one maximum. Bags are lists up to permutation. -/
inductive Bag (lt : α → α → Bool) (b₀ : List α) : List (Op α) → List α → Prop where
  | start {b} : b.Perm b₀ → Bag lt b₀ [] b
  | push {ops b b'} (x : α) : Bag lt b₀ ops b → b'.Perm (x :: b) → Bag lt b₀ (ops ++ [.push x]) b'
  | pop {ops b b'} (x : α) : Bag lt b₀ ops b → IsMax lt x b → b.Perm (x :: b') →
      Bag lt b₀ (ops ++ [.pop]) b'

/-- No pop is applied to an empty queue when `n` elements are there initially. -/
def ValidHistory : Nat → List (Op α) → Prop
  | _, [] => True
  | n, .push _ :: ops => ValidHistory (n + 1) ops
  | 0, .pop :: _ => False
  | n + 1, .pop :: ops => ValidHistory n ops

end Ustl.Heap
