import Verif.Seq.Model
/-! # Specification: what queues, stacks and lists hold, as sequences -/
namespace Ustl.Seq
variable {α : Type _}

/-- First-in first-out: `push` adds at the end, `pop` removes at the front; moving hands the contents over. Copies are
treated separately. -/
def QOp.apply : QOp α → (Nat → List α) → (Nat → List α)
  | .push i v, c => upd c i (c i ++ [v])
  | .pop i, c => upd c i (c i).tail
  | .init i s, c => upd c i s
  | .move i j, c => upd (upd c i []) j (c i)
  | .copy i j, c => upd c j (c i)

/-- Contract: `pop` needs an element, a queue is not moved into itself. -/
def QOp.Pre : QOp α → (Nat → List α) → Prop
  | .pop i, c => c i ≠ []
  | .move i j, _ => i ≠ j
  | .copy _ _, _ => False
  | _, _ => True

/-- Histories of a family of queues, with the sequences they define. No copies (see `queue_copy_violated`). -/
inductive QHist : (Nat → Queue α) → (Nat → List α) → Prop where
  | nil : QHist (fun _ => Queue.empty) (fun _ => [])
  | step {w w' c} (op : QOp α) : QHist w c → op.Pre c → qStep w op = some w' → QHist w' (op.apply c)

/-- What a user sees of a queue: size, front, back. -/
def QShows (q : Queue α) (c : List α) : Prop :=
  q.size = some c.length ∧ (∀ x, c.head? = some x → q.head = some x) ∧ (∀ x, c.getLast? = some x → q.last = some x)

/-- Last-in first-out, newest element first. -/
def SOp.apply : SOp α → (Nat → List α) → (Nat → List α)
  | .push i v, c => upd c i (v :: c i)
  | .pop i, c => upd c i (c i).tail
  | .init i s, c => upd c i s.reverse
  | .move i j, c => upd (upd c i []) j (c i)
  | .copy i j, c => upd c j (c i)

/-- Contract: `pop` needs an element, a stack is not moved into itself. -/
def SOp.Pre : SOp α → (Nat → List α) → Prop
  | .pop i, c => c i ≠ []
  | .move i j, _ => i ≠ j
  | _, _ => True

/-- Histories of a family of stacks. -/
inductive SHist : (Nat → List α) → (Nat → List α) → Prop where
  | nil : SHist (fun _ => []) (fun _ => [])
  | step {w w' c} (op : SOp α) : SHist w c → op.Pre c → sStep w op = some w' → SHist w' (op.apply c)

/-- A comparison function C's `qsort` accepts (C11 7.22.5p4): the sign defines a total preorder. -/
structure Consistent (cmp : α → α → Int) : Prop where
  refl : ∀ x, cmp x x = 0
  anti : ∀ x y, 0 < cmp x y ↔ cmp y x < 0
  trans : ∀ x y z, cmp x y ≤ 0 → cmp y z ≤ 0 → cmp x z ≤ 0

/-- The contract of C's `qsort`: with a consistent comparison it leaves a permutation in ascending order. -/
def QsortContract (qs : (α → α → Int) → List α → List α) : Prop :=
  ∀ cmp l, Consistent cmp → (qs cmp l).Perm l ∧ (qs cmp l).Pairwise (fun a b => cmp a b ≤ 0)

end Ustl.Seq
