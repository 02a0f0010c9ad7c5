import Verif.Forward.Model
import Verif.Permute.Spec
/-! Specification vocabulary for C11-C13, C16, C17. -/
namespace Ustl
variable {α β : Type _}

/-- The first element of every run: an element is dropped while it is a duplicate of the head of the
current run. -/
def runHeads (eq : α → α → Bool) : List α → List α
  | [] => []
  | x :: xs => x :: runHeads eq (xs.dropWhile (fun y => eq y x))
termination_by l => l.length
decreasing_by
  have := (List.dropWhile_suffix (l := xs) (fun y => eq y x)).length_le
  simp; omega

/-- `pat` occurs in `text` at position `i`, elements being compared by `comp`. -/
def OccursAt (comp : α → β → Bool) (text : List α) (pat : List β) (i : Nat) : Prop :=
  i + pat.length ≤ text.length ∧
    ∀ k a b, text[i + k]? = some a → pat[k]? = some b → comp a b = true

/-- The prefix sums `op x1 x0`, `op x2 (op x1 x0)`, ... following `acc`. -/
def prefixSums (op : α → α → α) (acc : α) : List α → List α
  | [] => []
  | x :: xs => op x acc :: prefixSums op (op x acc) xs

/-- `n` consecutive values `v, succ v, succ (succ v), ...`. -/
def consecutive (succ : α → α) (v : α) : Nat → List α
  | 0 => []
  | n + 1 => v :: consecutive succ (succ v) n

end Ustl
