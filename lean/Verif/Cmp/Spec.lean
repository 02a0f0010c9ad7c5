import Verif.Basic
/-! # What comparison operators are to mean -/
namespace Ustl.Cmp

/-- `==` says what `<` says: two values are equal exactly if neither is less. -/
def Agrees {α : Type _} (eq lt : α → α → Bool) : Prop := ∀ a b, eq a b = true ↔ Equiv lt a b

/-- Lexicographic order of sequences of the same length: at the first place where they differ the left one is less. -/
def Lex {α : Type _} (lt : α → α → Bool) (s t : List α) : Prop :=
  ∃ p x u q y v, s = p ++ x :: u ∧ t = q ++ y :: v ∧ p.length = q.length ∧
    (∀ i (h : i < p.length) (h' : i < q.length), Equiv lt p[i] q[i]) ∧ lt x y = true

/-- Exactly one of `a < b`, `a == b`, `b < a` holds. -/
def Trichotomy {α : Type _} (eq lt : α → α → Bool) (a b : α) : Prop :=
  (lt a b = true ∧ eq a b = false ∧ lt b a = false) ∨ (lt a b = false ∧ eq a b = true ∧ lt b a = false) ∨
    (lt a b = false ∧ eq a b = false ∧ lt b a = true)

end Ustl.Cmp
