import Verif.Permute.Model
/-! Specification vocabulary for C05-C08, C10, C15. -/
namespace Ustl
variable {α : Type _}

/-- The lexicographic strict order on sequences induced by `lt`. -/
def LexLt (lt : α → α → Bool) : List α → List α → Prop
  | _, [] => False
  | [], _ :: _ => True
  | a :: as, b :: bs => lt a b = true ∨ (Equiv lt a b ∧ LexLt lt as bs)

/-- A linear order given by a Boolean strict comparison. -/
structure StrictTotal (lt : α → α → Bool) : Prop extends StrictWeak lt where
  eq_of_equiv : ∀ a b, Equiv lt a b → a = b

/-- The elements of `l` equivalent to `a`, in order of occurrence. -/
def equivalents (lt : α → α → Bool) (a : α) (l : List α) : List α :=
  l.filter (fun b => decide (Equiv lt a b))

theorem natLt_strictTotal : StrictTotal natLt :=
  { natLt_strictWeak with eq_of_equiv := by simp [Equiv, natLt]; omega }

end Ustl
