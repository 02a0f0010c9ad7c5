/-!
# Shared vocabulary

* memory as a list of cells, with checked reads and writes (`none` = undefined behaviour);
* strict weak orders, sortedness and equivalence, the vocabulary of the property statements.
-/
namespace Ustl

/-- A checked read `*(base + i)`: `none` is an access outside the block, that is, undefined
behaviour. -/
def rd {α : Type _} (l : List α) (i : Nat) : Option α := l[i]?

/-- A checked write `*(base + i) = x`: `none` is an access outside the block. -/
def wr {α : Type _} (l : List α) (i : Nat) (x : α) : Option (List α) :=
  if i < l.length then some (l.set i x) else none

/-- `iter_swap (a, b)`, i.e. `swap (*a, *b)`.
Models ualgobase.h:52-67 (`swap` through a temporary, `iter_swap`). -/
def iterSwap {α : Type _} (l : List α) (a b : Nat) : Option (List α) := do
  let t ← rd l a
  let y ← rd l b
  let l ← wr l a y
  wr l b t

/-- A strict weak order given by a Boolean comparison, as the algorithms require of `operator<`
or of the comparison object. -/
structure StrictWeak {α : Type _} (lt : α → α → Bool) : Prop where
  irrefl : ∀ a, lt a a = false
  trans : ∀ a b c, lt a b = true → lt b c = true → lt a c = true
  incompTrans : ∀ a b c, lt a b = false → lt b a = false → lt b c = false → lt c b = false →
    lt a c = false ∧ lt c a = false

/-- `a` and `b` are equivalent under `lt`: neither is less. -/
def Equiv {α : Type _} (lt : α → α → Bool) (a b : α) : Prop := lt a b = false ∧ lt b a = false

instance {α : Type _} (lt : α → α → Bool) (a b : α) : Decidable (Equiv lt a b) :=
  inferInstanceAs (Decidable (_ ∧ _))

/-- Sorted under `lt`: no later element is less than an earlier one. -/
def Sorted {α : Type _} (lt : α → α → Bool) (l : List α) : Prop :=
  l.Pairwise (fun a b => lt b a = false)

instance {α : Type _} (lt : α → α → Bool) (l : List α) : Decidable (Sorted lt l) :=
  inferInstanceAs (Decidable (List.Pairwise _ l))

namespace StrictWeak
variable {α : Type _} {lt : α → α → Bool}

theorem asymm (h : StrictWeak lt) {a b : α} (hab : lt a b = true) : lt b a = false := by
  cases hba : lt b a with
  | false => rfl
  | true => have := h.trans _ _ _ hab hba; rw [h.irrefl] at this; cases this

/-- Negative transitivity: `¬ a < b` and `¬ b < c` give `¬ a < c`. -/
theorem le_trans (h : StrictWeak lt) {a b c : α} (hab : lt b a = false) (hbc : lt c b = false) :
    lt c a = false := by
  cases hca : lt c a with
  | false => rfl
  | true =>
    cases h1 : lt a b with
    | true => have := h.trans _ _ _ hca h1; rw [hbc] at this; cases this
    | false =>
      cases h2 : lt b c with
      | true => have := h.trans _ _ _ h2 hca; rw [hab] at this; cases this
      | false =>
        have := (h.incompTrans a b c h1 hab h2 hbc).2
        rw [hca] at this; cases this

theorem lt_of_lt_of_le (h : StrictWeak lt) {a b c : α} (hab : lt a b = true) (hbc : lt c b = false) :
    lt a c = true := by
  cases hac : lt a c with
  | true => rfl
  | false => have := h.le_trans hbc hac; rw [hab] at this; cases this

theorem lt_of_le_of_lt (h : StrictWeak lt) {a b c : α} (hab : lt b a = false) (hbc : lt b c = true) :
    lt a c = true := by
  cases hac : lt a c with
  | true => rfl
  | false => have := h.le_trans hac hab; rw [hbc] at this; cases this

/-- The reversed comparison is again a strict weak order. -/
theorem flip (h : StrictWeak lt) : StrictWeak (fun a b => lt b a) where
  irrefl := h.irrefl
  trans _ _ _ h1 h2 := h.trans _ _ _ h2 h1
  incompTrans a b c h1 h2 h3 h4 := ⟨(h.incompTrans a b c h2 h1 h4 h3).2, (h.incompTrans a b c h2 h1 h4 h3).1⟩

end StrictWeak

/-- `<` on naturals as a Boolean comparison; used in examples. -/
def natLt (a b : Nat) : Bool := decide (a < b)
/-- `>` on naturals as a Boolean comparison (`greater<T>`); used in examples. -/
def natGt (a b : Nat) : Bool := decide (b < a)

theorem natLt_strictWeak : StrictWeak natLt := by
  constructor <;> simp [natLt] <;> omega

theorem natGt_strictWeak : StrictWeak natGt := by
  constructor <;> simp [natGt] <;> omega

/-- A genuinely weak order: compare pairs by the first component only. -/
def fstLt (a b : Nat × Nat) : Bool := decide (a.1 < b.1)

theorem fstLt_strictWeak : StrictWeak fstLt := by
  constructor <;> simp [fstLt] <;> omega

/-! ### Reading and writing through list decompositions -/
section
variable {α : Type _}

@[simp] theorem rd_append_left (a b : List α) (i : Nat) (h : i < a.length) :
    rd (a ++ b) i = rd a i := by simp [rd, List.getElem?_append_left h]

@[simp] theorem rd_at (pre post : List α) (x : α) : rd (pre ++ x :: post) pre.length = some x := by
  simp [rd]

theorem rd_eq_some (l : List α) (i : Nat) (h : i < l.length) : rd l i = some l[i] := by
  simp [rd, h]

@[simp] theorem wr_at (pre post : List α) (x y : α) :
    wr (pre ++ x :: post) pre.length y = some (pre ++ y :: post) := by
  simp [wr]

theorem wr_eq_some (l : List α) (i : Nat) (x : α) (h : i < l.length) : wr l i x = some (l.set i x) := by
  simp [wr, h]

theorem rd_at' (pre post : List α) (x : α) (i : Nat) (h : i = pre.length) :
    rd (pre ++ x :: post) i = some x := by subst h; simp

theorem wr_at' (pre post : List α) (x y : α) (i : Nat) (h : i = pre.length) :
    wr (pre ++ x :: post) i y = some (pre ++ y :: post) := by subst h; simp

/-- Swapping two cells of a decomposed memory. -/
theorem iterSwap_at (p m q : List α) (x y : α) (i j : Nat) (hi : i = p.length)
    (hj : j = p.length + 1 + m.length) :
    iterSwap (p ++ x :: (m ++ y :: q)) i j = some (p ++ y :: (m ++ x :: q)) := by
  subst hi
  have e1 : ∀ z : α, p ++ z :: (m ++ y :: q) = (p ++ z :: m) ++ y :: q := by intro z; simp
  have hj' : ∀ z : α, j = (p ++ z :: m).length := by intro z; simp; omega
  simp only [iterSwap, rd_at, Option.bind_eq_bind, Option.bind_some]
  rw [e1 x, rd_at' _ _ _ _ (hj' x), ← e1 x]
  simp only [Option.bind_some, wr_at]
  rw [e1 y, wr_at' _ _ _ _ _ (hj' y)]
  simp

theorem iterSwap_self (p q : List α) (x : α) (i : Nat) (hi : i = p.length) :
    iterSwap (p ++ x :: q) i i = some (p ++ x :: q) := by
  subst hi
  simp [iterSwap]

end
end Ustl
