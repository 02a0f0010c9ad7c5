import Verif.Ctr.Props
/-!
# Function objects (ufunction.h) and what algorithms do with them (C74)

A function object is the function its `operator()` computes; an adaptor's stored members are the arguments of the
definition. `lt` and `eq` are the `operator<` and `operator==` of the element type. A pointer argument is an address
read in a store; reading an address outside it is undefined (`none`). Member pointers are projections.
-/
namespace Ustl.Ctr
variable {α β γ δ : Type _}

/-! ### Model -/

/-- `equal_to`. Models ufunction.h:63. -/
def equalTo (eq : α → α → Bool) (a b : α) : Bool := eq a b
/-- `not_equal_to`. Models ufunction.h:64. -/
def notEqualTo (eq : α → α → Bool) (a b : α) : Bool := !(eq a b)
/-- `greater`. Models ufunction.h:65. -/
def greater (lt : α → α → Bool) (a b : α) : Bool := lt b a
/-- `less`. Models ufunction.h:66. -/
def less (lt : α → α → Bool) (a b : α) : Bool := lt a b
/-- `greater_equal`. Models ufunction.h:67. -/
def greaterEqual (lt : α → α → Bool) (a b : α) : Bool := !(lt a b)
/-- `less_equal`. Models ufunction.h:68. -/
def lessEqual (lt : α → α → Bool) (a b : α) : Bool := !(lt b a)
/-- `compare`. Models ufunction.h:69. -/
def compare (lt : α → α → Bool) (a b : α) : Int := if lt a b then -1 else if lt b a then 1 else 0
/-- `project1st`. Models ufunction.h:76-77. -/
def project1st (a : α) (_ : β) : α := a
/-- `project2nd`. Models ufunction.h:80-81. -/
def project2nd (_ : α) (b : β) : β := b
/-- `unary_negator`. Models ufunction.h:143-162. -/
def unaryNegate (f : α → Bool) (v : α) : Bool := !f v
/-- `bind1st`. Models ufunction.h:172-185, 208-213. -/
def bind1st (f : α → β → γ) (v : α) (v2 : β) : γ := f v v2
/-- `bind2nd`. Models ufunction.h:191-204, 217-222. -/
def bind2nd (f : α → β → γ) (v : β) (v1 : α) : γ := f v1 v
/-- `compose1`. Models ufunction.h:235-255. -/
def compose1 (f : β → γ) (g : α → β) (x : α) : γ := f (g x)
/-- `compose2`. Models ufunction.h:264-285. -/
def compose2 (f : β → γ → δ) (g : α → β) (h : α → γ) (x : α) : δ := f (g x) (h x)
/-- `mem_var1`/`const_mem_var1`. Models ufunction.h:346-377. -/
def memVar1 (m : α → β) (f : β → γ) (p : α) : γ := f (m p)
/-- `mem_var2`/`const_mem_var2`. Models ufunction.h:346-368, 373-379. -/
def memVar2 (m : α → β) (f : β → β → γ) (p1 p2 : α) : γ := f (m p1) (m p2)
/-- `mem_var_equal_to (mvp, v)`. Models ufunction.h:388-393. -/
def memVarEqualTo (eq : β → β → Bool) (m : α → β) (v : β) : α → Bool := memVar1 m (bind2nd (equalTo eq) v)
/-- `mem_var_less (mvp, v)`. Models ufunction.h:397-402. -/
def memVarLess (lt : β → β → Bool) (m : α → β) (v : β) : α → Bool := memVar1 m (bind2nd (less lt) v)
/-- `mem_var_equal_to (mvp)`. Models ufunction.h:406-411. -/
def memVarEqualTo2 (eq : β → β → Bool) (m : α → β) : α → α → Bool := memVar2 m (equalTo eq)
/-- `mem_var_less (mvp)`. Models ufunction.h:415-420. -/
def memVarLess2 (lt : β → β → Bool) (m : α → β) : α → α → Bool := memVar2 m (less lt)
/-- `dereference (f)` for a unary `f`: called with an address. Models ufunction.h:428-453, 457. -/
def deref1 (store : Nat → Option α) (f : α → γ) (p : Nat) : Option γ := (store p).map f
/-- `dereference (f)` for a binary `f`. Models ufunction.h:428-457. -/
def deref2 (store : Nat → Option α) (f : α → α → γ) (p1 p2 : Nat) : Option γ :=
  match store p1, store p2 with
  | some a, some b => some (f a b)
  | _, _ => none

/-! ### The comparison objects -/

/-- **C74** for a strict weak `operator<`: `less` and `greater` are strict weak orders that are each other's reverse, with
the same equivalent elements; `less_equal`/`greater_equal` are their complements. -/
theorem order_functors {lt : α → α → Bool} (h : StrictWeak lt) : StrictWeak (less lt) ∧ StrictWeak (greater lt) ∧
    (∀ a b, greater lt a b = less lt b a) ∧ (∀ a b, Equiv (greater lt) a b ↔ Equiv lt a b) ∧
    (∀ a b, lessEqual lt a b = true ↔ greater lt a b = false) ∧ (∀ a b, greaterEqual lt a b = true ↔ less lt a b = false) := by
  refine ⟨h, ⟨h.irrefl, fun a b c h1 h2 => h.trans _ _ _ h2 h1, fun a b c h1 h2 h3 h4 => ?_⟩, fun _ _ => rfl,
    fun a b => ⟨fun e => ⟨e.2, e.1⟩, fun e => ⟨e.2, e.1⟩⟩, fun a b => ?_, fun a b => ?_⟩
  · exact (h.incompTrans a b c h2 h1 h4 h3).symm
  · simp [lessEqual, greater]
  · simp [greaterEqual, less]

/-- **C74** `less_equal` is a total preorder whose two-way relation is equivalence. -/
theorem less_equal_total {lt : α → α → Bool} (h : StrictWeak lt) : (∀ a b, lessEqual lt a b = true ∨ lessEqual lt b a = true) ∧
    (∀ a b c, lessEqual lt a b = true → lessEqual lt b c = true → lessEqual lt a c = true) ∧
    (∀ a b, (lessEqual lt a b = true ∧ lessEqual lt b a = true) ↔ Equiv lt a b) := by
  refine ⟨fun a b => ?_, fun a b c h1 h2 => ?_, fun a b => ?_⟩
  · cases h1 : lt b a with
    | false => simp [lessEqual, h1]
    | true => simp [lessEqual, h.asymm h1]
  · simp only [lessEqual, Bool.not_eq_true'] at *
    exact h.le_trans h1 h2
  · simp only [lessEqual, Bool.not_eq_true', Equiv]
    exact And.comm

/-- **C74** `compare` is negative, zero or positive as its first argument comes before, is equivalent to or comes after the
second; it is an acceptable comparison function for `qsort`. -/
theorem compare_functor {lt : α → α → Bool} (h : StrictWeak lt) : (∀ a b, compare lt a b < 0 ↔ lt a b = true) ∧
    (∀ a b, 0 < compare lt a b ↔ lt b a = true) ∧ (∀ a b, compare lt a b = 0 ↔ Equiv lt a b) ∧
    (∀ a b, compare lt b a = - compare lt a b) ∧ Seq.Consistent (compare lt) := by
  refine ⟨fun a b => ?_, fun a b => ?_, fun a b => ?_, fun a b => ?_, Seq.qsortAdapter_consistent h⟩ <;>
  · unfold compare
    cases h1 : lt a b with
    | true => simp [h.asymm h1, Equiv, h1]
    | false => cases h2 : lt b a <;> simp [Equiv, h1, h2]

example : compare natLt 3 5 = -1 ∧ compare natLt 5 3 = 1 ∧ compare natLt 4 4 = 0 := by decide

/-- **C74** comparing a member, or what pointers point at, by a strict weak order is again one: on objects, and on
the addresses of live objects. -/
theorem keyed_order {lt : β → β → Bool} (h : StrictWeak lt) (m : α → β) : StrictWeak (memVarLess2 lt m) :=
  ⟨fun _ => h.irrefl _, fun _ _ _ => h.trans _ _ _, fun _ _ _ => h.incompTrans _ _ _⟩

theorem deref_order {lt : α → α → Bool} (h : StrictWeak lt) (store : Nat → Option α) :
    (∀ p, store p ≠ none → deref2 store lt p p = some false) ∧
    (∀ p q r, deref2 store lt p q = some true → deref2 store lt q r = some true → deref2 store lt p r = some true) ∧
    (∀ p q r, deref2 store lt p q = some false → deref2 store lt q r = some false → deref2 store lt p r = some false) ∧
    (∀ p q, deref2 store lt p q = none ↔ store p = none ∨ store q = none) ∧
    (∀ p q, deref2 store lt p q = some true ↔ ∃ a b, store p = some a ∧ store q = some b ∧ lt a b = true) := by
  refine ⟨fun p hp => ?_, fun p q r h1 h2 => ?_, fun p q r h1 h2 => ?_, fun p q => ?_, fun p q => ?_⟩
  · unfold deref2
    cases e : store p with
    | none => exact absurd e hp
    | some a => simp [h.irrefl]
  · unfold deref2 at *
    cases e1 : store p <;> cases e2 : store q <;> cases e3 : store r <;> simp_all
    exact h.trans _ _ _ h1 h2
  · unfold deref2 at *
    cases e1 : store p <;> cases e2 : store q <;> cases e3 : store r <;> simp_all
    exact h.le_trans h2 h1
  · unfold deref2
    cases e1 : store p <;> cases e2 : store q <;> simp
  · unfold deref2
    cases e1 : store p <;> cases e2 : store q <;> simp

/-- **C74** a unary object behind `dereference`: applied to the live object at the address. -/
theorem deref_unary (store : Nat → Option α) (f : α → γ) (p : Nat) (y : γ) :
    deref1 store f p = some y ↔ ∃ a, store p = some a ∧ f a = y := by
  simp [deref1]

example : memVarLess2 natLt (Prod.fst (α := Nat) (β := Nat)) (1, 9) (2, 0) = true := rfl
example : deref2 (fun p => if p < 2 then some (p + 5) else none) natLt 0 1 = some true ∧
    deref2 (fun p => if p < 2 then some (p + 5) else none) natLt 0 2 = none := by decide

/-! ### In algorithms -/

/-- **C74** counting and finding with bound, negated and composed objects: the elements less than `v`, those not less,
those greater, those not equal. -/
theorem bound_counts {lt : α → α → Bool} (eq : α → α → Bool) (c : List α) (v : α) :
    count (bind2nd (less lt) v) c = some (c.countP fun x => lt x v) ∧
    count (bind1st (less lt) v) c = some (c.countP fun x => lt v x) ∧
    count (unaryNegate (bind2nd (less lt) v)) c = some (c.length - c.countP fun x => lt x v) ∧
    count (bind2nd (greater lt) v) c = some (c.countP fun x => lt v x) ∧
    count (bind2nd (notEqualTo eq) v) c = some (c.length - c.countP fun x => eq x v) := by
  have neg : ∀ p : α → Bool, c.countP (fun x => !p x) = c.length - c.countP p := by
    intro p
    have := c.length_eq_countP_add_countP p
    have e : (fun a => decide (¬ p a = true)) = fun x => !p x := by funext x; cases p x <;> rfl
    rw [e] at this
    omega
  refine ⟨ctr_count _ c, ctr_count _ c, ?_, ctr_count _ c, ?_⟩
  · rw [ctr_count, ← neg]; rfl
  · rw [ctr_count, ← neg]; rfl

/-- **C74** `find_if` with `mem_var_equal_to (&T::m, v)`: the first object whose member equals `v`. -/
theorem member_find [DecidableEq β] (m : α → β) (c : List α) (v : β) :
    find (memVarEqualTo (fun a b => decide (a = b)) m v) c = some (c.findIdx fun x => decide (m x = v)) := ctr_find _ c

/-- **C74** `count_if` with `mem_var_less (&T::m, v)`, `mem_var_equal_to (&T::m, v)`; `unique` with
`mem_var_equal_to (&T::m)` leaves the members `unique` would leave of the sequence of members. -/
theorem member_counts {lt : β → β → Bool} (eq : β → β → Bool) (m : α → β) (c : List α) (v : β) :
    count (memVarLess lt m v) c = some (c.countP fun x => lt (m x) v) ∧
    count (memVarEqualTo eq m v) c = some (c.countP fun x => eq (m x) v) ∧
    (unique (memVarEqualTo2 eq m) c).map (List.map m) = unique eq (c.map m) := by
  refine ⟨ctr_count _ c, ctr_count _ c, ?_⟩
  rw [ctr_unique, ctr_unique, Option.map_some]
  congr 1
  have key : ∀ (n : Nat) (l : List α), l.length ≤ n → (runHeads (memVarEqualTo2 eq m) l).map m = runHeads eq (l.map m) := by
    intro n
    induction n with
    | zero => intro l hl; rw [List.length_eq_zero_iff.1 (Nat.le_zero.1 hl)]; simp [runHeads]
    | succ n ih =>
      intro l hl
      cases l with
      | nil => simp [runHeads]
      | cons x l =>
        rw [runHeads, List.map_cons, List.map_cons, runHeads, ih]
        · congr 2
          induction l with
          | nil => rfl
          | cons y l ihl =>
            rw [List.map_cons, List.dropWhile_cons, List.dropWhile_cons]
            by_cases he : eq (m y) (m x) = true
            · rw [if_pos he, if_pos (show memVarEqualTo2 eq m y x = true from he)]
              exact ihl (by simp at hl ⊢; omega)
            · rw [if_neg he, if_neg (show ¬ memVarEqualTo2 eq m y x = true from he), List.map_cons]
        · have := (List.dropWhile_suffix (l := l) (fun y => memVarEqualTo2 eq m y x)).length_le
          simp at hl
          omega
  exact key c.length c (Nat.le_refl _)

example : unique (memVarEqualTo2 (fun a b : Nat => a == b) (Prod.fst (β := Nat))) [(1, 2), (1, 3), (2, 0)] =
    some [(1, 2), (2, 0)] := by rw [ctr_unique]; decide +kernel

/-- **C74** composition: `transform (c, compose1 (f, g))` is `transform` by `g`, then by `f`; `count_if` with
`compose2 (logical_and, p, q)` counts the elements satisfying both. -/
theorem composed (f : β → γ) (g : α → β) (p q : α → Bool) (c : List α) :
    transformTo (compose1 f g) c = (transformTo g c).bind (transformTo f) ∧
    count (compose2 (fun a b => a && b) p q) c = some (c.countP fun x => p x && q x) := by
  refine ⟨?_, ctr_count _ c⟩
  have e : transformTo g c = some (c.map g) := by
    have := Forward.transform_spec g [] c []
    simpa [transformTo] using this
  have e1 : transformTo (compose1 f g) c = some (c.map (compose1 f g)) := by
    have := Forward.transform_spec (compose1 f g) [] c []
    simpa [transformTo] using this
  have e2 : transformTo f (c.map g) = some ((c.map g).map f) := by
    have := Forward.transform_spec f [] (c.map g) []
    simpa [transformTo] using this
  rw [e1, e, Option.bind_some, e2, List.map_map]
  rfl

/-- **C74** sorting with `greater`: descending, equivalent elements in their original order. Sorting by a member:
the members ascend, elements with equivalent members keep their order. -/
theorem sorted_by {lt : β → β → Bool} (h : StrictWeak lt) (m : α → β) (c : List α) (d : List β) :
    (∃ r, stableSort (greater lt) d = some r ∧ r.Perm d ∧ r.Pairwise (fun a b => lt a b = false) ∧
      ∀ a, equivalents lt a r = equivalents lt a d) ∧
    (∃ r, stableSort (memVarLess2 lt m) c = some r ∧ r.Perm c ∧ Sorted lt (r.map m) ∧
      ∀ x, r.filter (fun y => decide (Equiv lt x (m y))) = c.filter (fun y => decide (Equiv lt x (m y)))) := by
  refine ⟨?_, ?_⟩
  · obtain ⟨r, h1, h2, h3, h4⟩ := ctr_stable_sort (order_functors h).2.1 d
    refine ⟨r, h1, h2, h3, fun a => ?_⟩
    have := h4 a
    unfold equivalents at this ⊢
    have e : (fun b => decide (Equiv (greater lt) a b)) = fun b => decide (Equiv lt a b) := by
      funext b
      exact decide_eq_decide.2 ((order_functors h).2.2.2.1 a b)
    rw [e] at this
    exact this
  · obtain ⟨r, h1, h2, h3, h4⟩ := ctr_stable_sort (keyed_order h m) c
    refine ⟨r, h1, h2, List.pairwise_map.2 h3, fun x => ?_⟩
    by_cases hx : ∃ z ∈ c, Equiv lt x (m z)
    · obtain ⟨z, _, hz⟩ := hx
      have := h4 z
      unfold equivalents at this
      have e : (fun b => decide (Equiv (memVarLess2 lt m) z b)) = fun y => decide (Equiv lt x (m y)) := by
        funext y
        refine decide_eq_decide.2 ⟨fun hy => ?_, fun hy => ?_⟩
        · exact h.incompTrans x (m z) (m y) hz.1 hz.2 hy.1 hy.2
        · exact h.incompTrans (m z) x (m y) hz.2 hz.1 hy.1 hy.2
      rw [e] at this
      exact this
    · rw [List.filter_eq_nil_iff.2, List.filter_eq_nil_iff.2]
      · intro y hy; simpa using fun he => hx ⟨y, hy, he⟩
      · intro y hy; simpa using fun he => hx ⟨y, h2.mem_iff.1 hy, he⟩

example : StrictWeak natLt ∧ count (bind2nd (less natLt) 3) [1, 5, 2] = some 2 ∧
    count (unaryNegate (bind2nd (less natLt) 3)) [1, 5, 2] = some 1 :=
  ⟨natLt_strictWeak, (bound_counts (fun a b => a == b) _ _).1, (bound_counts (fun a b => a == b) _ _).2.2.1⟩

end Ustl.Ctr
