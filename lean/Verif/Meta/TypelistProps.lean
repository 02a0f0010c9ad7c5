import Verif.Meta.Typelist
/-!
# C88: type lists behave as lists of types
-/
namespace Ustl.Meta

/-- **C88** `Length` is the number of types; only lists have one. -/
theorem length_spec (t : Ty) (n : Nat) : length t = some n ↔ ∃ l : List Ty, t = ofList l ∧ l.length = n := by
  induction t generalizing n with
  | null =>
    rw [length]
    constructor
    · intro h; cases h; exact ⟨[], rfl, rfl⟩
    · rintro ⟨l, e, rfl⟩
      cases l with
      | nil => rfl
      | cons x xs => cases e
  | list h tl _ ih =>
    rw [length]
    constructor
    · intro e
      cases hl : length tl with
      | none => rw [hl] at e; cases e
      | some m =>
        rw [hl] at e; cases e
        obtain ⟨l, rfl, rfl⟩ := (ih m).1 hl
        exact ⟨h :: l, rfl, by simp; omega⟩
    · rintro ⟨l, e, rfl⟩
      cases l with
      | nil => cases e
      | cons x xs =>
        cases e
        rw [(ih xs.length).2 ⟨xs, rfl, rfl⟩]
        simp; omega
  | other k =>
    rw [length]
    constructor
    · intro h; cases h
    · rintro ⟨l, e, _⟩
      cases l <;> cases e

/-- **C88** `TypeAt` is the type at the position; there is none beyond the end. -/
theorem type_at_spec (l : List Ty) (i : Nat) : typeAt (ofList l) i = l[i]? := by
  induction l generalizing i with
  | nil => cases i <;> simp [ofList, typeAt]
  | cons x xs ih =>
    cases i with
    | zero => rfl
    | succ i => simpa [ofList, typeAt] using ih i

/-- **C88** `TypeAtNonStrict` is the type at the position, or the default beyond the end. -/
theorem type_at_non_strict_spec (d : Ty) (l : List Ty) (i : Nat) : typeAtNonStrict d (ofList l) i = l[i]?.getD d := by
  induction l generalizing i with
  | nil => cases i <;> simp [ofList, typeAtNonStrict]
  | cons x xs ih =>
    cases i with
    | zero => rfl
    | succ i => simpa [ofList, typeAtNonStrict] using ih i

/-- **C88** `IndexOf` is the first position of the type, or -1. -/
theorem index_of_spec (t : Ty) (l : List Ty) :
    (∃ i : Nat, indexOf t (ofList l) = some (i : Int) ∧ l[i]? = some t ∧ ∀ j, j < i → l[j]? ≠ some t) ∨
    (indexOf t (ofList l) = some (-1) ∧ t ∉ l) := by
  induction l with
  | nil => exact Or.inr ⟨rfl, by simp⟩
  | cons x xs ih =>
    rw [ofList, indexOf]
    by_cases h : x = t
    · rw [if_pos h]
      exact Or.inl ⟨0, rfl, by simp [h], fun j hj => by omega⟩
    · rw [if_neg h]
      rcases ih with ⟨i, e, g1, g2⟩ | ⟨e, g⟩
      · refine Or.inl ⟨i + 1, ?_, by simpa using g1, ?_⟩
        · rw [e, Option.map_some, if_neg (by omega)]
          congr 1
          omega
        · intro j hj
          cases j with
          | zero => simpa using h
          | succ j => simpa using g2 j (by omega)
      · refine Or.inr ⟨by rw [e]; rfl, ?_⟩
        rw [List.mem_cons]
        rintro (g' | g')
        · exact h g'.symm
        · exact g g'

/-- A type that is neither `NullType` nor a list. -/
def Plain (t : Ty) : Prop := t ≠ .null ∧ ∀ h tl, t ≠ .list h tl

/-- **C88** `Append` joins two lists. -/
theorem append_spec (l m : List Ty) : append (ofList l) (ofList m) = some (ofList (l ++ m)) := by
  induction l with
  | nil => cases m <;> rfl
  | cons x xs ih => rw [ofList, append, ih]; rfl

theorem append_plain {t : Ty} (ht : Plain t) (l : List Ty) : append (ofList l) t = some (ofList (l ++ [t])) := by
  induction l with
  | nil =>
    cases t with
    | null => exact absurd rfl ht.1
    | list h tl => exact absurd rfl (ht.2 h tl)
    | other n => rfl
  | cons x xs ih => rw [ofList, append, ih]; rfl

/-- **C88** `Append` of one type puts it at the end. -/
theorem append_one_spec (n : Nat) (l : List Ty) : append (ofList l) (.other n) = some (ofList (l ++ [.other n])) :=
  append_plain ⟨by simp, by simp⟩ l

/-- **C88** `Erase` removes the first occurrence, `EraseAll` all of them. -/
theorem erase_spec (t : Ty) (l : List Ty) :
    erase t (ofList l) = some (ofList (l.erase t)) ∧
    eraseAll t (ofList l) = some (ofList (l.filter (fun x => decide (x ≠ t)))) := by
  induction l with
  | nil => exact ⟨rfl, rfl⟩
  | cons x xs ih =>
    rw [ofList, erase, eraseAll, List.erase_cons, List.filter_cons]
    by_cases h : x = t
    · subst h
      simp [ih.2]
    · simp only [ih.1, ih.2, Option.map_some, beq_iff_eq, ne_eq, h, not_false_eq_true, decide_true,
        if_true]
      exact ⟨rfl, rfl⟩

theorem noDuplicates_cons (x : Ty) {xs r : List Ty} (h : noDuplicates (ofList xs) = some (ofList r)) :
    noDuplicates (ofList (x :: xs)) = some (ofList (x :: r.erase x)) := by
  rw [ofList, noDuplicates, h]
  simp only [(erase_spec x r).1]
  rfl

theorem idxOf_ne {a x : Ty} (h : ¬ a = x) (l : List Ty) : (a :: l).idxOf x = l.idxOf x + 1 := by
  rw [List.idxOf_cons, show (a == x) = false from by simpa using h]; rfl

/-- **C88** `NoDuplicates` holds every type of the list once, in the order of first occurrences. -/
theorem no_duplicates_spec (l : List Ty) :
    ∃ r : List Ty, noDuplicates (ofList l) = some (ofList r) ∧ r.Nodup ∧ (∀ x, x ∈ r ↔ x ∈ l) ∧
      ∀ x y, x ∈ l → y ∈ l → (r.idxOf x < r.idxOf y ↔ l.idxOf x < l.idxOf y) := by
  induction l with
  | nil => exact ⟨[], rfl, List.Pairwise.nil, by simp, by simp⟩
  | cons a xs ih =>
    obtain ⟨r, e, nd, mem, ord⟩ := ih
    refine ⟨a :: r.erase a, noDuplicates_cons a e, ?_, ?_, ?_⟩
    · rw [List.nodup_cons]
      exact ⟨fun hm => (nd.mem_erase_iff.1 hm).1 rfl, nd.erase a⟩
    · intro x
      rw [List.mem_cons, List.mem_cons, nd.mem_erase_iff, mem]
      constructor
      · rintro (h | h)
        · exact Or.inl h
        · exact Or.inr h.2
      · rintro (h | h)
        · exact Or.inl h
        · by_cases hx : x = a
          · exact Or.inl hx
          · exact Or.inr ⟨hx, h⟩
    · intro x y hx hy
      by_cases hxa : a = x
      · subst hxa
        by_cases hya : a = y
        · subst hya; simp
        · rw [List.idxOf_cons_self, List.idxOf_cons_self, idxOf_ne hya, idxOf_ne hya]
          omega
      · by_cases hya : a = y
        · subst hya; rw [List.idxOf_cons_self, List.idxOf_cons_self]; omega
        · rw [idxOf_ne hxa, idxOf_ne hya, idxOf_ne hxa, idxOf_ne hya, Nat.add_lt_add_iff_right,
            Nat.add_lt_add_iff_right]
          have hx' : x ∈ xs := (List.mem_cons.1 hx).resolve_left fun g => hxa g.symm
          have hy' : y ∈ xs := (List.mem_cons.1 hy).resolve_left fun g => hya g.symm
          rw [← ord x y hx' hy']
          -- erasing `a` does not change the order of the others
          have key : ∀ s : List Ty, x ∈ s → y ∈ s →
              ((s.erase a).idxOf x < (s.erase a).idxOf y ↔ s.idxOf x < s.idxOf y) := by
            intro s
            induction s with
            | nil => intro h; cases h
            | cons b s ihs =>
              intro h1 h2
              rw [List.erase_cons]
              by_cases hb : b = a
              · subst hb
                rw [if_pos (by simp), idxOf_ne hxa, idxOf_ne hya, Nat.add_lt_add_iff_right]
              · rw [if_neg (by simpa using hb)]
                by_cases hbx : b = x
                · subst hbx
                  by_cases hby : b = y
                  · subst hby; simp
                  · rw [List.idxOf_cons_self, List.idxOf_cons_self, idxOf_ne hby, idxOf_ne hby]
                    omega
                · by_cases hby : b = y
                  · subst hby; rw [List.idxOf_cons_self, List.idxOf_cons_self]; omega
                  · rw [idxOf_ne hbx, idxOf_ne hby, idxOf_ne hbx, idxOf_ne hby, Nat.add_lt_add_iff_right,
                      Nat.add_lt_add_iff_right]
                    exact ihs ((List.mem_cons.1 h1).resolve_left fun g => hbx g.symm)
                      ((List.mem_cons.1 h2).resolve_left fun g => hby g.symm)
          exact key r ((mem x).2 hx') ((mem y).2 hy')

/-- **C88** `Replace` changes the first occurrence only. -/
theorem replace_spec (t u : Ty) :
    (∀ a b : List Ty, t ∉ a → replace t u (ofList (a ++ t :: b)) = some (ofList (a ++ u :: b))) ∧
    ∀ l : List Ty, t ∉ l → replace t u (ofList l) = some (ofList l) := by
  constructor
  · intro a b ha
    induction a with
    | nil => simp [ofList, replace]
    | cons x xs ih =>
      rw [List.mem_cons, not_or] at ha
      rw [List.cons_append, ofList, replace, if_neg (fun g => ha.1 g.symm), ih ha.2]
      rfl
  · intro l hl
    induction l with
    | nil => rfl
    | cons x xs ih =>
      rw [List.mem_cons, not_or] at hl
      rw [ofList, replace, if_neg (fun g => hl.1 g.symm), ih hl.2]
      rfl

/-- **C88** `ReplaceAll` changes every occurrence. -/
theorem replace_all_spec (t u : Ty) (l : List Ty) :
    replaceAll t u (ofList l) = some (ofList (l.map fun x => if x = t then u else x)) := by
  induction l with
  | nil => rfl
  | cons x xs ih =>
    rw [ofList, replaceAll, ih, List.map_cons]
    by_cases h : x = t
    · rw [if_pos h, if_pos h]; rfl
    · rw [if_neg h, if_neg h]; rfl

/-- **C88 (partial)** `Reverse` reverses a list whose types are neither `NullType` nor lists themselves
(`reverse_null_violated`, `reverse_nested_violated`). -/
theorem reverse_spec_partial (l : List Ty) (h : ∀ t ∈ l, Plain t) : reverse (ofList l) = some (ofList l.reverse) := by
  induction l with
  | nil => rfl
  | cons x xs ih =>
    rw [ofList, reverse, ih fun t ht => h t (List.mem_cons_of_mem _ ht)]
    simp only
    rw [append_plain (h x (by simp)), List.reverse_cons]

/-- **C88 (violated)** `Reverse` loses every `NullType` in a list: the result is shorter. -/
theorem reverse_null_violated (l : List Ty) (h : ∀ t ∈ l, Plain t) :
    reverse (ofList (.null :: l)) = some (ofList l.reverse) := by
  rw [ofList, reverse, reverse_spec_partial l h]
  simp only
  have := append_spec l.reverse []
  rw [List.append_nil] at this
  exact this

/-- **C88 (violated)** `Reverse` of a list whose first type is itself a list puts the types of that list, not the
list, at the end, and not reversed. -/
theorem reverse_nested_violated (l m : List Ty) (h : ∀ t ∈ l, Plain t) :
    reverse (ofList (ofList m :: l)) = some (ofList (l.reverse ++ m)) := by
  rw [ofList, reverse, reverse_spec_partial l h]
  exact append_spec _ _

/-- Derivation between classes: what `base` has to be for the following. -/
structure Derivation (base : Ty → Ty → Bool) : Prop where
  trans : ∀ a b c, base a b = true → base b c = true → base a c = true
  irrefl : ∀ a, base a a = false

variable {void : Ty} {base : Ty → Ty → Bool}

theorem mostDerived_mem {t : Ty} : ∀ l : List Ty, ∃ m, mostDerived void base t (ofList l) = some m ∧ (m = t ∨ m ∈ l)
  | [] => ⟨t, rfl, Or.inl rfl⟩
  | x :: xs => by
    obtain ⟨m, e, h⟩ := mostDerived_mem (t := t) xs
    rw [ofList, mostDerived, e, Option.map_some]
    refine ⟨_, rfl, ?_⟩
    cases superSubclass void base m x with
    | true => exact Or.inr (List.mem_cons_self ..)
    | false =>
      rcases h with h | h
      · exact Or.inl h
      · exact Or.inr (List.mem_cons_of_mem _ h)

/-- **C88** `MostDerived` is the given type or a type of the list, it is the given type or derived from it, and no
type of the list is derived from it. -/
theorem most_derived_spec (hd : Derivation base) {t : Ty} (l : List Ty) (hv : t ≠ void ∧ void ∉ l) :
    ∃ m, mostDerived void base t (ofList l) = some m ∧ (m = t ∨ m ∈ l ∧ base m t = true) ∧
      ∀ x ∈ l, base x m = false := by
  induction l with
  | nil => exact ⟨t, rfl, Or.inl rfl, by simp⟩
  | cons x xs ih =>
    obtain ⟨h1, h2⟩ := hv
    rw [List.mem_cons, not_or] at h2
    obtain ⟨m, e, hm, hall⟩ := ih ⟨h1, h2.2⟩
    have hmv : m ≠ void := by
      rcases hm with rfl | ⟨g, _⟩
      · exact h1
      · intro e; subst e; exact h2.2 g
    rw [ofList, mostDerived, e, Option.map_some]
    unfold superSubclass
    rw [if_neg (show ¬ (m = void ∨ x = void) from fun g => g.elim hmv fun g => h2.1 g.symm)]
    by_cases hx : x = m
    · subst hx
      rw [if_pos rfl]
      refine ⟨x, rfl, ?_, ?_⟩
      · rcases hm with rfl | ⟨g1, g2⟩
        · exact Or.inl rfl
        · exact Or.inr ⟨List.mem_cons_of_mem _ g1, g2⟩
      · intro y hy
        rcases List.mem_cons.1 hy with rfl | hy
        · exact hd.irrefl _
        · exact hall y hy
    · rw [if_neg hx]
      cases hb : base x m with
      | true =>
        refine ⟨x, rfl, ?_, ?_⟩
        · rcases hm with rfl | ⟨g1, g2⟩
          · exact Or.inr ⟨List.mem_cons_self .., hb⟩
          · exact Or.inr ⟨List.mem_cons_self .., hd.trans _ _ _ hb g2⟩
        · intro y hy
          rcases List.mem_cons.1 hy with rfl | hy
          · exact hd.irrefl _
          · cases hyx : base y x with
            | false => rfl
            | true =>
              have := hd.trans _ _ _ hyx hb
              rw [hall y hy] at this; cases this
      | false =>
        refine ⟨m, rfl, ?_, ?_⟩
        · rcases hm with rfl | ⟨g1, g2⟩
          · exact Or.inl rfl
          · exact Or.inr ⟨List.mem_cons_of_mem _ g1, g2⟩
        · intro y hy
          rcases List.mem_cons.1 hy with rfl | hy
          · exact hb
          · exact hall y hy

theorem split_first (t : Ty) (l : List Ty) (ht : t ∈ l) : ∃ a b : List Ty, l = a ++ t :: b ∧ t ∉ a := by
  induction l with
  | nil => cases ht
  | cons x xs ih =>
    by_cases hx : t = x
    · subst hx; exact ⟨[], xs, rfl, List.not_mem_nil⟩
    · obtain ⟨a, b, e, h⟩ := ih ((List.mem_cons.1 ht).resolve_left hx)
      exact ⟨x :: a, b, by rw [e]; rfl, by rw [List.mem_cons, not_or]; exact ⟨hx, h⟩⟩

/-- Replacing the first `t` gives the same types with one `t` exchanged for `u`. -/
theorem replace_perm (t u : Ty) (l : List Ty) (ht : t ∈ l) :
    ∃ r : List Ty, replace t u (ofList l) = some (ofList r) ∧ (t :: r).Perm (u :: l) ∧ r.length = l.length := by
  obtain ⟨a, b, rfl, ha⟩ := split_first t l ht
  refine ⟨a ++ u :: b, (replace_spec t u).1 a b ha, ?_, by simp⟩
  have h1 : (t :: (a ++ u :: b)).Perm (t :: u :: (a ++ b)) := (List.perm_middle).cons t
  have h2 : (u :: (a ++ t :: b)).Perm (u :: t :: (a ++ b)) := (List.perm_middle).cons u
  exact h1.trans ((List.Perm.swap u t _).trans h2.symm)

theorem cells_ofList (l : List Ty) : cells (ofList l) = l.length := by
  induction l with
  | nil => rfl
  | cons x xs ih => simp [ofList, cells, ih]

theorem derivedToFrontN_spec (hd : Derivation base) : ∀ (n : Nat) (l : List Ty), l.length = n → void ∉ l →
    ∃ r : List Ty, derivedToFrontN void base n (ofList l) = some (ofList r) ∧ r.Perm l ∧
      r.Pairwise fun a b => base b a = false
  | 0, l, hn, _ => by
    have : l = [] := List.length_eq_zero_iff.1 hn
    subst this
    exact ⟨[], rfl, List.Perm.refl _, List.Pairwise.nil⟩
  | n + 1, [], hn, _ => by cases hn
  | n + 1, x :: xs, hn, hv => by
    rw [List.mem_cons, not_or] at hv
    obtain ⟨m, e, hm, hall⟩ := most_derived_spec (void := void) hd (t := x) xs ⟨fun g => hv.1 g.symm, hv.2⟩
    have hlen : xs.length = n := by simpa using hn
    -- the tail after the exchange
    have hrep : ∃ r : List Ty, replace m x (ofList xs) = some (ofList r) ∧ (m :: r).Perm (x :: xs) ∧
        r.length = xs.length := by
      by_cases hmx : m ∈ xs
      · exact replace_perm m x xs hmx
      · have : m = x := by
          rcases hm with g | g
          · exact g
          · exact absurd g.1 hmx
        subst this
        exact ⟨xs, (replace_spec m m).2 xs hmx, List.Perm.refl _, rfl⟩
    obtain ⟨r, er, hp, hrl⟩ := hrep
    have hvr : void ∉ r := by
      intro g
      have : void ∈ x :: xs := hp.mem_iff.1 (List.mem_cons_of_mem _ g)
      rcases List.mem_cons.1 this with h | h
      · exact hv.1 h
      · exact hv.2 h
    obtain ⟨s, es, hs, hord⟩ := derivedToFrontN_spec hd n r (by omega) hvr
    refine ⟨m :: s, ?_, (hs.cons m).trans hp, ?_⟩
    · rw [ofList, derivedToFrontN, e]
      simp only [er]
      rw [es]
      rfl
    · rw [List.pairwise_cons]
      refine ⟨fun b hb => ?_, hord⟩
      have : b ∈ x :: xs := hp.mem_iff.1 (List.mem_cons_of_mem _ (hs.mem_iff.1 hb))
      rcases List.mem_cons.1 this with rfl | h
      · rcases hm with rfl | ⟨_, g⟩
        · exact hd.irrefl _
        · cases hbm : base b m with
          | false => rfl
          | true =>
            have := hd.trans _ _ _ hbm g
            rw [hd.irrefl] at this; cases this
      · exact hall b h

/-- **C88** `DerivedToFront` is a rearrangement of the list in which no class comes after one of its bases. -/
theorem derived_to_front_spec (hd : Derivation base) (l : List Ty) (hv : void ∉ l) :
    ∃ r : List Ty, derivedToFront void base (ofList l) = some (ofList r) ∧ r.Perm l ∧
      r.Pairwise fun a b => base b a = false := by
  unfold derivedToFront
  rw [cells_ofList]
  exact derivedToFrontN_spec hd _ l rfl hv

/-- **C88** one to nine types, the last of them not `NullType`: `Seq` lists exactly these. -/
theorem seq_spec (l : List Ty) (x : Ty) (hx : x ≠ .null) (hl : l.length ≤ 8) :
    seq (l ++ [x]) = some (ofList (l ++ [x])) := by
  unfold seq
  have hlen : (l ++ [x]).length = l.length + 1 := by simp
  rw [if_pos (by omega)]
  simp only
  generalize hall : (l ++ [x]) ++ List.replicate (9 - (l ++ [x]).length) Ty.null = all
  have hlast : all[l.length]? = some x := by
    rw [← hall, List.getElem?_append_left (by simp), List.getElem?_append_right (by simp)]
    simp
  have no : ∀ n, n ≤ l.length → (all.drop n).all (· = .null) = false := by
    intro n hn
    rw [List.all_eq_false]
    refine ⟨x, ?_, by simpa using hx⟩
    rw [List.mem_iff_getElem?]
    exact ⟨l.length - n, by rw [List.getElem?_drop, show n + (l.length - n) = l.length by omega]; exact hlast⟩
  have yes : (all.drop (l.length + 1)).all (· = .null) = true := by
    rw [← hall, ← hlen, List.drop_left]
    simp
  have har : seqArity all = l.length + 1 := by
    unfold seqArity
    obtain ⟨k, hk⟩ : ∃ k, l.length = k := ⟨_, rfl⟩
    rw [hk] at no yes hl ⊢
    have : k = 0 ∨ k = 1 ∨ k = 2 ∨ k = 3 ∨ k = 4 ∨ k = 5 ∨ k = 6 ∨ k = 7 ∨ k = 8 := by omega
    rcases this with rfl | rfl | rfl | rfl | rfl | rfl | rfl | rfl | rfl <;>
      simp only [List.find?_cons, List.find?_nil, yes, no, Nat.le_refl, Nat.reduceLeDiff, Nat.reduceAdd]
  rw [har, ← hlen, ← hall, List.take_left]

/-- **C88 (violated)** `Seq<>` is not the empty list: it is the list of one `NullType`. -/
theorem seq_empty_violated : (seq []).bind length = some 1 := rfl

/-! ### The hypotheses are met -/

/-- Classes 0, 1, 2, each derived from the one before; 3 is unrelated. -/
def exBase : Ty → Ty → Bool
  | .other a, .other b => decide (b < a ∧ a < 3)
  | _, _ => false

example : Derivation exBase where
  trans a b c := by cases a <;> cases b <;> cases c <;> simp [exBase]; omega
  irrefl a := by cases a <;> simp [exBase]

/-- Base, unrelated, middle, most derived: the most derived comes first. -/
example : derivedToFront (.other 9) exBase (ofList [.other 0, .other 3, .other 1, .other 2]) =
    some (ofList [.other 2, .other 3, .other 1, .other 0]) := by decide

example : noDuplicates (ofList [.other 1, .other 2, .other 1]) = some (ofList [.other 1, .other 2]) := by decide

example : reverse (ofList [.other 1, .other 2, .other 3]) = some (ofList [.other 3, .other 2, .other 1]) := by decide

example : seq [.other 4, .other 5] = some (ofList [.other 4, .other 5]) := seq_spec [.other 4] (.other 5) (by simp) (by simp)

end Ustl.Meta
