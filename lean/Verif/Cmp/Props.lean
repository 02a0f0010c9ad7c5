import Verif.Cmp.Model
import Verif.Cmp.Spec
/-! # Comparison operators: theorems for C64 -/
namespace Ustl.Cmp
open Util

/-! ## The derived operators -/

theorem equiv_refl {α : Type} {lt : α → α → Bool} (h : StrictWeak lt) (a : α) : Equiv lt a a := ⟨h.irrefl a, h.irrefl a⟩

/-- **C64** the operators made from `<` and `==`: for any strict weak order `<` and any `==` that agrees with it, `!=` is
the negation of `==`, `>` is `<` turned around, `<=` is less or equal, `>=` greater or equal. -/
theorem derived_spec {α : Type} (lt eq : α → α → Bool) (h : StrictWeak lt) (he : Agrees eq lt) (a b : α) :
    (opNe eq a b = true ↔ eq a b = false) ∧ (opGt lt a b = true ↔ lt b a = true) ∧
    (opLe lt a b = true ↔ lt a b = true ∨ eq a b = true) ∧ (opGe lt a b = true ↔ lt b a = true ∨ eq a b = true) := by
  unfold opNe opGt opLe opGe
  refine ⟨by simp, Iff.rfl, ?_, ?_⟩
  · rw [he]
    unfold Equiv
    cases h1 : lt a b <;> cases h2 : lt b a <;> simp_all
    exact absurd (h.asymm h1) (by simp [h2])
  · rw [he]
    unfold Equiv
    cases h1 : lt a b <;> cases h2 : lt b a <;> simp_all
    exact absurd (h.asymm h1) (by simp [h2])

/-- **C64** exactly one of `<`, `==`, `>` holds of any two values. -/
theorem derived_trichotomy {α : Type} (lt eq : α → α → Bool) (h : StrictWeak lt) (he : Agrees eq lt) (a b : α) :
    Trichotomy eq lt a b := by
  have := he a b
  unfold Trichotomy Equiv at *
  cases h1 : lt a b <;> cases h2 : lt b a <;> simp_all
  exact absurd (h.asymm h1) (by simp [h2])

/-- **C64** `<=` is a total preorder. -/
theorem derived_order {α : Type} (lt : α → α → Bool) (h : StrictWeak lt) :
    (∀ a, opLe lt a a = true) ∧ (∀ a b, opLe lt a b = true ∨ opLe lt b a = true) ∧
    (∀ a b c, opLe lt a b = true → opLe lt b c = true → opLe lt a c = true) := by
  unfold opLe
  refine ⟨fun a => by simp [h.irrefl], fun a b => ?_, fun a b c h1 h2 => ?_⟩
  · cases h1 : lt b a
    · simp
    · simp [h.asymm h1]
  · simp only [Bool.not_eq_true'] at *
    exact h.le_trans h1 h2

theorem nat_agrees : Agrees (fun a b : Nat => decide (a = b)) natLt := by
  intro a b
  simp [Equiv, natLt]
  omega

example : opLe natLt 3 3 = true ∧ opGe natLt 3 4 = false ∧ opNe (fun a b : Nat => decide (a = b)) 3 4 = true := by decide
example : Trichotomy (fun a b : Nat => decide (a = b)) natLt 3 4 :=
  derived_trichotomy natLt _ natLt_strictWeak nat_agrees 3 4

/-! ## min, max, VectorElement -/

/-- **C64** `min` returns one of its arguments and neither argument is less than it; `max` likewise. -/
theorem min_max_spec {α : Type} (lt : α → α → Bool) (h : StrictWeak lt) (a b : α) :
    (min' lt a b = a ∨ min' lt a b = b) ∧ lt a (min' lt a b) = false ∧ lt b (min' lt a b) = false ∧
    (max' lt a b = a ∨ max' lt a b = b) ∧ lt (max' lt a b) a = false ∧ lt (max' lt a b) b = false := by
  unfold min' max'
  cases h1 : lt a b <;> cases h2 : lt b a <;> simp_all [h.irrefl]
  exact absurd (h.asymm h1) (by simp [h2])

example : min' natLt 3 5 = 3 ∧ max' natLt 3 5 = 5 := by decide

/-- **C64** of two equivalent but different values `min` and `max` both return the second: the first is lost from
`min (a, b), max (a, b)` (the standard's `min` returns the first). -/
theorem min_max_violated {α : Type} (lt : α → α → Bool) (a b : α) (he : Equiv lt a b) :
    min' lt a b = b ∧ max' lt a b = b := by
  unfold min' max'
  simp [he.1, he.2]

example : min' fstLt (1, 2) (1, 3) = (1, 3) ∧ max' fstLt (1, 2) (1, 3) = (1, 3) :=
  min_max_violated fstLt (1, 2) (1, 3) (by decide)

theorem conv_of_has {t : IT} {v : Int} (hb : 1 ≤ t.bits) (h : t.has v) : t.conv v = v := by
  obtain ⟨n, s⟩ := t
  obtain ⟨k, rfl⟩ : ∃ k, n = k + 1 := ⟨n - 1, by simp only at hb; omega⟩
  have hp : (2 : Int) ^ (k + 1) = 2 * 2 ^ k := by rw [Int.pow_succ]; omega
  have hk : (0 : Int) < 2 ^ k := Int.pow_pos (by decide)
  unfold IT.conv IT.has at *
  simp only [Nat.add_sub_cancel, hp] at *
  generalize (2 : Int) ^ k = m at *
  cases s with
  | true =>
    simp only [if_true] at h
    rcases Int.lt_or_le v 0 with hv | hv
    · have e : v % (2 * m) = v + 2 * m := by
        rw [← Int.add_emod_right, Int.emod_eq_of_lt (by omega) (by omega)]
      rw [e, if_pos ⟨rfl, by omega⟩]; omega
    · rw [Int.emod_eq_of_lt hv (by omega), if_neg (by rintro ⟨_, h⟩; omega)]
  | false =>
    rw [if_neg (by decide)] at h
    rw [Int.emod_eq_of_lt h.1 h.2, if_neg (by simp)]

/-- **C64** `min` and `max` of two integers of different types are the lesser and the greater one if both have a place in
the type they are compared in and the result in the type of the first argument. -/
theorem min_max_mixed_partial (t1 t2 : IT) (a b : Int) (h1 : 1 ≤ t1.bits)
    (ha : (common t1 t2).has a) (hb : (common t1 t2).has b) :
    (t1.has (min a b) → minInt t1 t2 a b = min a b) ∧ (t1.has (max a b) → maxInt t1 t2 a b = max a b) := by
  have hc : 1 ≤ (common t1 t2).bits := by
    have p1 : 1 ≤ t1.promote.bits := by unfold IT.promote; split <;> first | decide | omega
    have p2 : 1 ≤ t2.promote.bits := by unfold IT.promote; split <;> first | decide | omega
    unfold common
    simp only
    split
    · show 1 ≤ max _ _; omega
    · split <;> split <;> assumption
  unfold minInt maxInt
  simp only [conv_of_has hc ha, conv_of_has hc hb]
  constructor
  · intro h
    rw [show (if a < b then a else b) = min a b by rw [Int.min_def]; split <;> split <;> omega]
    exact conv_of_has h1 h
  · intro h
    rw [show (if b < a then a else b) = max a b by rw [Int.max_def]; split <;> split <;> omega]
    exact conv_of_has h1 h

/-- **C64** `min` of two unsigned values is always the lesser one, whatever the two widths. -/
theorem min_unsigned (n m : Nat) (a b : Int) (hn : n = 8 ∨ n = 16 ∨ n = 32 ∨ n = 64) (hm : m = 8 ∨ m = 16 ∨ m = 32 ∨ m = 64)
    (ha : IT.has ⟨n, false⟩ a) (hb : IT.has ⟨m, false⟩ b) : minInt ⟨n, false⟩ ⟨m, false⟩ a b = min a b := by
  have key : (common ⟨n, false⟩ ⟨m, false⟩).has a ∧ (common ⟨n, false⟩ ⟨m, false⟩).has b := by
    unfold IT.has at ha hb ⊢
    rw [if_neg (by simp)] at ha hb
    rcases hn with rfl | rfl | rfl | rfl <;> rcases hm with rfl | rfl | rfl | rfl <;>
      simp [common, IT.promote] at * <;> omega
  refine (min_max_mixed_partial _ _ a b (by rcases hn with rfl | rfl | rfl | rfl <;> decide) key.1 key.2).1 ?_
  unfold IT.has at ha hb ⊢
  rw [if_neg (by simp)] at ha hb ⊢
  simp only at *
  rw [Int.min_def]
  split <;> omega

example : minInt ⟨8, false⟩ ⟨64, false⟩ 200 (2 ^ 40) = 200 := by decide +kernel

/-- **C64** mixed types: the lesser of -1 and 1u is 1, of 5 and -2^40 it is 0, the greater of 1 and 2^40 is 1. -/
theorem min_max_mixed_violated :
    minInt ⟨32, true⟩ ⟨32, false⟩ (-1) 1 = 1 ∧ minInt ⟨32, true⟩ ⟨64, true⟩ 5 (-2 ^ 40) = 0 ∧
    maxInt ⟨32, false⟩ ⟨64, false⟩ 1 (2 ^ 40 + 1) = 1 := by
  decide +kernel

example : IT.has ⟨32, true⟩ (-1) ∧ IT.has ⟨32, false⟩ 1 ∧ IT.has ⟨64, true⟩ (-2 ^ 40) := by
  unfold IT.has; decide +kernel

/-- **C64** `VectorElement (v, i)` of a non-empty array is element `i`, or the last one if there is no element `i`. -/
theorem vectorElement_spec {α : Type} (v : List α) (i : Nat) (h : v ≠ []) :
    vectorElement v i = if h : i < v.length then some v[i] else v.getLast? := by
  have hl : 0 < v.length := List.length_pos_iff.2 h
  have e : min' (fun a b => decide (a < b)) i (v.length - 1) = min i (v.length - 1) := by
    unfold min'
    rw [Nat.min_def]
    by_cases h : i < v.length - 1
    · rw [if_pos (by simpa using h), if_pos (by omega)]
    · rw [if_neg (by simpa using h)]; split <;> omega
  unfold vectorElement
  rw [e]
  by_cases hi : i < v.length
  · rw [dif_pos hi, Nat.min_eq_left (by omega), List.getElem?_eq_getElem hi]
  · rw [dif_neg hi, Nat.min_eq_right (by omega), List.getLast?_eq_getElem?]

example : vectorElement [7, 8, 9] 5 = some 9 ∧ vectorElement [7, 8, 9] 1 = some 8 := by decide

/-! ## Pairs, arrays, tuples -/

/-- **C64** pairs: for components whose `==` agrees with their `<`, `<` of pairs is the lexicographic order, a strict weak
order again, and `==` of pairs agrees with it. -/
theorem pair_order {α β : Type} (lt1 eq1 : α → α → Bool) (lt2 eq2 : β → β → Bool) (h1 : StrictWeak lt1) (h2 : StrictWeak lt2)
    (e1 : Agrees eq1 lt1) (e2 : Agrees eq2 lt2) :
    StrictWeak (pairLt lt1 eq1 lt2) ∧ Agrees (pairEq eq1 eq2) (pairLt lt1 eq1 lt2) ∧
    ∀ x y, pairLt lt1 eq1 lt2 x y = true ↔ lt1 x.1 y.1 = true ∨ (Equiv lt1 x.1 y.1 ∧ lt2 x.2 y.2 = true) := by
  have ch : ∀ x y, pairLt lt1 eq1 lt2 x y = true ↔ lt1 x.1 y.1 = true ∨ (Equiv lt1 x.1 y.1 ∧ lt2 x.2 y.2 = true) := by
    intro x y
    unfold pairLt
    rw [Bool.or_eq_true, Bool.and_eq_true, e1]
  have chf : ∀ x y, pairLt lt1 eq1 lt2 x y = false ↔ lt1 x.1 y.1 = false ∧ (Equiv lt1 x.1 y.1 → lt2 x.2 y.2 = false) := by
    intro x y
    rw [← Bool.not_eq_true, ch]
    constructor
    · intro h
      refine ⟨?_, fun e => ?_⟩
      · cases hh : lt1 x.1 y.1
        · rfl
        · exact absurd (Or.inl hh) h
      · cases hh : lt2 x.2 y.2
        · rfl
        · exact absurd (Or.inr ⟨e, hh⟩) h
    · rintro ⟨a, b⟩ (c | ⟨c, d⟩)
      · rw [a] at c; cases c
      · rw [b c] at d; cases d
  have eqv : ∀ x y, Equiv (pairLt lt1 eq1 lt2) x y ↔ Equiv lt1 x.1 y.1 ∧ Equiv lt2 x.2 y.2 := by
    intro x y
    constructor
    · rintro ⟨a, b⟩
      rw [chf] at a b
      have e : Equiv lt1 x.1 y.1 := ⟨a.1, b.1⟩
      exact ⟨e, a.2 e, b.2 ⟨e.2, e.1⟩⟩
    · rintro ⟨e, f⟩
      exact ⟨(chf x y).2 ⟨e.1, fun _ => f.1⟩, (chf y x).2 ⟨e.2, fun _ => f.2⟩⟩
  refine ⟨⟨?_, ?_, ?_⟩, ?_, ch⟩
  · intro a
    rw [chf]
    exact ⟨h1.irrefl _, fun _ => h2.irrefl _⟩
  · intro a b c hab hbc
    rw [ch] at hab hbc ⊢
    rcases hab with hab | ⟨hab, hab2⟩ <;> rcases hbc with hbc | ⟨hbc, hbc2⟩
    · exact Or.inl (h1.trans _ _ _ hab hbc)
    · exact Or.inl (h1.lt_of_lt_of_le hab hbc.2)
    · exact Or.inl (h1.lt_of_le_of_lt hab.2 hbc)
    · exact Or.inr ⟨h1.incompTrans _ _ _ hab.1 hab.2 hbc.1 hbc.2, h2.trans _ _ _ hab2 hbc2⟩
  · intro a b c x1 x2 x3 x4
    have p := (eqv a b).1 ⟨x1, x2⟩
    have q := (eqv b c).1 ⟨x3, x4⟩
    exact (eqv a c).2 ⟨h1.incompTrans _ _ _ p.1.1 p.1.2 q.1.1 q.1.2, h2.incompTrans _ _ _ p.2.1 p.2.2 q.2.1 q.2.2⟩
  · intro x y
    rw [eqv]
    unfold pairEq
    rw [Bool.and_eq_true, e1, e2]

example : StrictWeak (pairLt natLt (fun a b => decide (a = b)) natLt) :=
  (pair_order natLt _ natLt _ natLt_strictWeak natLt_strictWeak nat_agrees nat_agrees).1

/-- The specification `Lex`, step by step. -/
theorem lex_cons {α : Type} {lt : α → α → Bool} {x y : α} {s t : List α} :
    Lex lt (x :: s) (y :: t) ↔ lt x y = true ∨ (Equiv lt x y ∧ Lex lt s t) := by
  constructor
  · rintro ⟨p, a, u, q, b, v, hs, ht, hl, he, hlt⟩
    cases p with
    | nil =>
      cases q with
      | nil => simp only [List.nil_append, List.cons.injEq] at hs ht; left; rw [hs.1, ht.1]; exact hlt
      | cons => simp at hl
    | cons p0 p =>
      cases q with
      | nil => simp at hl
      | cons q0 q =>
        simp only [List.cons_append, List.cons.injEq] at hs ht
        right
        refine ⟨?_, p, a, u, q, b, v, hs.2, ht.2, by simpa using hl, fun i h h' => ?_, hlt⟩
        · rw [hs.1, ht.1]; exact he 0 (by simp) (by simp)
        · exact he (i + 1) (by simpa using h) (by simpa using h')
  · rintro (h | ⟨e, p, a, u, q, b, v, rfl, rfl, hl, he, hlt⟩)
    · exact ⟨[], x, s, [], y, t, rfl, rfl, rfl, fun i h => absurd h (by simp), h⟩
    · refine ⟨x :: p, a, u, y :: q, b, v, rfl, rfl, by simp [hl], fun i h h' => ?_, hlt⟩
      cases i with
      | zero => exact e
      | succ i => exact he i (by simpa using h) (by simpa using h')

theorem lex_nil {α : Type} {lt : α → α → Bool} (t : List α) : ¬ Lex lt [] t := by
  rintro ⟨p, a, u, q, b, v, hs, _⟩
  cases p <;> simp at hs

theorem arrayLt_from {α : Type} {lt : α → α → Bool} (h : StrictWeak lt) :
    ∀ (s t p q : List α), s.length = t.length → p.length = q.length →
      ∃ r, arrayLtFrom lt (p ++ s) (q ++ t) (p ++ s).length p.length = some r ∧ (r = true ↔ Lex lt s t)
  | [], [], p, q, _, _ => by
    refine ⟨false, ?_, by simp [lex_nil]⟩
    unfold arrayLtFrom
    rw [if_neg (by simp)]
  | x :: s, y :: t, p, q, hl, hp => by
    obtain ⟨r, hr, hx⟩ := arrayLt_from h s t (p ++ [x]) (q ++ [y]) (by simpa using hl) (by simpa using hp)
    unfold arrayLtFrom
    rw [if_pos (by simp), rd_at, rd_at' _ _ _ _ hp]
    simp only
    by_cases h1 : lt y x = true
    · refine ⟨false, by simp [h1], ?_⟩
      rw [lex_cons]
      constructor
      · intro e; cases e
      · rintro (e | ⟨e, _⟩)
        · rw [h.asymm h1] at e; cases e
        · rw [e.2] at h1; cases h1
    · have h1 : lt y x = false := by simpa using h1
      by_cases h2 : lt x y = true
      · refine ⟨true, by simp [h1, h2], ?_⟩
        rw [lex_cons]
        simp [h2]
      · have h2 : lt x y = false := by simpa using h2
        refine ⟨r, ?_, ?_⟩
        · simp only [h1, h2]
          simpa using hr
        · rw [hx, lex_cons]
          simp [h2, Equiv, h1]
  | [], _ :: _, _, _, hl, _ => by simp at hl
  | _ :: _, [], _, _, hl, _ => by simp at hl

/-- **C64** `<` of two arrays, or tuples, of the same number of elements is the lexicographic order, for any strict weak
order of the elements, and never leaves the arrays. -/
theorem array_lt_spec {α : Type} (lt : α → α → Bool) (h : StrictWeak lt) (s t : List α) (hl : s.length = t.length) :
    ∃ r, arrayLtFrom lt s t s.length 0 = some r ∧ (r = true ↔ Lex lt s t) := by
  simpa using arrayLt_from h s t [] [] hl rfl

example : arrayLtFrom natLt [1, 2, 3] [1, 3, 0] 3 0 = some true := by decide +kernel

theorem lex_equiv {α : Type} {lt : α → α → Bool} : ∀ {s t : List α}, s.length = t.length →
    ((¬ Lex lt s t ∧ ¬ Lex lt t s) ↔ ∀ i (h : i < s.length) (h' : i < t.length), Equiv lt s[i] t[i])
  | [], [], _ => by simp [lex_nil]
  | x :: s, y :: t, hl => by
    have ih := lex_equiv (lt := lt) (s := s) (t := t) (by simpa using hl)
    rw [lex_cons, lex_cons]
    constructor
    · rintro ⟨a, b⟩
      have e : Equiv lt x y := ⟨by
        cases hh : lt x y
        · rfl
        · exact absurd (Or.inl hh) a, by
        cases hh : lt y x
        · rfl
        · exact absurd (Or.inl hh) b⟩
      have := ih.1 ⟨fun c => a (Or.inr ⟨e, c⟩), fun c => b (Or.inr ⟨⟨e.2, e.1⟩, c⟩)⟩
      intro i h h'
      cases i with
      | zero => exact e
      | succ i => exact this i (by simpa using h) (by simpa using h')
    · intro h
      have e : Equiv lt x y := h 0 (by simp) (by simp)
      obtain ⟨c, d⟩ := ih.2 (fun i k k' => h (i + 1) (by simpa using k) (by simpa using k'))
      refine ⟨?_, ?_⟩
      · rintro (g | ⟨_, g⟩)
        · rw [e.1] at g; cases g
        · exact c g
      · rintro (g | ⟨_, g⟩)
        · rw [e.2] at g; cases g
        · exact d g
  | [], _ :: _, hl => by simp at hl
  | _ :: _, [], hl => by simp at hl

theorem arrayEq_from {α : Type} {eq : α → α → Bool} :
    ∀ (s t p q : List α), s.length = t.length → p.length = q.length →
      ∃ r, arrayEqFrom eq (p ++ s) (q ++ t) (p ++ s).length p.length = some r ∧
        (r = true ↔ ∀ i (h : i < s.length) (h' : i < t.length), eq s[i] t[i] = true)
  | [], [], p, q, _, _ => by
    refine ⟨true, ?_, by simp⟩
    unfold arrayEqFrom
    rw [if_neg (by simp)]
  | x :: s, y :: t, p, q, hl, hp => by
    obtain ⟨r, hr, hx⟩ := arrayEq_from (eq := eq) s t (p ++ [x]) (q ++ [y]) (by simpa using hl) (by simpa using hp)
    unfold arrayEqFrom
    rw [if_pos (by simp), rd_at, rd_at' _ _ _ _ hp]
    simp only
    cases h1 : eq x y with
    | false =>
      refine ⟨false, by simp, ?_⟩
      constructor
      · intro e; cases e
      · intro h
        have := h 0 (by simp) (by simp)
        simp [h1] at this
    | true =>
      refine ⟨r, ?_, ?_⟩
      · simpa using hr
      · rw [hx]
        constructor
        · intro h i k k'
          cases i with
          | zero => exact h1
          | succ i => exact h i (by simpa using k) (by simpa using k')
        · intro h i k k'
          exact h (i + 1) (by simpa using k) (by simpa using k')
  | [], _ :: _, _, _, hl, _ => by simp at hl
  | _ :: _, [], _, _, hl, _ => by simp at hl

/-- **C64** `==` of two arrays or tuples holds exactly if all elements are equal, and, if `==` of the elements agrees with
their `<`, exactly if neither array is less than the other. -/
theorem array_eq_spec {α : Type} (eq lt : α → α → Bool) (h : StrictWeak lt) (he : Agrees eq lt) (s t : List α)
    (hl : s.length = t.length) :
    ∃ r, arrayEqFrom eq s t s.length 0 = some r ∧
      (r = true ↔ ∀ i (h : i < s.length) (h' : i < t.length), eq s[i] t[i] = true) ∧
      (r = true ↔ arrayLtFrom lt s t s.length 0 = some false ∧ arrayLtFrom lt t s t.length 0 = some false) := by
  obtain ⟨r, h1, h2⟩ := arrayEq_from (eq := eq) s t [] [] hl rfl
  obtain ⟨a, a1, a2⟩ := array_lt_spec lt h s t hl
  obtain ⟨b, b1, b2⟩ := array_lt_spec lt h t s hl.symm
  refine ⟨r, by simpa using h1, h2, ?_⟩
  rw [h2, a1, b1]
  have e : (∀ i (h : i < s.length) (h' : i < t.length), eq s[i] t[i] = true) ↔
      ∀ i (h : i < s.length) (h' : i < t.length), Equiv lt s[i] t[i] :=
    ⟨fun h i k k' => (he _ _).1 (h i k k'), fun h i k k' => (he _ _).2 (h i k k')⟩
  rw [e, ← lex_equiv hl, ← a2, ← b2]
  cases a <;> cases b <;> simp

example : arrayEqFrom (fun a b : Nat => decide (a = b)) [1, 2] [1, 2] 2 0 = some true := by decide +kernel

/-! ## Containers -/

/-- **C64** a stack is less than another exactly if it has fewer elements, so two stacks of the same size that differ are
neither equal nor ordered: `<`, `==` and `>` are all false. -/
theorem stack_lt_violated {α : Type} [DecidableEq α] (a b : List α) (hl : a.length = b.length) (hne : a ≠ b) :
    ¬ Trichotomy (stackEq (fun x y => decide (x = y))) stackLt a b := by
  unfold Trichotomy stackEq stackLt
  simp [hl, hne]

example : stackLt [1] [2] = false ∧ stackLt [2] [1] = false ∧ stackLt [9] [1, 1] = true := by decide

/-- **C64** what `<` of stacks is: a strict weak order, by size, in which equal stacks are never ordered. -/
theorem stack_lt_partial {α : Type} : StrictWeak (stackLt (α := α)) ∧
    ∀ a b : List α, stackLt a b = true ↔ a.length < b.length := by
  refine ⟨⟨fun a => by simp [stackLt], fun a b c => ?_, fun a b c => ?_⟩, fun a b => by simp [stackLt]⟩
  · simp only [stackLt, decide_eq_true_eq]; omega
  · simp only [stackLt, decide_eq_false_iff_not]; omega

/-- **C64** pairs of which the first component is a stack are not ordered by `<` at all: the order is not transitive on
incomparable pairs, so no set or sort of them works. -/
theorem pair_stack_violated :
    ¬ StrictWeak (pairLt (stackLt (α := Nat)) (stackEq (fun x y => decide (x = y))) natLt) := by
  intro h
  have := h.incompTrans ([1], 5) ([2], 0) ([1], 7) (by decide) (by decide) (by decide) (by decide)
  revert this
  decide

/-- **C64** two queues with the same contents may be unequal: it depends on how many elements were popped before. (And
`<` compares sizes only, as for stacks.) -/
theorem queue_eq_violated :
    ((((Seq.Queue.empty.push 1).push 2).push 3).pop).any (fun a => let b := (Seq.Queue.empty.push 2).push 3
      a.storage.drop a.front = b.storage.drop b.front ∧ a.eq b = false) := by
  decide +kernel

/-- **C64** queues that are equal have the same contents; `<` compares the sizes. -/
theorem queue_eq_partial {α : Type} [DecidableEq α] (a b : Seq.Queue α) :
    (a.eq b = true → a.storage.drop a.front = b.storage.drop b.front) ∧
    (∀ x y, a.size = some x → b.size = some y → queueLt a b = some (decide (x < y))) := by
  refine ⟨fun h => ?_, fun x y hx hy => by simp [queueLt, hx, hy]⟩
  simp only [Seq.Queue.eq, Bool.and_eq_true, decide_eq_true_eq] at h
  rw [h.1, h.2]

example : queueLt (Seq.Queue.empty.push 1) ((Seq.Queue.empty.push 1).push 2) = some true := by decide

theorem flatMap_inj {α : Type} {rep : α → List UInt8} {k : Nat} (hk : 0 < k) (hw : ∀ x, (rep x).length = k)
    (hi : ∀ x y, rep x = rep y → x = y) : ∀ {a b : List α}, a.flatMap rep = b.flatMap rep → a = b
  | [], [], _ => rfl
  | [], y :: b, h => by
    have := congrArg List.length h
    simp [hw] at this
    omega
  | x :: a, [], h => by
    have := congrArg List.length h
    simp [hw] at this
    omega
  | x :: a, y :: b, h => by
    simp only [List.flatMap_cons] at h
    obtain ⟨h1, h2⟩ := List.append_inj h (by rw [hw, hw])
    rw [hi x y h1, flatMap_inj hk hw hi h2]

/-- **C64** `==` of two vectors holds exactly if they have the same elements, for element types in which different values
have different bytes and equal values the same bytes (integers, pointers, enumerations). -/
theorem vector_eq_partial {α : Type} (rep : α → List UInt8) (k : Nat) (hk : 0 < k) (hw : ∀ x, (rep x).length = k)
    (hi : ∀ x y, rep x = rep y → x = y) (a b : List α) : vectorEq rep a b = true ↔ a = b := by
  unfold vectorEq
  simp only [Bool.and_eq_true, decide_eq_true_eq]
  constructor
  · rintro ⟨_, h⟩
    exact (flatMap_inj hk hw hi h).symm
  · rintro rfl
    exact ⟨rfl, rfl⟩

example : vectorEq (fun x : UInt8 => [x]) [1, 2] [1, 2] = true ∧ vectorEq (fun x : UInt8 => [x]) [1, 2] [1, 3] = false := by
  decide

/-- **C64** for any other element type `==` of vectors is not `==` of the elements: two elements that are equal but differ
in some byte (two strings with the same text in different blocks, 0.0 and -0.0, structures with padding) make the
vectors unequal. -/
theorem vector_eq_violated {α : Type} (eq : α → α → Bool) (rep : α → List UInt8) (x y : α) (h : eq x y = true)
    (hr : rep x ≠ rep y) : arrayEqFrom eq [x] [y] 1 0 = some true ∧ vectorEq rep [x] [y] = false := by
  constructor
  · unfold arrayEqFrom
    simp only [rd, List.length_singleton, List.getElem?_cons_zero, h]
    unfold arrayEqFrom
    rfl
  · unfold vectorEq
    have : rep y ≠ rep x := fun e => hr e.symm
    simp [this]

/-- A string object is the address of its characters; two strings of the same characters at different addresses. -/
example : vectorEq (fun p : Nat × List UInt8 => (List.range 8).map (fun i => UInt8.ofNat (p.1 / 256 ^ i)))
    [(4096, [97])] [(8192, [97])] = false :=
  (vector_eq_violated (fun p q => decide (p.2 = q.2)) _ _ _ (by decide) (by decide)).2

/-! ## Pointers, stream iterators, error codes -/

/-- **C64** `unique_ptr` and `shared_ptr` are ordered as the addresses they hold, and equal if these are. -/
theorem ptr_order (a b : Nat) : (ptrLt a b = true ↔ a < b) ∧ (ptrEq a b = true ↔ a = b) ∧ Trichotomy ptrEq ptrLt a b := by
  refine ⟨by simp [ptrLt], by simp [ptrEq], ?_⟩
  unfold Trichotomy ptrLt ptrEq
  simp only [decide_eq_true_eq, decide_eq_false_iff_not]
  omega

/-- **C64** `auto_ptr` is ordered the other way round: `p < q` holds exactly if the address in `p` is the greater one. -/
theorem auto_ptr_violated (a b : Nat) (h : a < b) : autoLt a b = false ∧ autoLt b a = true := by
  simp [autoLt]; omega

example : autoLt 16 32 = false := by decide

/-- **C64** the order of `auto_ptr` is a strict weak order nevertheless, and agrees with `==`. -/
theorem auto_ptr_partial : StrictWeak autoLt ∧ Agrees ptrEq autoLt := by
  refine ⟨⟨fun a => by simp [autoLt], fun a b c => ?_, fun a b c => ?_⟩, fun a b => ?_⟩
  · simp only [autoLt, decide_eq_true_eq]; omega
  · simp only [autoLt, decide_eq_false_iff_not]; omega
  · simp only [ptrEq, Equiv, autoLt, decide_eq_true_eq, decide_eq_false_iff_not]; omega

/-- **C64** the end iterator of an input stream is less than itself, so `<` of these iterators is no strict order. -/
theorem isi_lt_violated (pos : Nat → Nat) : isiLt pos none none = true ∧ ¬ StrictWeak (isiLt pos) := by
  refine ⟨rfl, fun h => ?_⟩
  have := h.irrefl none
  cases this

/-- **C64** two iterators of the same stream are always equal, also if one was advanced since: they have no position of
their own. -/
theorem isi_eq_violated (pos : Nat → Nat) (s : Nat) : isiEq pos (some s) (some s) = true ∧ isiLt pos (some s) (some s) = false := by
  simp [isiEq, isiLt]

/-- **C64** what the comparison with the end is good for: an iterator is equal to the end exactly if it is at the end, and
less than the end as long as it is not. -/
theorem isi_end_partial (pos : Nat → Nat) (a : Option Nat) : (isiEq pos a none = true ↔ a = none) ∧
    (a ≠ none → isiLt pos a none = true) := by
  cases a <;> simp [isiEq, isiLt]

/-- **C64** error codes and conditions are equal exactly if their numbers are, whatever the categories they were made
with, and true exactly if the number is not 0. -/
theorem error_code_spec (x y : Int) (c d : Nat) : ((ErrCode.make x c).eq (ErrCode.make y d) = true ↔ x = y) ∧
    ((ErrCode.make x c).toBool = true ↔ x ≠ 0) := by
  refine ⟨?_, ?_⟩
  · show (true && decide (x = y)) = true ↔ _
    simp
  · show decide (x ≠ 0) = true ↔ _
    simp

example : (ErrCode.make 2 0).eq (ErrCode.make 2 1) = true ∧ (ErrCode.make 0 0).toBool = false := by decide

end Ustl.Cmp
