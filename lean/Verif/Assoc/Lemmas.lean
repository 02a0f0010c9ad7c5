import Verif.Assoc.Spec
import Verif.Search.Props
/-! # Lemmas about the sorted containers -/
namespace Ustl.Assoc
open Ustl.Search

variable {α κ V : Type _} {lt : κ → κ → Bool} {key : α → κ}

/-- Sorted by key. -/
def KSorted (lt : κ → κ → Bool) (key : α → κ) (l : List α) : Prop := l.Pairwise fun a b => lt (key b) (key a) = false

/-- Strictly increasing keys. -/
def KStrict (lt : κ → κ → Bool) (key : α → κ) (l : List α) : Prop := l.Pairwise fun a b => lt (key a) (key b) = true

theorem KStrict.sorted (h : StrictWeak lt) {l : List α} (hl : KStrict lt key l) : KSorted lt key l :=
  List.Pairwise.imp (fun hab => h.asymm hab) hl

/-- Where a key splits a sorted list, and what the searches return. -/
structure Split (lt : κ → κ → Bool) (key : α → κ) (l : List α) (k : κ) (lo eq hi : List α) : Prop where
  cat : l = lo ++ eq ++ hi
  lb : lb lt key l k = some lo.length
  ub : ub lt key l k = some (lo.length + eq.length)
  er : er lt key l k = some (lo.length, lo.length + eq.length)
  lo : ∀ x ∈ lo, lt (key x) k = true
  eq : ∀ x ∈ eq, Equiv lt k (key x)
  hi : ∀ x ∈ hi, lt k (key x) = true

theorem split (h : StrictWeak lt) {l : List α} (hs : KSorted lt key l) (k : κ) : ∃ lo eq hi, Split lt key l k lo eq hi := by
  have p1 : l.Pairwise (fun a b => (fun x k => lt (key x) k) b k = true → (fun x k => lt (key x) k) a k = true) := by
    refine List.Pairwise.imp ?_ hs
    intro a b hab hb
    exact h.lt_of_le_of_lt hab hb
  have p2 : l.Pairwise (fun a b => (fun x k => !lt k (key x)) b k = true → (fun x k => !lt k (key x)) a k = true) := by
    refine List.Pairwise.imp ?_ hs
    intro a b hab hb
    simp only [Bool.not_eq_eq_eq_not, Bool.not_true] at hb ⊢
    exact h.le_trans hab hb
  obtain ⟨lo, r, e1, l1, a1, a2⟩ := lowerBound_partitioned (fun x k => lt (key x) k) [] l [] k p1
  obtain ⟨r2, hi, e2, l2, b1, b2⟩ := lowerBound_partitioned (fun x k => !lt k (key x)) [] l [] k p2
  simp only [List.nil_append, List.append_nil, List.length_nil, Nat.zero_add] at l1 l2
  have hle : lo.length ≤ r2.length := by
    rcases Nat.lt_or_ge r2.length lo.length with hlt | hge
    · exfalso
      have hlo : lo = r2 ++ (lo.drop r2.length) := by
        have : lo.take r2.length = r2 := by
          have e := e1.symm.trans e2
          have := congrArg (List.take r2.length) e
          rw [List.take_append_of_le_length (by omega), List.take_left] at this
          exact this
        rw [← this]; simp [List.take_append_drop, Nat.min_eq_left (Nat.le_of_lt hlt)]
      have hne : lo.drop r2.length ≠ [] := by
        intro hnil
        have := congrArg List.length hnil
        simp at this; omega
      obtain ⟨y, t, hy⟩ := List.exists_cons_of_ne_nil hne
      have hyl : y ∈ lo := by rw [hlo, hy]; simp
      have hyh : y ∈ hi := by
        have e := e1.symm.trans e2
        rw [hlo, hy, List.append_assoc] at e
        have e : y :: t ++ r = hi := List.append_cancel_left e
        rw [← e]; simp
      have x1 := a1 y hyl
      have x2 := b2 y hyh
      simp only [Bool.not_eq_eq_eq_not, Bool.not_false] at x2
      rw [h.asymm x1] at x2
      cases x2
    · exact hge
  have e := e1.symm.trans e2
  have hr2 : r2 = lo ++ r2.drop lo.length := by
    have := congrArg (List.take lo.length) e
    rw [List.take_left, List.take_append_of_le_length hle] at this
    rw (occs := .pos [1]) [← List.take_append_drop lo.length r2]
    rw [← this]
  have hr : r = r2.drop lo.length ++ hi := by
    rw [hr2] at e
    rw [List.append_assoc] at e
    have := List.append_cancel_left e
    exact this
  refine ⟨lo, r2.drop lo.length, hi, ?_, l1, ?_, ?_, a1, ?_, ?_⟩
  · rw [← hr2]; exact e2
  · unfold Assoc.ub
    rw [upperBound_eq (Nat.zero_le _) (Nat.le_refl _), l2]
    simp; omega
  · unfold Assoc.er equalRange
    have hcat : l = lo ++ (r2.drop lo.length ++ hi) := by rw [← List.append_assoc, ← hr2]; exact e2
    obtain ⟨x, y, f1, f2, f3, f4⟩ := advance_spec (fun k x => lt k (key x)) lo (r2.drop lo.length ++ hi) [] k
      l.length (by rw [hcat]; simp)
    rw [List.append_nil, ← hcat] at f2
    have hx : x.length = (r2.drop lo.length).length := by
      rcases Nat.lt_trichotomy x.length (r2.drop lo.length).length with hlt | heq | hgt
      · exfalso
        -- the head of y lies in the equal part
        have hsplit := congrArg (List.drop x.length) f1
        rw [List.drop_left, List.drop_append_of_le_length (by omega)] at hsplit
        have hne : (r2.drop lo.length).drop x.length ≠ [] := by
          intro hnil
          have := congrArg List.length hnil
          simp only [List.length_drop, List.length_nil] at this
          simp only [List.length_drop] at hlt
          omega
        obtain ⟨z, t, hz⟩ := List.exists_cons_of_ne_nil hne
        rw [hz] at hsplit
        have hz4 := f4 z (by rw [← hsplit]; rfl)
        have hzm : z ∈ r2 := by
          have : z ∈ (r2.drop lo.length).drop x.length := by rw [hz]; simp
          exact List.mem_of_mem_drop (List.mem_of_mem_drop this)
        have := b1 z hzm
        simp only [Bool.not_eq_eq_eq_not, Bool.not_true] at this
        rw [this] at hz4
        cases hz4
      · exact heq
      · exfalso
        have hsplit := congrArg (List.drop (r2.drop lo.length).length) f1
        rw [List.drop_left, List.drop_append_of_le_length (by omega)] at hsplit
        have hne : x.drop (r2.drop lo.length).length ≠ [] := by
          intro hnil
          have := congrArg List.length hnil
          simp only [List.length_drop, List.length_nil] at this
          simp only [List.length_drop] at hgt
          omega
        obtain ⟨z, t, hz⟩ := List.exists_cons_of_ne_nil hne
        have hzx : z ∈ x := List.mem_of_mem_drop (i := (r2.drop lo.length).length) (by rw [hz]; simp)
        have hzh : z ∈ hi := by rw [hsplit, hz]; simp
        have u1 := f3 z hzx
        have u2 := b2 z hzh
        simp only [Bool.not_eq_eq_eq_not, Bool.not_false] at u2
        rw [u1] at u2
        cases u2
    rw [l1]
    simp only [Option.bind_eq_bind, Option.bind_some, f2, Option.pure_def, hx]
  · intro x hx
    have m1 : x ∈ r := by rw [hr]; simp [hx]
    have m2 : x ∈ r2 := List.mem_of_mem_drop hx
    have := b1 x m2
    simp only [Bool.not_eq_eq_eq_not, Bool.not_true] at this
    exact ⟨this, a2 x m1⟩
  · intro x hx
    have := b2 x hx
    simpa using this

theorem verase_cat (a b c : List α) : verase (a ++ b ++ c) a.length b.length = some (a ++ c) := by
  unfold verase
  rw [if_pos (by simp), List.append_assoc, List.take_left, ← List.append_assoc,
    show a.length + b.length = (a ++ b).length by simp, List.drop_left]

theorem veraseRange_cat (a b c : List α) : veraseRange (a ++ b ++ c) a.length (a.length + b.length) = some (a ++ c) := by
  unfold veraseRange
  rw [if_pos (by omega), show a.length + b.length - a.length = b.length by omega, verase_cat]

theorem vinsert_cat (a b : List α) (x : α) : vinsert (a ++ b) a.length x = some (a ++ [x] ++ b) := by
  unfold vinsert
  rw [if_pos (by simp), List.take_left, List.drop_left]

theorem rd_cat (a : List α) (x : α) (b : List α) : rd (a ++ x :: b) a.length = some x := by
  unfold rd; simp

theorem verase_at {l : List α} {i : Nat} (h : i < l.length) : verase l i 1 = some (l.eraseIdx i) := by
  unfold verase
  rw [if_pos (by omega), List.eraseIdx_eq_take_drop_succ]

theorem veraseRange_at {l : List α} {i j : Nat} (h : i ≤ j) (hj : j ≤ l.length) :
    veraseRange l i j = some (l.take i ++ l.drop j) := by
  unfold veraseRange verase
  rw [if_pos h, if_pos (by omega), show i + (j - i) = j by omega]

/-! ### Unique keys -/

theorem unique_eq (h : StrictWeak lt) {l lo eq hi : List α} {k : κ} (hl : KStrict lt key l)
    (sp : Split lt key l k lo eq hi) : eq = [] ∨ ∃ y, eq = [y] := by
  match eq, sp with
  | [], _ => exact Or.inl rfl
  | [y], _ => exact Or.inr ⟨y, rfl⟩
  | y :: z :: t, sp =>
    exfalso
    have hl := hl
    unfold KStrict at hl
    rw [sp.cat] at hl
    have h2 := (List.pairwise_append.1 (List.pairwise_append.1 hl).1).2.1
    have h3 := (List.pairwise_cons.1 h2).1 z (by simp)
    have e1 := sp.eq y (by simp)
    have e2 := sp.eq z (by simp)
    have := (h.incompTrans _ _ _ e1.2 e1.1 e2.1 e2.2).1
    rw [h3] at this
    cases this

/-- `insertU` either adds the element between the smaller and the greater ones or finds an equivalent. -/
theorem insertU_spec (h : StrictWeak lt) {l : List α} (hl : KStrict lt key l) (x : α) :
    (∃ lo hi, l = lo ++ hi ∧ insertU lt key l x = some (lo ++ [x] ++ hi, lo.length, true) ∧
      (∀ y ∈ lo, lt (key y) (key x) = true) ∧ (∀ y ∈ hi, lt (key x) (key y) = true)) ∨
    (∃ lo y hi, l = lo ++ y :: hi ∧ insertU lt key l x = some (l, lo.length, false) ∧ Equiv lt (key x) (key y) ∧
      Split lt key l (key x) lo [y] hi) := by
  obtain ⟨lo, eq, hi, sp⟩ := split h (KStrict.sorted h hl) (key x)
  rcases unique_eq h hl sp with he | ⟨y, he⟩
  · subst he
    refine Or.inl ⟨lo, hi, by simpa using sp.cat, ?_, sp.lo, sp.hi⟩
    have hcat : l = lo ++ hi := by simpa using sp.cat
    unfold insertU
    rw [sp.lb]
    simp only
    rw [hcat, vinsert_cat]
    match hi, sp with
    | [], _ => rw [if_pos (by simp)]
    | z :: t, sp =>
      rw [if_neg (by simp), rd_cat]
      simp only [if_pos (sp.hi z (by simp))]
  · subst he
    have hcat : l = lo ++ y :: hi := by simpa using sp.cat
    have hy := sp.eq y (by simp)
    refine Or.inr ⟨lo, y, hi, hcat, ?_, hy, sp⟩
    unfold insertU
    rw [sp.lb]
    simp only
    rw [if_neg (by rw [hcat]; simp)]
    rw [hcat, rd_cat]
    simp only [hy.1, Bool.false_eq_true, if_false]

theorem strict_insert {lo hi : List α} {x : α} (hl : KStrict lt key (lo ++ hi))
    (h1 : ∀ y ∈ lo, lt (key y) (key x) = true) (h2 : ∀ y ∈ hi, lt (key x) (key y) = true) :
    KStrict lt key (lo ++ [x] ++ hi) := by
  unfold KStrict at hl ⊢
  rw [List.pairwise_append] at hl
  rw [List.append_assoc, List.pairwise_append]
  refine ⟨hl.1, ?_, ?_⟩
  · rw [List.singleton_append, List.pairwise_cons]
    exact ⟨h2, hl.2.1⟩
  · intro a ha b hb
    rw [List.singleton_append, List.mem_cons] at hb
    rcases hb with rfl | hb
    · exact h1 a ha
    · exact hl.2.2 a ha b hb

theorem KStrict.sublist {l l' : List α} (hl : KStrict lt key l) (hs : l'.Sublist l) : KStrict lt key l' :=
  List.Pairwise.sublist hs hl

theorem KSorted.sublist {l l' : List α} (hl : KSorted lt key l) (hs : l'.Sublist l) : KSorted lt key l' :=
  List.Pairwise.sublist hs hl

theorem range_sublist (l : List α) {i j : Nat} (h : i ≤ j) : (l.take i ++ l.drop j).Sublist l := by
  have e : l.drop j = (l.drop i).drop (j - i) := by rw [List.drop_drop]; congr 1; omega
  rw (occs := .pos [3]) [← List.take_append_drop i l]
  rw [e]
  exact List.Sublist.append (List.Sublist.refl _) (List.drop_sublist _ _)

/-- Elements with distinct keys occur once. -/
theorem KStrict.nodup (h : StrictWeak lt) {l : List α} (hl : KStrict lt key l) : l.Nodup := by
  refine List.Pairwise.imp ?_ hl
  intro a b hab e
  subst e
  rw [h.irrefl] at hab
  cases hab

theorem mem_range_of_nodup {l : List α} (hn : l.Nodup) {i j : Nat} (h : i ≤ j) (x : α) :
    x ∈ l.take i ++ l.drop j ↔ x ∈ l ∧ x ∉ (l.take j).drop i := by
  have e : l = l.take i ++ (l.take j).drop i ++ l.drop j := by
    have e1 : (l.take j).take i = l.take i := by rw [List.take_take, Nat.min_eq_left h]
    rw [← e1, List.take_append_drop, List.take_append_drop]
  generalize l.take i = a at *
  generalize (l.take j).drop i = b at *
  generalize l.drop j = c at *
  rw [e, List.nodup_append] at hn
  obtain ⟨n1, n2, n3⟩ := hn
  rw [List.nodup_append] at n1
  rw [e]
  constructor
  · intro hx
    rw [List.mem_append] at hx
    refine ⟨by simp only [List.mem_append]; exact hx.elim (fun y => Or.inl (Or.inl y)) Or.inr, ?_⟩
    intro hb
    rcases hx with hx | hx
    · exact n1.2.2 x hx x hb rfl
    · exact n3 x (by simp [hb]) x hx rfl
  · rintro ⟨hx, hb⟩
    simp only [List.mem_append] at hx ⊢
    rcases hx with (hx | hx) | hx
    · exact Or.inl hx
    · exact absurd hx hb
    · exact Or.inr hx

end Ustl.Assoc
