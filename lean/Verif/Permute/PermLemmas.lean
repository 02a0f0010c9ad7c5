import Verif.Permute.Lemmas
import Verif.Permute.Spec
namespace Ustl.Permute
variable {α : Type _}

theorem findGreater_at (lt : α → α → Bool) (x : α) (d : List α) : ∀ (p mid q : List α) (i : Nat),
    i = p.length →
    (∃ y ∈ d, lt x y = true) →
    ∃ d1 y d2, d = d1 ++ y :: d2 ∧
      findGreater lt (p ++ x :: (mid ++ d ++ q)) i (p.length + 1 + mid.length + d.length)
        = some (p.length + 1 + mid.length + d1.length) ∧ lt x y = true ∧ (∀ z ∈ d2, lt x z = false) := by
  generalize hn : d.length = n
  induction n generalizing d with
  | zero =>
    intro p mid q i hi h
    have : d = [] := List.eq_nil_of_length_eq_zero hn
    subst this
    simp at h
  | succ n ih =>
    intro p mid q i hi h
    have hne : d ≠ [] := by intro e; subst e; simp at hn
    obtain ⟨d', w, rfl⟩ : ∃ d' w, d = d' ++ [w] := ⟨d.dropLast, d.getLast hne, (List.dropLast_concat_getLast hne).symm⟩
    have hn' : d'.length = n := by simpa using hn
    rw [← Nat.add_assoc, findGreater]
    have hrx : rd (p ++ x :: (mid ++ (d' ++ [w]) ++ q)) i = some x := rd_at' _ _ _ _ hi
    have hrw : rd (p ++ x :: (mid ++ (d' ++ [w]) ++ q)) (p.length + 1 + mid.length + n) = some w := by
      have := rd_at' (p ++ x :: (mid ++ d')) q w (p.length + 1 + mid.length + n) (by simp; omega)
      simpa using this
    rw [hrx, hrw]
    simp only
    cases hc : lt x w with
    | true =>
      exact ⟨d', w, [], by simp, by simp [hn'], hc, by simp⟩
    | false =>
      obtain ⟨d1, y, d2, e, r1, r2, r3⟩ := ih d' hn' p mid (w :: q) i hi (by
        obtain ⟨y, hy, hxy⟩ := h
        rcases List.mem_append.mp hy with h' | h'
        · exact ⟨y, h', hxy⟩
        · simp at h'; subst h'; rw [hc] at hxy; cases hxy)
      refine ⟨d1, y, d2 ++ [w], by simp [e], ?_, r2, ?_⟩
      · simp at r1 ⊢; exact r1
      · intro z hz
        rcases List.mem_append.mp hz with h' | h'
        · exact r3 z h'
        · simp at h'; subst h'; exact hc

/-- Shape of the result of `next_permutation`. -/
theorem nextPermLoop_at {lt : α → α → Bool} (hlt : StrictWeak lt) (u : List α) : ∀ (p d q : List α) (i last : Nat),
    d ≠ [] → d.Pairwise (fun a b => lt a b = false) → i = p.length + u.length →
    last = p.length + u.length + d.length →
    (nextPermLoop lt (p ++ (u ++ d) ++ q) p.length last i = some (p ++ (u ++ d).reverse ++ q, false) ∧
      (u ++ d).Pairwise (fun a b => lt a b = false)) ∨
    (∃ u' x d1 y d2, u ++ d = u' ++ x :: (d1 ++ y :: d2) ∧
      nextPermLoop lt (p ++ (u ++ d) ++ q) p.length last i
        = some (p ++ (u' ++ y :: (d1 ++ x :: d2).reverse) ++ q, true) ∧
      (d1 ++ y :: d2).Pairwise (fun a b => lt a b = false) ∧ lt x y = true ∧ (∀ z ∈ d2, lt x z = false)) := by
  generalize hn : u.length = n
  induction n generalizing u with
  | zero =>
    intro p d q i last hd hp hi hl
    have : u = [] := List.eq_nil_of_length_eq_zero hn
    subst this
    left
    refine ⟨?_, by simpa using hp⟩
    unfold nextPermLoop
    rw [if_neg (by omega)]
    have := reverse_at d p q p.length last rfl (by simpa using hl)
    simp at this ⊢
    rw [this]
  | succ n ih =>
    intro p d q i last hd hp hi hl
    have hne : u ≠ [] := by intro e; subst e; simp at hn
    obtain ⟨u', x, rfl⟩ : ∃ u' x, u = u' ++ [x] := ⟨u.dropLast, u.getLast hne, (List.dropLast_concat_getLast hne).symm⟩
    have hn' : u'.length = n := by simpa using hn
    match d, hd, hp with
    | b :: d, hd, hp =>
      unfold nextPermLoop
      rw [if_pos (by omega)]
      have hrx : rd (p ++ (u' ++ [x] ++ b :: d) ++ q) (i - 1) = some x := by
        have := rd_at' (p ++ u') (b :: d ++ q) x (i - 1) (by simp; omega)
        simpa using this
      have hrb : rd (p ++ (u' ++ [x] ++ b :: d) ++ q) i = some b := by
        have := rd_at' (p ++ (u' ++ [x])) (d ++ q) b i (by simp; omega)
        simpa using this
      rw [hrx, hrb]
      simp only
      cases hc : lt x b with
      | true =>
        right
        obtain ⟨d1, y, d2, e, r1, r2, r3⟩ := findGreater_at lt x (b :: d) (p ++ u') [] q (i - 1)
          (by simp; omega) ⟨b, by simp, hc⟩
        refine ⟨u', x, d1, y, d2, by simp [e], ?_, by rw [← e]; exact hp, r2, r3⟩
        simp only [if_true]
        have e0 : p ++ (u' ++ [x] ++ b :: d) ++ q = p ++ u' ++ x :: ([] ++ b :: d ++ q) := by simp
        have hlast : last = (p ++ u').length + 1 + ([] : List α).length + (b :: d).length := by
          simp at hl ⊢; omega
        rw [e0, hlast, r1]
        simp only
        have hsw := iterSwap_at (p ++ u') d1 (d2 ++ q) x y (i - 1)
          ((p ++ u').length + 1 + ([] : List α).length + d1.length) (by simp; omega) (by simp)
        rw [show p ++ u' ++ x :: ([] ++ b :: d ++ q) = p ++ u' ++ x :: (d1 ++ y :: (d2 ++ q)) by
          rw [e]; simp, hsw]
        simp only
        have hrev := reverse_at (d1 ++ x :: d2) (p ++ u' ++ [y]) q i
          ((p ++ u').length + 1 + ([] : List α).length + (b :: d).length) (by simp; omega)
          (by rw [e]; simp; omega)
        rw [show p ++ u' ++ y :: (d1 ++ x :: (d2 ++ q)) = p ++ u' ++ [y] ++ (d1 ++ x :: d2) ++ q by simp, hrev]
        simp
      | false =>
        simp only [Bool.false_eq_true, if_false]
        have hp' : (x :: b :: d).Pairwise (fun a b => lt a b = false) := by
          refine List.pairwise_cons.mpr ⟨?_, hp⟩
          intro z hz
          rcases List.mem_cons.mp hz with h | h
          · subst h; exact hc
          · exact hlt.le_trans ((List.pairwise_cons.mp hp).1 z h) hc
        have := ih u' hn' p (x :: b :: d) q (i - 1) last (by simp) hp' (by omega) (by simp at hl ⊢; omega)
        simpa using this

/-- `prev_permutation` is `next_permutation` under the reversed comparison. -/
theorem findLess_eq (comp : α → α → Bool) (l : List α) (i j : Nat) :
    findLess comp l i j = findGreater (fun a b => comp b a) l i j := by
  induction j with
  | zero => rfl
  | succ j ih =>
    simp only [findLess, findGreater, ih]
    cases rd l i <;> cases rd l j <;> rfl

theorem prevPermLoop_eq (comp : α → α → Bool) (l : List α) (f t i : Nat) :
    prevPermLoop comp l f t i = nextPermLoop (fun a b => comp b a) l f t i := by
  induction i with
  | zero =>
    unfold prevPermLoop nextPermLoop
    rw [if_neg (by omega), if_neg (by omega)]
  | succ i ih =>
    unfold prevPermLoop nextPermLoop
    simp only [Nat.add_sub_cancel, ih, findLess_eq]
    cases rd l i <;> cases rd l (i + 1) <;> rfl

theorem prevPermutation_eq (comp : α → α → Bool) (l : List α) (f t : Nat) :
    prevPermutation comp l f t = nextPermutation (fun a b => comp b a) l f t := by
  simp only [prevPermutation, nextPermutation, prevPermLoop_eq]

/-! lexicographic facts -/

theorem lex_cons_self {lt : α → α → Bool} (hlt : StrictWeak lt) (a : α) (s t : List α) :
    LexLt lt (a :: s) (a :: t) ↔ LexLt lt s t := by
  simp [LexLt, hlt.irrefl, Equiv]

theorem lex_append_self {lt : α → α → Bool} (hlt : StrictWeak lt) (u s t : List α) :
    LexLt lt (u ++ s) (u ++ t) ↔ LexLt lt s t := by
  induction u with
  | nil => simp
  | cons a u ih => rw [List.cons_append, List.cons_append, lex_cons_self hlt, ih]

/-- A sorted sequence is lexicographically least among its permutations. -/
theorem sorted_lex_min {lt : α → α → Bool} (hlt : StrictTotal lt) (r : List α) (hr : Sorted lt r) :
    ∀ s, s.Perm r → ¬ LexLt lt s r := by
  induction r with
  | nil => intro s _; simp [LexLt]
  | cons w r ih =>
    intro s hs hlex
    have hw := List.pairwise_cons.mp hr
    match s, hs, hlex with
    | [], hs, _ => simpa using hs.length_eq
    | z :: s, hs, hlex =>
      have hz : z ∈ w :: r := hs.subset (by simp)
      have hzw : lt z w = false := by
        rcases List.mem_cons.mp hz with h | h
        · subst h; exact hlt.irrefl _
        · exact hw.1 z h
      rcases hlex with h | ⟨he, h⟩
      · rw [hzw] at h; cases h
      · have := hlt.eq_of_equiv z w he
        subst this
        exact ih hw.2 s ((List.perm_cons z).mp hs) h

/-- A non-increasing sequence is lexicographically greatest among its permutations. -/
theorem antisorted_lex_max {lt : α → α → Bool} (hlt : StrictTotal lt) (r : List α)
    (hr : r.Pairwise (fun a b => lt a b = false)) :
    ∀ s, s.Perm r → ¬ LexLt lt r s := by
  induction r with
  | nil => intro s hs; have := hs.eq_nil; subst this; simp [LexLt]
  | cons w r ih =>
    intro s hs hlex
    have hw := List.pairwise_cons.mp hr
    match s, hs, hlex with
    | [], hs, _ => simpa using hs.length_eq
    | z :: s, hs, hlex =>
      have hz : z ∈ w :: r := hs.subset (by simp)
      have hzw : lt w z = false := by
        rcases List.mem_cons.mp hz with h | h
        · subst h; exact hlt.irrefl _
        · exact hw.1 z h
      rcases hlex with h | ⟨he, h⟩
      · rw [hzw] at h; cases h
      · have := hlt.eq_of_equiv w z he
        subst this
        exact ih hw.2 s ((List.perm_cons w).mp hs) h

/-- The shape produced by `nextPermLoop` is the immediate successor. -/
theorem next_is_successor {lt : α → α → Bool} (hlt : StrictTotal lt) (x y : α) (d1 d2 : List α)
    (hp : (d1 ++ y :: d2).Pairwise (fun a b => lt a b = false)) (hxy : lt x y = true)
    (hd2 : ∀ z ∈ d2, lt x z = false) (u : List α) :
    LexLt lt (u ++ x :: (d1 ++ y :: d2)) (u ++ y :: (d1 ++ x :: d2).reverse) ∧
    ∀ s, s.Perm (u ++ x :: (d1 ++ y :: d2)) → LexLt lt (u ++ x :: (d1 ++ y :: d2)) s →
      ¬ LexLt lt s (u ++ y :: (d1 ++ x :: d2).reverse) := by
  have hw := hlt.toStrictWeak
  refine ⟨(lex_append_self hw _ _ _).mpr (Or.inl hxy), ?_⟩
  induction u with
  | nil =>
    intro s hs hlex hcon
    simp only [List.nil_append] at *
    match s, hs, hlex, hcon with
    | [], hs, _, _ => simpa using hs.length_eq
    | z :: s, hs, hlex, hcon =>
      rcases hlex with hxz | ⟨he, hl⟩
      · -- x < z, so z is in d1 ++ y :: d2, hence not in d2
        have hz : z ∈ d1 ++ y :: d2 := by
          rcases List.mem_cons.mp (hs.subset (show z ∈ z :: s by simp)) with h | h
          · subst h; rw [hw.irrefl] at hxz; cases hxz
          · exact h
        have hpp := List.pairwise_append.mp hp
        have hzy : lt z y = false := by
          rcases List.mem_append.mp hz with h | h
          · exact hpp.2.2 z h y (by simp)
          · rcases List.mem_cons.mp h with h | h
            · subst h; exact hw.irrefl _
            · rw [hd2 z h] at hxz; cases hxz
        rcases hcon with h | ⟨he, hl⟩
        · rw [hzy] at h; cases h
        · have := hlt.eq_of_equiv z y he
          subst this
          -- s is a permutation of d1 ++ x :: d2, whose reverse is sorted
          have hperm : s.Perm (d1 ++ x :: d2).reverse := by
            have h1 : (z :: s).Perm (z :: (d1 ++ x :: d2)) := by
              refine hs.trans ?_
              have h2 : (x :: (d1 ++ z :: d2)).Perm (x :: z :: (d1 ++ d2)) := List.perm_middle.cons x
              have h3 : (z :: (d1 ++ x :: d2)).Perm (z :: x :: (d1 ++ d2)) := List.perm_middle.cons z
              exact h2.trans ((List.Perm.swap z x _).trans h3.symm)
            exact ((List.perm_cons z).mp h1).trans (List.reverse_perm _).symm
          refine sorted_lex_min hlt _ ?_ s hperm hl
          rw [Sorted, List.pairwise_reverse]
          -- d1 ++ x :: d2 non-increasing
          refine List.pairwise_append.mpr ⟨hpp.1, List.pairwise_cons.mpr ⟨hd2, (List.pairwise_cons.mp hpp.2.1).2⟩, ?_⟩
          intro a ha b hb
          rcases List.mem_cons.mp hb with e | e
          · subst e
            exact hw.le_trans (hw.asymm hxy) (hpp.2.2 a ha z (by simp))
          · exact hpp.2.2 a ha b (by simp [e])
      · have := hlt.eq_of_equiv x z he
        subst this
        exact antisorted_lex_max hlt _ hp s ((List.perm_cons x).mp hs) hl
  | cons c u ih =>
    intro s hs hlex hcon
    match s, hs, hlex, hcon with
    | [], hs, _, _ => simpa using hs.length_eq
    | z :: s, hs, hlex, hcon =>
      simp only [List.cons_append] at hs hlex hcon
      rcases hlex with h | ⟨he, hl⟩
      · rcases hcon with h' | ⟨he', _⟩
        · have := hw.trans _ _ _ h h'; rw [hw.irrefl] at this; cases this
        · rw [he'.2] at h; cases h
      · have := hlt.eq_of_equiv c z he
        subst this
        rw [lex_cons_self hw] at hcon
        exact ih s ((List.perm_cons c).mp hs) hl hcon

theorem nextPermutation_shape {lt : α → α → Bool} (hlt : StrictTotal lt) (p m q : List α) :
    ∃ r b, nextPermutation lt (p ++ m ++ q) p.length (p.length + m.length) = some (p ++ r ++ q, b) ∧
      r.Perm m ∧
      (b = true → LexLt lt m r ∧ ∀ s, s.Perm m → LexLt lt m s → ¬ LexLt lt s r) ∧
      (b = false → Sorted lt r ∧ ∀ s, s.Perm m → ¬ LexLt lt m s) := by
  unfold nextPermutation
  rw [Nat.add_sub_cancel_left]
  by_cases h2 : m.length < 2
  · rw [if_pos h2]
    refine ⟨m, false, rfl, .refl _, by simp, fun _ => ?_⟩
    match m, h2 with
    | [], _ => exact ⟨List.Pairwise.nil, fun s hs => antisorted_lex_max hlt [] List.Pairwise.nil s hs⟩
    | [x], _ => exact ⟨List.pairwise_singleton _ _, fun s hs => antisorted_lex_max hlt [x] (List.pairwise_singleton _ _) s hs⟩
    | x :: y :: m, h => simp at h; omega
  · rw [if_neg h2]
    have hne : m ≠ [] := by intro e; subst e; simp at h2
    obtain ⟨u, w, rfl⟩ : ∃ u w, m = u ++ [w] := ⟨m.dropLast, m.getLast hne, (List.dropLast_concat_getLast hne).symm⟩
    rcases nextPermLoop_at hlt.toStrictWeak u p [w] q (p.length + (u ++ [w]).length - 1) (p.length + (u ++ [w]).length)
      (by simp) (List.pairwise_singleton _ _) (by simp) (by simp; omega) with ⟨h, hp⟩ | ⟨u', x, d1, y, d2, e, h, hp, hxy, hd2⟩
    · refine ⟨(u ++ [w]).reverse, false, h, List.reverse_perm _, by simp, fun _ => ⟨?_, antisorted_lex_max hlt _ hp⟩⟩
      rw [Sorted, List.pairwise_reverse]; exact hp
    · refine ⟨_, true, h, ?_, fun _ => ?_, by simp⟩
      · rw [e]
        refine List.Perm.append_left u' ?_
        have h1 : (d1 ++ x :: d2).reverse.Perm (x :: (d1 ++ d2)) := (List.reverse_perm _).trans List.perm_middle
        have h2 : (x :: (d1 ++ y :: d2)).Perm (x :: y :: (d1 ++ d2)) := List.perm_middle.cons x
        exact ((h1.cons y).trans (List.Perm.swap x y _)).trans h2.symm
      · rw [e]
        exact next_is_successor hlt x y d1 d2 hp hxy hd2 u'

/-! ### partial_sort_copy -/

theorem copyBackward_shift (m : List α) : ∀ (p q : List α) (x : α) (f t r : Nat), f = p.length →
    t = p.length + m.length → r = t + 1 →
    ∃ y, copyBackward (p ++ m ++ x :: q) f t r = some (p ++ y :: m ++ q) := by
  generalize hn : m.length = n
  induction n generalizing m with
  | zero =>
    intro p q x f t r hf ht hr
    have : m = [] := List.eq_nil_of_length_eq_zero hn
    subst this
    unfold copyBackward
    rw [if_neg (by omega), if_pos (by omega)]
    exact ⟨x, by simp⟩
  | succ n ih =>
    intro p q x f t r hf ht hr
    have hne : m ≠ [] := by intro e; subst e; simp at hn
    obtain ⟨m', w, rfl⟩ : ∃ m' w, m = m' ++ [w] := ⟨m.dropLast, m.getLast hne, (List.dropLast_concat_getLast hne).symm⟩
    have hn' : m'.length = n := by simpa using hn
    unfold copyBackward
    rw [if_pos (by omega), if_neg (by omega)]
    have hr1 : rd (p ++ (m' ++ [w]) ++ x :: q) (t - 1) = some w := by
      have := rd_at' (p ++ m') (x :: q) w (t - 1) (by simp; omega)
      simpa using this
    have hw1 : wr (p ++ (m' ++ [w]) ++ x :: q) (r - 1) w = some (p ++ (m' ++ [w]) ++ w :: q) :=
      wr_at' _ _ _ _ _ (by simp; omega)
    rw [hr1]; simp only; rw [hw1]; simp only
    obtain ⟨y, hy⟩ := ih m' hn' p (w :: q) w f (t - 1) (r - 1) hf (by omega) (by omega)
    refine ⟨y, ?_⟩
    simp at hy ⊢; exact hy

theorem pscScan_at (lt : α → α → Bool) (x : α) (s : List α) : ∀ (lo q : List α) (rend : Nat),
    rend = lo.length + s.length →
    ∃ lo' hi, s = lo' ++ hi ∧ pscScan lt (lo ++ s ++ q) x lo.length rend = some (lo.length + lo'.length) ∧
      (∀ y ∈ lo', lt y x = true) ∧ (∀ y, hi.head? = some y → lt y x = false) := by
  induction s with
  | nil =>
    intro lo q rend hr
    unfold pscScan
    rw [if_neg (by simp at hr; omega)]
    exact ⟨[], [], rfl, by simp, by simp, by simp⟩
  | cons z s ih =>
    intro lo q rend hr
    unfold pscScan
    rw [if_pos (by simp at hr; omega)]
    have h1 : rd (lo ++ z :: s ++ q) lo.length = some z := by simp
    rw [h1]
    simp only
    cases hc : lt z x with
    | true =>
      obtain ⟨lo', hi, e, r1, r2, r3⟩ := ih (lo ++ [z]) q rend (by simp at hr ⊢; omega)
      refine ⟨z :: lo', hi, by simp [e], ?_, ?_, r3⟩
      · simp at r1 ⊢; rw [r1]; simp; omega
      · intro y hy
        rcases List.mem_cons.mp hy with h | h
        · subst h; exact hc
        · exact r2 y h
    | false => exact ⟨[], z :: s, by simp, by simp, by simp, by simp [hc]⟩

theorem pscLoop_at {lt : α → α → Bool} (hlt : StrictWeak lt) (xs : List α) :
    ∀ (s rest junk seen : List α), Sorted lt s → (s ++ rest).Perm seen →
    (∀ a ∈ s, ∀ b ∈ rest, lt b a = false) → (junk ≠ [] → rest = []) →
    ∃ s' rest' junk', pscLoop lt xs (s ++ junk) s.length = some (s' ++ junk', s'.length) ∧
      (s' ++ junk').length = (s ++ junk).length ∧
      Sorted lt s' ∧ (s' ++ rest').Perm (seen ++ xs) ∧ (∀ a ∈ s', ∀ b ∈ rest', lt b a = false) ∧
      (junk' ≠ [] → rest' = []) ∧ junk' <:+ junk := by
  induction xs with
  | nil =>
    intro s rest junk seen h1 h2 h3 h4
    exact ⟨s, rest, junk, rfl, rfl, h1, by simpa using h2, h3, h4, List.suffix_refl _⟩
  | cons x xs ih =>
    intro s rest junk seen h1 h2 h3 h4
    unfold pscLoop
    obtain ⟨lo, hi, e, r1, r2, r3⟩ := pscScan_at lt x s [] junk s.length (by simp)
    simp only [List.nil_append, List.length_nil, Nat.zero_add] at r1
    rw [r1]
    simp only
    subst e
    have hpp := List.pairwise_append.mp h1
    have hhi : ∀ y ∈ hi, lt y x = false := by
      intro y hy
      match hi, hy, r3, hpp with
      | z :: hi, hy, r3, hpp =>
        have hz := r3 z (by simp)
        rcases List.mem_cons.mp hy with h | h
        · subst h; exact hz
        · exact hlt.le_trans hz ((List.pairwise_cons.mp hpp.2.1).1 y h)
    by_cases hfull : lo.length = (lo ++ hi ++ junk).length
    · -- destination full of smaller elements: x is dropped
      rw [if_pos hfull]
      have : hi = [] ∧ junk = [] := by
        simpa using hfull
      obtain ⟨rfl, rfl⟩ := this
      obtain ⟨s', rest', junk', g1, g2, g3, g4, g5, g6, g7⟩ := ih (lo ++ []) (x :: rest) [] (seen ++ [x]) h1
        (by
          have := (List.perm_middle (a := x) (l₁ := lo ++ []) (l₂ := rest)).trans (h2.cons x)
          exact this.trans (List.perm_append_comm (l₁ := [x]) (l₂ := seen)))
        (by
          intro a ha b hb
          rcases List.mem_cons.mp hb with h | h
          · subst h; exact hlt.asymm (r2 a (by simpa using ha))
          · exact h3 a ha b h)
        (by simp)
      refine ⟨s', rest', junk', g1, g2, g3, ?_, g5, g6, g7⟩
      simpa using g4
    · rw [if_neg hfull]
      have hsortIns : Sorted lt (lo ++ x :: hi) := by
        refine List.pairwise_append.mpr ⟨hpp.1, List.pairwise_cons.mpr ⟨hhi, hpp.2.1⟩, ?_⟩
        intro a ha b hb
        rcases List.mem_cons.mp hb with h | h
        · subst h; exact hlt.asymm (r2 a ha)
        · exact hpp.2.2 a ha b h
      match junk, h4 with
      | j :: junk, h4 =>
        -- room left
        have hrest : rest = [] := h4 (by simp)
        subst hrest
        rw [if_pos (by simp)]
        obtain ⟨y, hcb⟩ := copyBackward_shift hi lo junk j lo.length ((lo ++ hi).length + 1 - 1) ((lo ++ hi).length + 1)
          rfl (by simp) (by simp)
        rw [hcb]
        simp only
        rw [show lo ++ y :: hi ++ junk = lo ++ y :: (hi ++ junk) by simp, wr_at]
        simp only
        obtain ⟨s', rest', junk', g1, g2, g3, g4, g5, g6, g7⟩ := ih (lo ++ x :: hi) [] junk (seen ++ [x]) hsortIns
          (by
            simp only [List.append_nil] at h2 ⊢
            exact (List.perm_middle.trans (h2.cons x)).trans (List.perm_append_comm (l₁ := [x]) (l₂ := seen)))
          (by simp) (by simp)
        refine ⟨s', rest', junk', ?_, ?_, g3, by simpa using g4, g5, g6, g7.trans (List.suffix_cons _ _)⟩
        · have : (lo ++ x :: hi).length = (lo ++ hi).length + 1 := by simp; omega
          rw [this] at g1
          simpa using g1
        · rw [g2]; simp; omega
      | [], h4 =>
        -- full: the greatest falls off
        have hne : hi ≠ [] := by intro e; subst e; simp at hfull
        obtain ⟨hi', w, rfl⟩ : ∃ hi' w, hi = hi' ++ [w] := ⟨hi.dropLast, hi.getLast hne, (List.dropLast_concat_getLast hne).symm⟩
        rw [if_neg (by simp)]
        obtain ⟨y, hcb⟩ := copyBackward_shift hi' lo [] w lo.length ((lo ++ (hi' ++ [w])).length + 0 - 1)
          ((lo ++ (hi' ++ [w])).length + 0) rfl (by simp) (by simp; omega)
        rw [show lo ++ (hi' ++ [w]) ++ [] = lo ++ hi' ++ w :: [] by simp, hcb]
        simp only
        rw [show lo ++ y :: hi' ++ [] = lo ++ y :: hi' by simp, wr_at]
        simp only
        have hs' : Sorted lt (lo ++ x :: hi') := by
          have : lo ++ x :: (hi' ++ [w]) = (lo ++ x :: hi') ++ [w] := by simp
          rw [this] at hsortIns
          exact (List.pairwise_append.mp hsortIns).1
        have hle : ∀ a ∈ lo ++ x :: hi', lt w a = false := by
          have : lo ++ x :: (hi' ++ [w]) = (lo ++ x :: hi') ++ [w] := by simp
          rw [this] at hsortIns
          intro a ha
          exact (List.pairwise_append.mp hsortIns).2.2 a ha w (by simp)
        obtain ⟨s', rest', junk', g1, g2, g3, g4, g5, g6, g7⟩ := ih (lo ++ x :: hi') (w :: rest) [] (seen ++ [x]) hs'
          (by
            have q1 : ((lo ++ x :: hi') ++ w :: rest).Perm (x :: (lo ++ (hi' ++ [w]) ++ rest)) := by
              have : (lo ++ x :: hi') ++ w :: rest = lo ++ x :: (hi' ++ [w] ++ rest) := by simp
              rw [this]
              have := List.perm_middle (a := x) (l₁ := lo) (l₂ := hi' ++ [w] ++ rest)
              simpa using this
            exact (q1.trans (h2.cons x)).trans (List.perm_append_comm (l₁ := [x]) (l₂ := seen)))
          (by
            intro a ha b hb
            rcases List.mem_cons.mp hb with h | h
            · subst h; exact hle a ha
            · -- b in rest, w in old s: ¬ b < w; ¬ w < a
              exact hlt.le_trans (hle a ha) (h3 w (by simp) b h))
          (by simp)
        refine ⟨s', rest', junk', ?_, ?_, g3, by simpa using g4, g5, g6, g7⟩
        · have : (lo ++ x :: hi').length = (lo ++ (hi' ++ [w])).length + 0 := by simp
          rw [this] at g1
          simpa using g1
        · rw [g2]; simp

end Ustl.Permute
