import Verif.Permute.Model
namespace Ustl.Permute
variable {α : Type _}

theorem reverse_at (m : List α) : ∀ (p q : List α) (f t : Nat), f = p.length → t = p.length + m.length →
    reverse (p ++ m ++ q) f t = some (p ++ m.reverse ++ q) := by
  generalize hn : m.length = n
  induction n using Nat.strongRecOn generalizing m with
  | ind n ih =>
    intro p q f t hf ht
    unfold reverse
    by_cases h : f + 1 < t
    · -- m = x :: m' ++ [y]
      simp only [h, if_true]
      match m, hn with
      | [], hn => simp at hn; omega
      | x :: m1, hn =>
        have hm1 : m1 ≠ [] := by intro e; subst e; simp at hn; omega
        obtain ⟨m', y, rfl⟩ : ∃ m' y, m1 = m' ++ [y] := ⟨m1.dropLast, m1.getLast hm1, (List.dropLast_concat_getLast hm1).symm⟩
        have hsw := iterSwap_at p m' q x y f (t - 1) hf (by simp at hn; omega)
        have e1 : p ++ x :: (m' ++ [y]) ++ q = p ++ x :: (m' ++ y :: q) := by simp
        rw [e1, hsw]
        simp only
        have := ih m'.length (by simp at hn; omega) m' rfl (p ++ [y]) (x :: q) (f + 1) (t - 1) (by simp [hf])
          (by simp at hn ⊢; omega)
        simp at this ⊢
        exact this
    · simp only [h, if_false]
      match m, hn with
      | [], hn => simp
      | [x], hn => simp
      | x :: y :: m', hn => simp at hn; omega

theorem reverseCopy_at (m : List α) : ∀ (p q : List α) (f t : Nat), f = p.length → t = p.length + m.length →
    reverseCopy (p ++ m ++ q) f t = some m.reverse := by
  generalize hn : m.length = n
  induction n generalizing m with
  | zero =>
    intro p q f t hf ht
    have : m = [] := List.eq_nil_of_length_eq_zero hn
    subst this
    unfold reverseCopy
    simp [hf, ht]
  | succ n ih =>
    intro p q f t hf ht
    have hne : m ≠ [] := by intro e; subst e; simp at hn
    obtain ⟨m', y, rfl⟩ : ∃ m' y, m = m' ++ [y] := ⟨m.dropLast, m.getLast hne, (List.dropLast_concat_getLast hne).symm⟩
    unfold reverseCopy
    have e1 : p ++ (m' ++ [y]) ++ q = (p ++ m') ++ y :: q := by simp
    have hr : rd (p ++ (m' ++ [y]) ++ q) (t - 1) = some y := by
      rw [e1, rd_at' _ _ _ _ (by simp at hn ⊢; omega)]
    rw [if_pos (by omega), hr]
    have := ih m' (by simpa using hn) p (y :: q) f (t - 1) hf (by simp at hn ⊢; omega)
    simp at this ⊢
    exact this

/-- The swapping loop followed by the final reversal is a plain reversal. -/
theorem rotateLoop_reverse : ∀ (t : Nat) (l : List α) (f m : Nat), f ≤ m → m ≤ t → t ≤ l.length →
    ∃ l' f' t', rotateLoop l f m t = some (l', f', t') ∧
      reverse l' f' (if f' = m then t' else m) = reverse l f t := by
  intro t
  induction t with
  | zero =>
    intro l f m h1 h2 _
    have : f = 0 ∧ m = 0 := by omega
    obtain ⟨rfl, rfl⟩ := this
    unfold rotateLoop
    exact ⟨l, 0, 0, by simp, by simp⟩
  | succ t ih =>
    intro l f m h1 h2 h3
    unfold rotateLoop
    by_cases h : f ≠ m ∧ m ≠ t + 1
    · rw [if_pos h]
      obtain ⟨ha, hb⟩ := h
      simp only [Nat.add_sub_cancel]
      have hsw : ∃ l', iterSwap l f t = some l' ∧ l'.length = l.length := by
        simp only [iterSwap, rd_eq_some l f (by omega), rd_eq_some l t (by omega), Option.bind_eq_bind,
          Option.bind_some]
        rw [wr_eq_some _ _ _ (by omega)]
        simp only [Option.bind_some]
        rw [wr_eq_some _ _ _ (by simp; omega)]
        exact ⟨_, rfl, by simp⟩
      obtain ⟨l', hl', hlen⟩ := hsw
      rw [if_neg (by omega), hl']
      simp only
      obtain ⟨l2, f2, t2, r1, r2⟩ := ih l' (f + 1) m (by omega) (by omega) (by omega)
      refine ⟨l2, f2, t2, r1, ?_⟩
      rw [r2]
      conv => rhs; unfold reverse
      rw [if_pos (by omega)]
      simp only [Nat.add_sub_cancel, hl']
    · rw [if_neg h]
      refine ⟨l, f, t + 1, rfl, ?_⟩
      by_cases e : f = m
      · rw [if_pos e]
      · rw [if_neg e]
        have : m = t + 1 := by
          by_cases e2 : m = t + 1
          · exact e2
          · exact absurd ⟨e, e2⟩ h
        rw [this]

theorem rotate_at (a b p q : List α) (f m t : Nat) (hf : f = p.length) (hm : m = p.length + a.length)
    (ht : t = p.length + a.length + b.length) :
    ∃ r, rotate (p ++ a ++ b ++ q) f m t = some (p ++ b ++ a ++ q, r) := by
  unfold rotate
  by_cases h : f = m ∨ m = t
  · rw [if_pos h]
    refine ⟨f, ?_⟩
    rcases h with h | h
    · have : a = [] := List.eq_nil_of_length_eq_zero (by omega)
      subst this; simp
    · have : b = [] := List.eq_nil_of_length_eq_zero (by omega)
      subst this; simp
  · rw [if_neg h]
    have e1 := reverse_at a p (b ++ q) f m hf hm
    simp only [List.append_assoc] at e1 ⊢
    rw [e1]
    simp only
    have e2 := reverse_at b (p ++ a.reverse) q m t (by simp [hm]) (by simp [ht])
    simp only [List.append_assoc] at e2
    rw [e2]
    simp only
    obtain ⟨l', f', t', r1, r2⟩ := rotateLoop_reverse t (p ++ (a.reverse ++ (b.reverse ++ q))) f m
      (by omega) (by omega) (by simp; omega)
    rw [r1]
    simp only
    rw [r2]
    have e3 := reverse_at (a.reverse ++ b.reverse) p q f t hf (by simp; omega)
    simp only [List.append_assoc] at e3
    rw [e3]
    exact ⟨f', by simp⟩

theorem swapRanges_at (a : List α) : ∀ (p mid b q : List α) (f t r : Nat), a.length = b.length → f = p.length →
    t = p.length + a.length → r = p.length + a.length + mid.length →
    swapRanges (p ++ a ++ mid ++ b ++ q) f t r = some (p ++ b ++ mid ++ a ++ q, r + b.length) := by
  induction a with
  | nil =>
    intro p mid b q f t r hl hf ht hr
    have : b = [] := List.eq_nil_of_length_eq_zero (by simpa using hl.symm)
    subst this
    unfold swapRanges
    simp [hf, ht]
  | cons x a ih =>
    intro p mid b q f t r hl hf ht hr
    match b, hl with
    | y :: b, hl =>
      unfold swapRanges
      rw [if_pos (by simp at ht; omega)]
      have hsw := iterSwap_at p (a ++ mid) (b ++ q) x y f r hf (by simp at hr ⊢; omega)
      simp at hsw ⊢
      rw [hsw]
      simp only
      have := ih (p ++ [y]) (mid ++ [x]) b q (f + 1) t (r + 1) (by simpa using hl) (by simp [hf])
        (by simp at ht ⊢; omega) (by simp at hr ⊢; omega)
      simp at this
      rw [this]
      simp; omega

/-! ### stable_sort -/

theorem insertPos_at (lt : α → α → Bool) (x : α) (s : List α) : ∀ (p hi q : List α) (i : Nat),
    (∀ y ∈ hi, lt x y = true) → i = p.length + s.length + hi.length →
    ∃ lo hi', s = lo ++ hi' ∧ insertPos lt (p ++ s ++ hi ++ x :: q) p.length i (p.length + s.length)
        = some (p.length + lo.length) ∧ (∀ y ∈ hi', lt x y = true) ∧
        (∀ y, lo.getLast? = some y → lt x y = false) := by
  generalize hn : s.length = n
  induction n generalizing s with
  | zero =>
    intro p hi q i h1 h2
    have : s = [] := List.eq_nil_of_length_eq_zero hn
    subst this
    refine ⟨[], [], rfl, ?_, by simp, by simp⟩
    simp only [List.length_nil, Nat.add_zero]
    cases hp : p.length with
    | zero => rfl
    | succ k => unfold insertPos; rw [if_neg (by omega)]
  | succ n ih =>
    intro p hi q i h1 h2
    have hne : s ≠ [] := by intro e; subst e; simp at hn
    obtain ⟨s', y, rfl⟩ : ∃ s' y, s = s' ++ [y] := ⟨s.dropLast, s.getLast hne, (List.dropLast_concat_getLast hne).symm⟩
    have hn' : s'.length = n := by simpa using hn
    have hry : rd (p ++ (s' ++ [y]) ++ hi ++ x :: q) (p.length + n) = some y := by
      have := rd_at (p ++ s') (hi ++ x :: q) y
      simp [hn'] at this ⊢; exact this
    have hrx : rd (p ++ (s' ++ [y]) ++ hi ++ x :: q) i = some x :=
      rd_at' _ _ _ _ (by simp; omega)
    rw [← Nat.add_assoc]
    unfold insertPos
    rw [if_pos (by omega), hrx, hry]
    simp only
    cases hc : lt x y with
    | true =>
      simp only [if_true]
      obtain ⟨lo, hi', e, r1, r2, r3⟩ := ih s' hn' p (y :: hi) q i (by
        intro z hz
        rcases List.mem_cons.mp hz with h | h
        · subst h; exact hc
        · exact h1 z h) (by simp; omega)
      refine ⟨lo, hi' ++ [y], by simp [e], ?_, ?_, r3⟩
      · simp at r1 ⊢; exact r1
      · intro z hz
        rcases List.mem_append.mp hz with h | h
        · exact r2 z h
        · simp at h; subst h; exact hc
    | false =>
      refine ⟨s' ++ [y], [], by simp, ?_, by simp, ?_⟩
      · simp; omega
      · intro z hz; simp at hz; subst hz; exact hc

/-- Boolean equivalence test used in stability statements. -/
def equivB (lt : α → α → Bool) (a b : α) : Bool := !lt a b && !lt b a

theorem stableSortLoop_at {lt : α → α → Bool} (hlt : StrictWeak lt) (rest : List α) :
    ∀ (p s q : List α) (i last : Nat), Sorted lt s → s ≠ [] → i + 1 = p.length + s.length →
    last = p.length + s.length + rest.length →
    ∃ r, stableSortLoop lt (p ++ s ++ rest ++ q) p.length i last = some (p ++ r ++ q) ∧
      r.Perm (s ++ rest) ∧ Sorted lt r ∧ (∀ a, r.filter (equivB lt a) = (s ++ rest).filter (equivB lt a)) := by
  induction rest with
  | nil =>
    intro p s q i last hs hne hi hl
    unfold stableSortLoop
    rw [if_neg (by simp at hl; omega)]
    exact ⟨s, by simp, by simp, hs, by simp⟩
  | cons x rest ih =>
    intro p s q i last hs hne hi hl
    unfold stableSortLoop
    rw [if_pos (by simp at hl; omega)]
    obtain ⟨lo, hi', e, r1, r2, r3⟩ := insertPos_at lt x s p [] (rest ++ q) (i + 1) (by simp) (by simp; omega)
    have hmem : p ++ s ++ x :: rest ++ q = p ++ s ++ [] ++ x :: (rest ++ q) := by simp
    rw [hmem]
    rw [show insertPos lt (p ++ s ++ [] ++ x :: (rest ++ q)) p.length (i + 1) (i + 1)
      = some (p.length + lo.length) by rw [← r1]; congr 1]
    simp only
    subst e
    -- the new sorted prefix
    have hsort : Sorted lt (lo ++ x :: hi') := by
      have h := List.pairwise_append.mp hs
      have hlo : ∀ y ∈ lo, lt x y = false := by
        intro y hy
        have hlone : lo ≠ [] := List.ne_nil_of_mem hy
        have hlast := r3 (lo.getLast hlone) (List.getLast?_eq_some_getLast hlone)
        rcases (show y ∈ lo.dropLast ∨ y = lo.getLast hlone by
          rw [← List.dropLast_concat_getLast hlone] at hy
          simpa using hy) with hd | hd
        · have hp := h.1
          rw [← List.dropLast_concat_getLast hlone] at hp
          have := (List.pairwise_append.mp hp).2.2 y hd (lo.getLast hlone) (by simp)
          exact hlt.le_trans this hlast
        · rw [hd]; exact hlast
      refine List.pairwise_append.mpr ⟨h.1, List.pairwise_cons.mpr ⟨?_, h.2.1⟩, ?_⟩
      · intro y hy; exact hlt.asymm (r2 y hy)
      · intro y hy z hz
        rcases List.mem_cons.mp hz with e | e
        · subst e; exact hlo y hy
        · exact h.2.2 y hy z e
    have hfilt : ∀ a, (lo ++ x :: hi').filter (equivB lt a) = (lo ++ hi' ++ [x]).filter (equivB lt a) := by
      intro a
      by_cases hax : equivB lt a x = true
      · have : hi'.filter (equivB lt a) = [] := by
          rw [List.filter_eq_nil_iff]
          intro y hy hay
          have hxy := r2 y hy
          simp only [equivB, Bool.and_eq_true, Bool.not_eq_true'] at hax hay
          have := (hlt.incompTrans x a y hax.2 hax.1 hay.1 hay.2).1
          rw [hxy] at this; cases this
        simp [hax, this]
      · simp [hax]
    have hrec : ∃ r, stableSortLoop lt (p ++ (lo ++ x :: hi') ++ rest ++ q) p.length (i + 1) last
        = some (p ++ r ++ q) ∧ r.Perm ((lo ++ x :: hi') ++ rest) ∧ Sorted lt r ∧
        (∀ a, r.filter (equivB lt a) = ((lo ++ x :: hi') ++ rest).filter (equivB lt a)) :=
      ih p (lo ++ x :: hi') q (i + 1) last hsort (by simp) (by simp at hi ⊢; omega) (by simp at hl ⊢; omega)
    obtain ⟨r, g1, g2, g3, g4⟩ := hrec
    have hperm : (lo ++ x :: hi' ++ rest).Perm (lo ++ hi' ++ x :: rest) := by
      have h1 : (x :: (hi' ++ rest)).Perm (hi' ++ x :: rest) := List.perm_middle.symm
      have := h1.append_left lo
      simpa using this
    have hres : r.Perm (lo ++ hi' ++ x :: rest) ∧ Sorted lt r ∧
        (∀ a, r.filter (equivB lt a) = (lo ++ hi' ++ x :: rest).filter (equivB lt a)) := by
      refine ⟨g2.trans hperm, g3, ?_⟩
      intro a
      rw [g4 a, List.filter_append, hfilt a, ← List.filter_append]
      simp
    refine ⟨r, ?_, hres⟩
    by_cases hj : p.length + lo.length = i + 1
    · have : hi' = [] := List.eq_nil_of_length_eq_zero (by simp at hi; omega)
      subst this
      rw [if_neg (by simpa using hj)]
      simp at g1 ⊢
      exact g1
    · rw [if_pos hj]
      obtain ⟨rr, hrot⟩ := rotate_at hi' [x] (p ++ lo) (rest ++ q) (p.length + lo.length) (i + 1) (i + 2)
        (by simp) (by simp at hi ⊢; omega) (by simp at hi ⊢; omega)
      have e2 : p ++ (lo ++ hi') ++ [] ++ x :: (rest ++ q) = p ++ lo ++ hi' ++ [x] ++ (rest ++ q) := by simp
      rw [e2, hrot]
      simp only
      have e3 : p ++ lo ++ [x] ++ hi' ++ (rest ++ q) = p ++ (lo ++ x :: hi') ++ rest ++ q := by simp
      rw [e3]
      exact g1

theorem stableSort_at {lt : α → α → Bool} (hlt : StrictWeak lt) (p m q : List α) :
    ∃ r, stableSort lt (p ++ m ++ q) p.length (p.length + m.length) = some (p ++ r ++ q) ∧
      r.Perm m ∧ Sorted lt r ∧ (∀ a, r.filter (equivB lt a) = m.filter (equivB lt a)) := by
  unfold stableSort
  cases m with
  | nil =>
    unfold stableSortLoop
    simp only [List.length_nil, Nat.add_zero]
    rw [if_neg (by omega)]
    exact ⟨[], by simp, .refl _, List.Pairwise.nil, by simp⟩
  | cons x m =>
    have := stableSortLoop_at hlt m p [x] q p.length (p.length + (x :: m).length)
      (List.pairwise_singleton _ _) (by simp) (by simp) (by simp; omega)
    simpa using this

/-! ### stable_partition -/

theorem filter_length_add (p : α → Bool) (l : List α) :
    l.length = (l.filter p).length + (l.filter (fun x => !p x)).length := by
  induction l with
  | nil => rfl
  | cons x l ih => cases h : p x <;> simp [h] <;> omega


theorem stablePartition_at (pred : α → Bool) (m : List α) : ∀ (p q : List α) (f t : Nat), f = p.length →
    t = p.length + m.length →
    stablePartition pred (p ++ m ++ q) f t =
      some (p ++ (m.filter pred ++ m.filter (fun x => !pred x)) ++ q, p.length + (m.filter pred).length) := by
  generalize hn : m.length = n
  induction n using Nat.strongRecOn generalizing m with
  | ind n ih =>
    intro p q f t hf ht
    unfold stablePartition
    by_cases h0 : f = t
    · have : m = [] := List.eq_nil_of_length_eq_zero (by omega)
      subst this
      simp [h0, hf]; omega
    · rw [if_neg h0, if_neg (by omega)]
      simp only
      by_cases h1 : f = f + (t - f) / 2
      · rw [if_pos h1]
        match m, hn with
        | [x], hn =>
          have hr : rd (p ++ [x] ++ q) f = some x := by
            subst hf; simp
          rw [hr]
          cases hp : pred x <;> simp [hp] <;> simp at hn <;> omega
        | [], hn => simp at hn; omega
        | x :: y :: m', hn => simp at hn; omega
      · rw [if_neg h1]
        obtain ⟨a, b, e, ha⟩ : ∃ a b, m = a ++ b ∧ a.length = n / 2 :=
          ⟨m.take (n / 2), m.drop (n / 2), by simp, by simp; omega⟩
        subst e
        have hmid : f + (t - f) / 2 = p.length + a.length := by omega
        rw [hmid]
        have hb : b.length = n - n / 2 := by simp at hn; omega
        have r1 := ih a.length (by omega) a rfl p (b ++ q) f (p.length + a.length) hf rfl
        simp only [List.append_assoc] at r1 ⊢
        rw [r1]
        simp only
        have r2 := ih b.length (by omega) b rfl (p ++ (a.filter pred ++ a.filter (fun x => !pred x))) q
          (p.length + a.length) t (by
            have := filter_length_add pred a
            simp; omega) (by
            have := filter_length_add pred a
            simp at hn ⊢; omega)
        simp only [List.append_assoc] at r2
        rw [r2]
        simp only
        have hlen := filter_length_add pred a
        obtain ⟨rr, hrot⟩ := rotate_at (a.filter (fun x => !pred x)) (b.filter pred) (p ++ a.filter pred)
          (b.filter (fun x => !pred x) ++ q) (p.length + (a.filter pred).length) (p.length + a.length)
          ((p ++ (a.filter pred ++ a.filter (fun x => !pred x))).length + (b.filter pred).length)
          (by simp) (by simp; omega) (by simp; omega)
        simp only [List.append_assoc] at hrot
        rw [hrot]
        simp only [Option.some.injEq, Prod.mk.injEq, List.filter_append, List.append_assoc, true_and]
        simp; omega

/-! ### merging -/

theorem merge_perm (lt : α → α → Bool) (a b : List α) : (merge lt a b).Perm (a ++ b) := by
  fun_induction merge lt a b with
  | case1 b => simp
  | case2 a => simp
  | case3 x a y b h ih => exact ih.cons x
  | case4 x a y b h ih =>
    have := ih.cons y
    exact this.trans (List.perm_middle (l₁ := x :: a)).symm

theorem merge_sorted {lt : α → α → Bool} (hlt : StrictWeak lt) (a b : List α) (ha : Sorted lt a)
    (hb : Sorted lt b) : Sorted lt (merge lt a b) := by
  fun_induction merge lt a b with
  | case1 b => exact hb
  | case2 a => exact ha
  | case3 x a y b h ih =>
    have ha' := List.pairwise_cons.mp ha
    have hb' := List.pairwise_cons.mp hb
    refine List.pairwise_cons.mpr ⟨?_, ih ha'.2 hb⟩
    intro z hz
    rcases List.mem_append.mp ((merge_perm lt a (y :: b)).subset hz) with h1 | h1
    · exact ha'.1 z h1
    · rcases List.mem_cons.mp h1 with e | h2
      · subst e; exact hlt.asymm h
      · exact hlt.le_trans (hlt.asymm h) (hb'.1 z h2)
  | case4 x a y b h ih =>
    have ha' := List.pairwise_cons.mp ha
    have hb' := List.pairwise_cons.mp hb
    simp only [Bool.not_eq_true] at h
    refine List.pairwise_cons.mpr ⟨?_, ih ha hb'.2⟩
    intro z hz
    rcases List.mem_append.mp ((merge_perm lt (x :: a) b).subset hz) with h1 | h1
    · rcases List.mem_cons.mp h1 with e | h2
      · subst e; exact h
      · exact hlt.le_trans h (ha'.1 z h2)
    · exact hb'.1 z h1

theorem skipLess_at {lt : α → α → Bool} (hirr : ∀ a, lt a a = false) (y : α) (a : List α) :
    ∀ (p q : List α) (mid : Nat), mid = p.length + a.length →
    ∃ lo hi, a = lo ++ hi ∧ skipLess lt (p ++ a ++ y :: q) mid p.length = some (p.length + lo.length) ∧
      (∀ x ∈ lo, lt x y = true) ∧ (∀ x, hi.head? = some x → lt x y = false) := by
  induction a with
  | nil =>
    intro p q mid hm
    unfold skipLess
    have hr : rd (p ++ [] ++ y :: q) p.length = some y := by simp
    have hm' : mid = p.length := by simpa using hm
    subst hm'
    refine ⟨[], [], rfl, ?_, by simp, by simp⟩
    split
    · rename_i x y' h1 h2
      rw [hr] at h1 h2; cases h1; cases h2
      simp [hirr]
    · rename_i h; exact absurd hr (by intro h'; exact h _ _ h' h')
  | cons x a ih =>
    intro p q mid hm
    unfold skipLess
    have hrx : rd (p ++ x :: a ++ y :: q) p.length = some x := by simp
    have hry : rd (p ++ x :: a ++ y :: q) mid = some y := rd_at' _ _ _ _ (by simp [hm])
    split
    · rename_i x' y' h1 h2
      rw [hrx] at h1; rw [hry] at h2; cases h1; cases h2
      cases hc : lt x y with
      | true =>
        simp only [if_true]
        obtain ⟨lo, hi, e, r1, r2, r3⟩ := ih (p ++ [x]) q mid (by simp at hm ⊢; omega)
        refine ⟨x :: lo, hi, by simp [e], ?_, ?_, r3⟩
        · simp at r1 ⊢; rw [r1]; simp; omega
        · intro z hz
          rcases List.mem_cons.mp hz with h | h
          · subst h; exact hc
          · exact r2 z h
      | false =>
        exact ⟨[], x :: a, by simp, by simp, by simp, by simp [hc]⟩
    · rename_i h; exact absurd hry (by intro h'; exact h _ _ hrx h')

theorem merge_skip (lt : α → α → Bool) (y : α) (b hi : List α) :
    ∀ lo : List α, (∀ x ∈ lo, lt x y = true) → (∀ x, hi.head? = some x → lt x y = false) →
      merge lt (lo ++ hi) (y :: b) = lo ++ y :: merge lt hi b := by
  intro lo
  induction lo with
  | nil =>
    intro _ h
    cases hi with
    | nil => simp [merge]
    | cons z hi =>
      have := h z (by simp)
      simp only [List.nil_append]
      rw [merge.eq_def]
      simp [this]
  | cons x lo ih =>
    intro h1 h2
    have hx := h1 x (by simp)
    rw [List.cons_append, merge.eq_def]
    simp only [hx, if_true]
    rw [ih (fun z hz => h1 z (by simp [hz])) h2]
    simp

theorem inplaceMerge_at {lt : α → α → Bool} (hirr : ∀ a, lt a a = false) (b : List α) :
    ∀ (p a q : List α) (mid last : Nat), mid = p.length + a.length → last = mid + b.length →
    inplaceMerge lt (p ++ a ++ b ++ q) p.length mid last = some (p ++ merge lt a b ++ q) := by
  induction b with
  | nil =>
    intro p a q mid last hm hl
    unfold inplaceMerge
    rw [if_neg (by simp at hl; omega), if_pos (by simpa using hl.symm)]
    cases a <;> simp [merge]
  | cons y b ih =>
    intro p a q mid last hm hl
    unfold inplaceMerge
    rw [if_pos (by simp at hl; omega)]
    obtain ⟨lo, hi, e, r1, r2, r3⟩ := skipLess_at hirr y a p (b ++ q) mid hm
    have e0 : p ++ a ++ y :: b ++ q = p ++ a ++ y :: (b ++ q) := by simp
    rw [e0, r1]
    simp only
    subst e
    have h1 := reverse_at hi (p ++ lo) (y :: (b ++ q)) (p.length + lo.length) mid (by simp) (by simp at hm ⊢; omega)
    rw [show p ++ (lo ++ hi) ++ y :: (b ++ q) = p ++ lo ++ hi ++ y :: (b ++ q) by simp, h1]
    simp only
    have h2 := reverse_at (hi.reverse ++ [y]) (p ++ lo) (b ++ q) (p.length + lo.length) (mid + 1) (by simp)
      (by simp at hm ⊢; omega)
    rw [show p ++ lo ++ hi.reverse ++ y :: (b ++ q) = p ++ lo ++ (hi.reverse ++ [y]) ++ (b ++ q) by simp, h2]
    simp only
    have h3 := ih (p ++ lo ++ [y]) hi q (mid + 1) last (by simp at hm ⊢; omega) (by simp at hl; omega)
    rw [show p ++ lo ++ (hi.reverse ++ [y]).reverse ++ (b ++ q) = p ++ lo ++ [y] ++ hi ++ b ++ q by simp]
    rw [show (p ++ lo ++ [y]).length = p.length + lo.length + 1 by simp; omega] at h3
    rw [h3, merge_skip lt y b hi lo r2 r3]
    simp

/-! ### random_shuffle -/

theorem iterSwap_range (p m q : List α) (i j : Nat) (hi1 : p.length ≤ i) (hi2 : i < p.length + m.length)
    (hj1 : p.length ≤ j) (hj2 : j < p.length + m.length) :
    ∃ m', iterSwap (p ++ m ++ q) i j = some (p ++ m' ++ q) ∧ m'.Perm m := by
  obtain ⟨i', rfl⟩ := Nat.exists_eq_add_of_le hi1
  obtain ⟨j', rfl⟩ := Nat.exists_eq_add_of_le hj1
  have hi : i' < m.length := by omega
  have hj : j' < m.length := by omega
  refine ⟨(m.set i' m[j']).set j' m[i'], ?_, List.set_set_perm hi hj⟩
  have g : ∀ k (h : k < m.length), rd (p ++ m ++ q) (p.length + k) = some m[k] := by
    intro k h
    simp only [rd, List.append_assoc]
    rw [List.getElem?_append_right (by omega), Nat.add_sub_cancel_left, List.getElem?_append_left h,
      List.getElem?_eq_getElem h]
  have w : ∀ (m : List α) k (x : α) (_ : k < m.length), wr (p ++ m ++ q) (p.length + k) x = some (p ++ m.set k x ++ q) := by
    intro m k x h
    rw [wr_eq_some _ _ _ (by simp; omega)]
    simp [h]
  simp only [iterSwap, g _ hi, g _ hj, Option.bind_eq_bind, Option.bind_some, w _ _ _ hi]
  rw [w _ _ _ (by simpa using hj)]

theorem randomShuffle_at (rnd : Nat → Nat) (n : Nat) : ∀ (p m q : List α) (k f t : Nat), m.length = n → f = p.length →
    t = p.length + m.length →
    ∃ r, randomShuffle rnd k (p ++ m ++ q) f t = some (p ++ r ++ q) ∧ r.Perm m := by
  induction n with
  | zero =>
    intro p m q k f t hn hf ht
    unfold randomShuffle
    rw [if_neg (by omega), if_pos (by omega)]
    exact ⟨m, rfl, .refl _⟩
  | succ n ih =>
    intro p m q k f t hn hf ht
    unfold randomShuffle
    rw [if_pos (by omega)]
    have hmod := Nat.mod_lt (rnd k) (show 0 < t - f by omega)
    obtain ⟨m', h1, h2⟩ := iterSwap_range p m q f (f + rnd k % (t - f)) (by omega) (by omega) (by omega) (by omega)
    rw [h1]
    simp only
    have hl' := h2.length_eq
    match m', hl' with
    | x :: m'', hl' =>
      obtain ⟨r, r1, r2⟩ := ih (p ++ [x]) m'' q (k + 1) (f + 1) t (by simp at hl'; omega) (by simp [hf])
        (by simp at hl' ⊢; omega)
      refine ⟨x :: r, ?_, (r2.cons x).trans h2⟩
      simp at r1 ⊢; exact r1
    | [], hl' => simp at hl'; omega

end Ustl.Permute
