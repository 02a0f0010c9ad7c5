import Verif.Permute.PermLemmas
/-!
# C05, C06 (generic code paths), C07, C08, C10, C14, C15

In every theorem the memory block is `pre ++ m ++ post` and the range handed to the algorithm is
exactly `m`; the result `some (pre ++ r ++ post)` says that the call terminates, dereferences nothing
outside the block and leaves everything outside the range unchanged.
-/
namespace Ustl.Permute
variable {α : Type _}

theorem equivB_eq (lt : α → α → Bool) (a : α) : equivB lt a = fun b => decide (Equiv lt a b) := by
  funext b
  rw [Bool.eq_iff_iff]
  rw [decide_eq_true_iff]
  simp [equivB, Equiv]

/-! ### C05 -/

/-- **C05** `stable_sort` sorts, only permutes, and keeps the elements of every equivalence class in
their original order. -/
theorem stable_sort_spec {lt : α → α → Bool} (hlt : StrictWeak lt) (pre m post : List α) :
    ∃ r, stableSort lt (pre ++ m ++ post) pre.length (pre.length + m.length) = some (pre ++ r ++ post) ∧
      r.Perm m ∧ Sorted lt r ∧ (∀ a, equivalents lt a r = equivalents lt a m) := by
  obtain ⟨r, h1, h2, h3, h4⟩ := stableSort_at hlt pre m post
  refine ⟨r, h1, h2, h3, fun a => ?_⟩
  have := h4 a
  rw [equivB_eq] at this
  exact this

example : StrictWeak (fstLt : Nat × Nat → Nat × Nat → Bool) ∧
    stableSort fstLt [(7, 0), (2, 1), (1, 2), (2, 3), (1, 4), (0, 9)] 1 5
      = some [(7, 0), (1, 2), (1, 4), (2, 1), (2, 3), (0, 9)] := by
  refine ⟨fstLt_strictWeak, ?_⟩
  simp +decide [stableSort, stableSortLoop, insertPos, rotate, rotateLoop, reverse, iterSwap, rd, wr, fstLt]

/-! ### C06 -/

/-- **C06** `reverse`. -/
theorem reverse_spec (pre m post : List α) :
    reverse (pre ++ m ++ post) pre.length (pre.length + m.length) = some (pre ++ m.reverse ++ post) :=
  reverse_at m pre post _ _ rfl rfl

/-- **C06** `reverse_copy` writes the reversed range. -/
theorem reverse_copy_spec (pre m post : List α) :
    reverseCopy (pre ++ m ++ post) pre.length (pre.length + m.length) = some m.reverse :=
  reverseCopy_at m pre post _ _ rfl rfl

/-- **C06** the generic `rotate` (which is also the fallback of the pointer version) exchanges the two
halves. Missing: the iterator returned by the generic version is not the new position of the old first
element (see `rotate_result_violated`); the scratch-buffer path is treated in `Verif.Bytes`. -/
theorem rotate_spec_partial (pre a b post : List α) :
    ∃ ret, rotate (pre ++ a ++ b ++ post) pre.length (pre.length + a.length)
      (pre.length + a.length + b.length) = some (pre ++ b ++ a ++ post, ret) :=
  rotate_at a b pre post _ _ _ rfl rfl rfl

/-- The generic `rotate` returns neither the new position of the old first element (C++11) nor `first`
(as the pointer version does): on `[1 | 2 3]` it returns index 1, while the element 1 went to index 2. -/
theorem rotate_result_violated : rotate [1, 2, 3] 0 1 3 = some ([2, 3, 1], 1) := by
  simp +decide [rotate, rotateLoop, reverse, iterSwap, rd, wr]

/-- `rotate_copy`: the values written. Models ualgo.h:229-233. -/
def rotateCopy (l : List α) (first middle last : Nat) : List α :=
  (l.drop middle).take (last - middle) ++ (l.drop first).take (middle - first)

/-- **C06** `rotate_copy` writes the second half, then the first. -/
theorem rotate_copy_spec (pre a b post : List α) :
    rotateCopy (pre ++ a ++ b ++ post) pre.length (pre.length + a.length)
      (pre.length + a.length + b.length) = b ++ a := by
  have h1 : (pre ++ a ++ b ++ post).drop (pre.length + a.length) = b ++ post := by
    rw [List.append_assoc (pre ++ a), ← List.length_append, List.drop_left]
  have h2 : (pre ++ a ++ b ++ post).drop pre.length = a ++ (b ++ post) := by
    rw [List.append_assoc, List.append_assoc, List.drop_left]
  rw [rotateCopy, h1, h2, Nat.add_sub_cancel_left, Nat.add_sub_cancel_left]
  simp

/-- **C06** `swap_ranges` exchanges two disjoint ranges of the same length. -/
theorem swap_ranges_spec (pre a mid b post : List α) (h : a.length = b.length) :
    swapRanges (pre ++ a ++ mid ++ b ++ post) pre.length (pre.length + a.length)
      (pre.length + a.length + mid.length) =
    some (pre ++ b ++ mid ++ a ++ post, pre.length + a.length + mid.length + b.length) :=
  swapRanges_at a pre mid b post _ _ _ h rfl rfl rfl

example : ([1, 2] : List Nat).length = ([3, 4] : List Nat).length ∧
    swapRanges [0, 1, 2, 9, 3, 4, 8] 1 3 4 = some ([0, 3, 4, 9, 1, 2, 8], 6) :=
  ⟨rfl, swap_ranges_spec [0] [1, 2] [9] [3, 4] [8] rfl⟩

/-! ### C07 -/

/-- **C07** `stable_partition` (and `partition`, which calls it): the range ends up as the satisfying
elements in order followed by the others in order, and the returned iterator is the boundary. -/
theorem stable_partition_spec (pred : α → Bool) (pre m post : List α) :
    stablePartition pred (pre ++ m ++ post) pre.length (pre.length + m.length) =
      some (pre ++ (m.filter pred ++ m.filter (fun x => !pred x)) ++ post,
        pre.length + (m.filter pred).length) :=
  stablePartition_at pred m pre post _ _ rfl rfl

/-- **C07** restated without `filter`: the range is permuted, and a position of the result is before the
returned boundary exactly when its element satisfies the predicate. -/
theorem partition_boundary (pred : α → Bool) (pre m post : List α) :
    ∃ yes no, stablePartition pred (pre ++ m ++ post) pre.length (pre.length + m.length) =
        some (pre ++ (yes ++ no) ++ post, pre.length + yes.length) ∧
      (yes ++ no).Perm m ∧ (∀ x ∈ yes, pred x = true) ∧ (∀ x ∈ no, pred x = false) ∧
      yes.Sublist m ∧ no.Sublist m :=
  ⟨m.filter pred, m.filter (fun x => !pred x), stable_partition_spec pred pre m post,
    List.filter_append_perm pred m, fun x hx => (List.mem_filter.mp hx).2,
    fun x hx => by simpa using (List.mem_filter.mp hx).2, List.filter_sublist, List.filter_sublist⟩

example : stablePartition (· % 2 == 0) [9, 1, 2, 3, 4, 6, 9] 1 6 = some ([9, 2, 4, 6, 1, 3, 9], 4) :=
  stable_partition_spec (· % 2 == 0) [9] [1, 2, 3, 4, 6] [9]

/-! ### C08 -/

theorem merge_equivalents {lt : α → α → Bool} (hlt : StrictWeak lt) (a b : List α) (ha : Sorted lt a)
    (hb : Sorted lt b) (c : α) :
    (merge lt a b).filter (equivB lt c) = b.filter (equivB lt c) ++ a.filter (equivB lt c) := by
  fun_induction merge lt a b with
  | case1 b => simp
  | case2 a => simp
  | case3 x a y b h ih =>
    have ih := ih (List.pairwise_cons.mp ha).2 hb
    rw [List.filter_cons, List.filter_cons (x := x)]
    by_cases hx : equivB lt c x = true
    · rw [if_pos hx, if_pos hx, ih]
      have hnil : (y :: b).filter (equivB lt c) = [] := by
        rw [List.filter_eq_nil_iff]
        intro z hz hcz
        have hxz : lt x z = true := by
          rcases List.mem_cons.mp hz with e | e
          · rw [e]; exact h
          · exact hlt.lt_of_lt_of_le h ((List.pairwise_cons.mp hb).1 z e)
        simp only [equivB, Bool.and_eq_true, Bool.not_eq_true'] at hx hcz
        have := hlt.lt_of_le_of_lt hx.2 hxz
        rw [this] at hcz; simp at hcz
      rw [hnil]; rfl
    · rw [if_neg hx, if_neg hx, ih]
  | case4 x a y b h ih =>
    have ih := ih ha (List.pairwise_cons.mp hb).2
    rw [List.filter_cons, List.filter_cons (x := y)]
    by_cases hy : equivB lt c y = true
    · rw [if_pos hy, if_pos hy, ih]; rfl
    · rw [if_neg hy, if_neg hy, ih]

/-- **C08**, all of it except stability: `merge` of sorted ranges is sorted, and a permutation of both;
what it does with equivalent elements is that those of the *second* range come first (each group in its
own order). Missing: the required order of equivalent elements, which is false
(`merge_stability_violated`). -/
theorem merge_spec_partial {lt : α → α → Bool} (hlt : StrictWeak lt) (a b : List α) (ha : Sorted lt a)
    (hb : Sorted lt b) :
    Sorted lt (merge lt a b) ∧ (merge lt a b).Perm (a ++ b) ∧
      ∀ c, equivalents lt c (merge lt a b) = equivalents lt c b ++ equivalents lt c a := by
  refine ⟨merge_sorted hlt a b ha hb, merge_perm lt a b, fun c => ?_⟩
  have := merge_equivalents hlt a b ha hb c
  rw [equivB_eq] at this
  exact this

/-- **C08** `inplace_merge` of two adjacent ranges leaves exactly what `merge` would write. -/
theorem inplace_merge_eq_merge {lt : α → α → Bool} (hlt : StrictWeak lt) (pre a b post : List α) :
    inplaceMerge lt (pre ++ a ++ b ++ post) pre.length (pre.length + a.length)
      (pre.length + a.length + b.length) = some (pre ++ merge lt a b ++ post) :=
  inplaceMerge_at hlt.irrefl b pre a post _ _ rfl rfl

/-- **C08** for `inplace_merge`, except stability (same remark as `merge_spec_partial`). -/
theorem inplace_merge_spec_partial {lt : α → α → Bool} (hlt : StrictWeak lt) (pre a b post : List α)
    (ha : Sorted lt a) (hb : Sorted lt b) :
    ∃ r, inplaceMerge lt (pre ++ a ++ b ++ post) pre.length (pre.length + a.length)
        (pre.length + a.length + b.length) = some (pre ++ r ++ post) ∧
      Sorted lt r ∧ r.Perm (a ++ b) :=
  ⟨_, inplace_merge_eq_merge hlt pre a b post, merge_sorted hlt a b ha hb, merge_perm lt a b⟩

/-- **C08** is false in full: on two sorted ranges with equivalent elements, `merge` and `inplace_merge`
put the element of the second range first. -/
theorem merge_stability_violated :
    ∃ (lt : Nat × Nat → Nat × Nat → Bool) (a b : List (Nat × Nat)), StrictWeak lt ∧ Sorted lt a ∧
      Sorted lt b ∧ ¬ (∀ c, equivalents lt c (merge lt a b) = equivalents lt c a ++ equivalents lt c b) ∧
      inplaceMerge lt (a ++ b) 0 a.length (a.length + b.length) = some (merge lt a b) := by
  refine ⟨fstLt, [(1, 0)], [(1, 1)], fstLt_strictWeak, List.pairwise_singleton _ _,
    List.pairwise_singleton _ _, ?_, ?_⟩
  · intro h
    have := h (1, 0)
    simp +decide [equivalents, merge, fstLt, Equiv] at this
  · simpa using inplace_merge_eq_merge fstLt_strictWeak [] [(1, 0)] [(1, 1)] []

example : Sorted natLt [1, 3, 3, 7] ∧ Sorted natLt [2, 3, 9] ∧
    merge natLt [1, 3, 3, 7] [2, 3, 9] = [1, 2, 3, 3, 3, 7, 9] := by
  refine ⟨?_, ?_, ?_⟩ <;> simp [Sorted, natLt, merge]

/-! ### C10 -/

/-- **C10** `next_permutation`: on `true` the range has become the immediate lexicographic successor of
what it was among the permutations of its elements; on `false` there was no greater permutation and the
range is now sorted. -/
theorem next_permutation_spec {lt : α → α → Bool} (hlt : StrictTotal lt) (pre m post : List α) :
    ∃ r b, nextPermutation lt (pre ++ m ++ post) pre.length (pre.length + m.length)
        = some (pre ++ r ++ post, b) ∧
      r.Perm m ∧
      (b = true → LexLt lt m r ∧ ∀ s, s.Perm m → LexLt lt m s → ¬ LexLt lt s r) ∧
      (b = false → Sorted lt r ∧ ∀ s, s.Perm m → ¬ LexLt lt m s) :=
  nextPermutation_shape hlt pre m post

theorem StrictTotal.flip {lt : α → α → Bool} (h : StrictTotal lt) : StrictTotal (fun a b => lt b a) :=
  { h.toStrictWeak.flip with
    eq_of_equiv := fun a b hab => h.eq_of_equiv a b ⟨hab.2, hab.1⟩ }

theorem lex_flip {lt : α → α → Bool} (s t : List α) (hl : s.length = t.length) :
    LexLt (fun a b => lt b a) s t ↔ LexLt lt t s := by
  induction s generalizing t with
  | nil => cases t <;> simp_all [LexLt]
  | cons x s ih =>
    cases t with
    | nil => simp at hl
    | cons y t =>
      simp only [LexLt]
      rw [ih t (by simpa using hl)]
      simp only [Equiv, and_comm, and_left_comm]

/-- **C10** `prev_permutation`, the mirror image: on `true` the range has become the immediate
predecessor; on `false` there was no smaller permutation and the range is now in descending order. -/
theorem prev_permutation_spec {lt : α → α → Bool} (hlt : StrictTotal lt) (pre m post : List α) :
    ∃ r b, prevPermutation lt (pre ++ m ++ post) pre.length (pre.length + m.length)
        = some (pre ++ r ++ post, b) ∧
      r.Perm m ∧
      (b = true → LexLt lt r m ∧ ∀ s, s.Perm m → LexLt lt s m → ¬ LexLt lt r s) ∧
      (b = false → Sorted lt r.reverse ∧ ∀ s, s.Perm m → ¬ LexLt lt s m) := by
  rw [prevPermutation_eq]
  obtain ⟨r, b, h1, h2, h3, h4⟩ := nextPermutation_shape (StrictTotal.flip hlt) pre m post
  refine ⟨r, b, h1, h2, fun hb => ?_, fun hb => ?_⟩
  · obtain ⟨g1, g2⟩ := h3 hb
    refine ⟨(lex_flip _ _ h2.length_eq.symm).mp g1, fun s hs hsm hrs => ?_⟩
    exact g2 s hs ((lex_flip _ _ hs.length_eq.symm).mpr hsm)
      ((lex_flip _ _ (hs.length_eq.trans h2.length_eq.symm)).mpr hrs)
  · obtain ⟨g1, g2⟩ := h4 hb
    refine ⟨?_, fun s hs hsm => g2 s hs ((lex_flip _ _ hs.length_eq.symm).mpr hsm)⟩
    rw [Sorted, List.pairwise_reverse]
    exact g1

example : StrictTotal natLt ∧ nextPermutation natLt [0, 1, 3, 2, 2, 9] 1 5 = some ([0, 2, 1, 2, 3, 9], true) := by
  refine ⟨natLt_strictTotal, ?_⟩
  simp +decide [nextPermutation, nextPermLoop, findGreater, reverse, iterSwap, rd, wr, natLt]

/-! ### C14 -/

/-- **C14** whatever `rand()` returns, `random_shuffle` permutes the range and touches nothing else. -/
theorem random_shuffle_spec (rnd : Nat → Nat) (pre m post : List α) :
    ∃ r, randomShuffle rnd 0 (pre ++ m ++ post) pre.length (pre.length + m.length)
      = some (pre ++ r ++ post) ∧ r.Perm m :=
  randomShuffle_at rnd m.length pre m post 0 _ _ rfl rfl rfl

example : randomShuffle (fun k => 7 * k + 3) 0 [9, 1, 2, 3, 9] 1 4 = some [9, 1, 2, 3, 9] ∧
    randomShuffle (fun k => k + 1) 0 [9, 1, 2, 3, 9] 1 4 = some [9, 2, 1, 3, 9] := by
  constructor <;> simp +decide [randomShuffle, iterSwap, rd, wr]

/-! ### C15 -/

/-- **C15** `partial_sort`: the prefix is sorted and consists of smallest elements (every element after
`middle` is not smaller than any before it). -/
theorem partial_sort_spec {lt : α → α → Bool} (hlt : StrictWeak lt) (pre m post : List α) (k : Nat)
    (hk : k ≤ m.length) :
    ∃ lo hi, partialSort lt (pre ++ m ++ post) pre.length (pre.length + k) (pre.length + m.length)
        = some (pre ++ (lo ++ hi) ++ post) ∧
      lo.length = k ∧ (lo ++ hi).Perm m ∧ Sorted lt lo ∧ (∀ a ∈ lo, ∀ b ∈ hi, lt b a = false) := by
  obtain ⟨r, h1, h2, h3, _⟩ := stableSort_at hlt pre m post
  refine ⟨r.take k, r.drop k, ?_, ?_, ?_, ?_, ?_⟩
  · rw [List.take_append_drop]; exact h1
  · rw [List.length_take, h2.length_eq]; omega
  · rw [List.take_append_drop]; exact h2
  · exact h3.sublist (List.take_sublist _ _)
  · rw [Sorted, ← List.take_append_drop k r, List.pairwise_append] at h3
    exact fun a ha b hb => h3.2.2 a ha b hb

/-- **C15** `nth_element` (without a comparison object): no element before `nth` is greater than the one
at `nth`, and none after it is smaller. -/
theorem nth_element_spec {lt : α → α → Bool} (hlt : StrictWeak lt) (pre m post : List α) (k : Nat)
    (hk : k < m.length) :
    ∃ lo x hi, nthElement lt (pre ++ m ++ post) pre.length (pre.length + k) (pre.length + m.length)
        = some (pre ++ (lo ++ x :: hi) ++ post) ∧
      lo.length = k ∧ (lo ++ x :: hi).Perm m ∧ (∀ a ∈ lo, lt x a = false) ∧ (∀ b ∈ hi, lt b x = false) := by
  obtain ⟨r, h1, h2, h3, _⟩ := stableSort_at hlt pre m post
  have hr : k < r.length := by rw [h2.length_eq]; exact hk
  have e : r = r.take k ++ r[k] :: r.drop (k + 1) := by
    rw [List.getElem_cons_drop, List.take_append_drop]
  refine ⟨r.take k, r[k], r.drop (k + 1), ?_, ?_, ?_, ?_, ?_⟩
  · rw [← e]; exact h1
  · rw [List.length_take]; omega
  · rw [← e]; exact h2
  · rw [Sorted, e, List.pairwise_append] at h3
    exact fun a ha => h3.2.2 a ha _ List.mem_cons_self
  · rw [Sorted, e, List.pairwise_append, List.pairwise_cons] at h3
    exact fun b hb => h3.2.1.1 b hb

/-- **C15** `partial_sort_copy` into a destination block `d`: the prefix of `d` up to the returned
iterator is the sorted sequence of the `min` many smallest elements of the input; the rest of `d` is
unchanged. -/
theorem partial_sort_copy_spec {lt : α → α → Bool} (hlt : StrictWeak lt) (input d : List α) :
    ∃ s junk rest, partialSortCopy lt input d = some (s ++ junk, s.length) ∧
      junk = d.drop s.length ∧ s.length = min input.length d.length ∧
      Sorted lt s ∧ (s ++ rest).Perm input ∧ (∀ a ∈ s, ∀ b ∈ rest, lt b a = false) := by
  obtain ⟨s, rest, junk, h1, h2, h3, h4, h5, h6, h7⟩ := pscLoop_at hlt input [] [] d [] List.Pairwise.nil
    (by simp) (by simp) (by simp)
  refine ⟨s, junk, rest, by simpa [partialSortCopy] using h1, ?_, ?_, h3, by simpa using h4, h5⟩
  · obtain ⟨u, hu⟩ := h7
    have : u.length = s.length := by
      have := congrArg List.length hu
      simp only [List.length_append, List.nil_append] at this h2; omega
    rw [← hu, ← this, List.drop_left]
  have hl := h4.length_eq
  simp only [List.length_append, List.length_nil, Nat.zero_add, List.nil_append] at hl h2
  by_cases hj : junk = []
  · subst hj; simp at h2; omega
  · have : rest = [] := h6 hj
    subst this; simp at hl; omega

example : ∃ s junk rest, partialSortCopy natLt [5, 1, 4, 1] [0, 0] = some (s ++ junk, s.length) ∧
      junk = [0, 0].drop s.length ∧ s.length = 2 ∧ Sorted natLt s ∧ (s ++ rest).Perm [5, 1, 4, 1] ∧
      (∀ a ∈ s, ∀ b ∈ rest, natLt b a = false) :=
  partial_sort_copy_spec natLt_strictWeak _ _

end Ustl.Permute
