import Verif.Forward.Lemmas2
/-!
# C11 (remove/unique/replace/copy), C12 (find/count/compare), C13 (search), C16 (extrema), C17 (numeric)

The block is `pre ++ m ++ post`, the range is `m`. `some` results imply that nothing outside the block is
dereferenced; for the mutating algorithms the result shows that `pre` and `post` are unchanged.
-/
namespace Ustl.Forward
variable {α β γ : Type _}

/-! ### C11 -/

/-- **C11** `copy_if` writes exactly the matching elements, in order. -/
theorem copy_if_spec (pred : α → Bool) (pre m post : List α) :
    copyIf pred (pre ++ m ++ post) pre.length (pre.length + m.length) = some (m.filter pred) :=
  copyIf_at pred m pre post _ _ rfl rfl

/-- **C11** `remove_copy_if` (and `remove_copy`) writes exactly the non-matching elements, in order. -/
theorem remove_copy_if_spec (pred : α → Bool) (pre m post : List α) :
    removeCopyIf pred (pre ++ m ++ post) pre.length (pre.length + m.length)
      = some (m.filter (fun x => !pred x)) :=
  removeCopyIf_at pred m pre post _ _ rfl rfl

/-- **C11** the `remove_copy` extension taking a sorted sequence of positions leaves out exactly those. -/
theorem remove_copy_iters_spec (pre m post : List α) (rs : List Nat) (hs : rs.Pairwise (· ≤ ·)) :
    removeCopyIters (pre ++ m ++ post) pre.length (pre.length + m.length) rs =
      some (((m.zipIdx pre.length).filter (fun x => decide (x.2 ∉ rs))).map Prod.fst) :=
  removeCopyIters_at m pre post _ _ rs rfl rfl hs

example : ([2, 4] : List Nat).Pairwise (· ≤ ·) ∧
    removeCopyIters [9, 10, 11, 12, 13, 9] 1 5 [2, 4] = some [10, 12] := by
  refine ⟨by simp, remove_copy_iters_spec [9] [10, 11, 12, 13] [9] [2, 4] (by simp)⟩

/-- **C11** in-place `remove_if` (and `remove`): the prefix up to the returned iterator is the
non-matching elements in order; the range keeps its length, nothing else changes. -/
theorem remove_if_spec (pred : α → Bool) (pre m post : List α) :
    ∃ tail, removeIf pred (pre ++ m ++ post) pre.length (pre.length + m.length) =
        some (pre ++ (m.filter (fun x => !pred x) ++ tail) ++ post,
          pre.length + (m.filter (fun x => !pred x)).length) ∧
      (m.filter (fun x => !pred x) ++ tail).length = m.length := by
  obtain ⟨g, h1, h2⟩ := removeIfLoop_at pred m pre [] [] post pre.length (pre.length + m.length) pre.length
    (by simp) (by simp) rfl
  refine ⟨g, ?_, by simpa using h2⟩
  simpa [removeIf] using h1

/-- **C11** `unique_copy` writes the first element of every run. -/
theorem unique_copy_spec (eq : α → α → Bool) (pre m post : List α) :
    uniqueCopy eq (pre ++ m ++ post) pre.length (pre.length + m.length) = some (runHeads eq m) := by
  unfold uniqueCopy
  cases m with
  | nil => simp [runHeads]
  | cons x m =>
    rw [if_pos (by simp)]
    have : rd (pre ++ (x :: m) ++ post) pre.length = some x := by simp
    rw [this]
    exact uniqueCopyLoop_at eq m x x pre post _ _ rfl (by simp; omega)

/-- **C11** in-place `unique`: the prefix up to the returned iterator is the first elements of the runs. -/
theorem unique_spec (eq : α → α → Bool) (pre m post : List α) :
    ∃ tail, unique eq (pre ++ m ++ post) pre.length (pre.length + m.length) =
        some (pre ++ (runHeads eq m ++ tail) ++ post, pre.length + (runHeads eq m).length) ∧
      (runHeads eq m ++ tail).length = m.length := by
  unfold unique
  cases m with
  | nil => exact ⟨[], by simp [runHeads], by simp [runHeads]⟩
  | cons x m =>
    rw [if_pos (by simp)]
    have h1 : rd (pre ++ (x :: m) ++ post) pre.length = some x := by simp
    have h2 : wr (pre ++ (x :: m) ++ post) pre.length x = some (pre ++ ([] ++ [x]) ++ [] ++ m ++ post) := by
      rw [seg_cons, wr_seg _ _ _ _ _ _ rfl]; simp
    rw [h1]
    simp only
    rw [h2]
    simp only
    obtain ⟨g, e1, e2⟩ := uniqueLoop_at eq m pre [] [] post x pre.length (pre.length + (x :: m).length) pre.length
      (by simp) (by simp) (by simp; omega)
    refine ⟨g, by rw [e1]; simp, ?_⟩
    rw [List.length_append, e2]; simp; omega

/-- `runHeads` for an equality test is what is meant: no two neighbours are equal, and every element of
the input equals the head of its run. -/
theorem runHeads_no_repeat [DecidableEq α] (l : List α) :
    (∀ (k : Nat) a b, (runHeads (fun a b => decide (a = b)) l)[k]? = some a →
      (runHeads (fun a b => decide (a = b)) l)[k + 1]? = some b → a ≠ b) ∧
    (runHeads (fun a b => decide (a = b)) l).Sublist l ∧ ∀ x ∈ l, x ∈ runHeads (fun a b => decide (a = b)) l := by
  fun_induction runHeads (fun a b => decide (a = b)) l with
  | case1 => simp
  | case2 x xs ih =>
    obtain ⟨h1, h2, h3⟩ := ih
    refine ⟨?_, ?_, ?_⟩
    · intro k a b ha hb
      match k with
      | k + 1 => exact h1 k a b (by simpa using ha) (by simpa using hb)
      | 0 =>
      simp only [List.getElem?_cons_zero, Option.some.injEq] at ha
      rw [Nat.zero_add, List.getElem?_cons_succ] at hb
      subst ha
      -- the head of the remaining heads is the head of the remaining elements
      cases hd : xs.dropWhile (fun y => decide (y = x)) with
      | nil => simp [hd, runHeads] at hb
      | cons z zs =>
        simp only [hd, runHeads, List.getElem?_cons_zero, Option.some.injEq] at hb
        subst hb
        have := List.head_dropWhile_not (fun y => decide (y = x)) (l := xs) (by rw [hd]; simp)
        simp only [hd, List.head_cons, decide_eq_false_iff_not] at this
        exact fun e => this e.symm
    · exact (h2.trans (List.dropWhile_suffix _).sublist).cons_cons x
    · intro y hy
      rcases List.mem_cons.mp hy with e | e
      · exact e ▸ List.mem_cons_self
      · rw [← List.takeWhile_append_dropWhile (p := fun y => decide (y = x)) (l := xs), List.mem_append] at e
        rcases e with e | e
        · have := List.all_eq_true.mp (List.all_takeWhile (p := fun y => decide (y = x)) (l := xs)) y e
          simp at this
          exact this ▸ List.mem_cons_self
        · exact List.mem_cons_of_mem _ (h3 y e)

/-- **C11** `replace_if` (and `replace`) substitutes the matching elements and only those. -/
theorem replace_if_spec (pred : α → Bool) (new : α) (pre m post : List α) :
    replaceIf pred new (pre ++ m ++ post) pre.length (pre.length + m.length) =
      some (pre ++ m.map (fun x => if pred x then new else x) ++ post) :=
  replaceIf_at pred new m pre post _ _ rfl rfl

/-- **C11** is false for `replace_copy` and `replace_copy_if`: every call is undefined (no return
statement). -/
theorem replace_copy_violated (pred : α → Bool) (new : α) (l : List α) (first last : Nat) :
    replaceCopyIf pred new l first last = none := rfl

/-- **C11** `transform`, unary and binary. -/
theorem transform_spec (op : α → β) (pre m post : List α) :
    transform op (pre ++ m ++ post) pre.length (pre.length + m.length) = some (m.map op) :=
  transform_at op m pre post _ _ rfl rfl

theorem transform2_spec (op : α → β → γ) (pre m post : List α) (pre2 w post2 : List β)
    (h : m.length = w.length) :
    transform2 op (pre ++ m ++ post) pre.length (pre.length + m.length) (pre2 ++ w ++ post2) pre2.length
      = some (List.zipWith op m w) :=
  transform2_at op m pre post _ _ w pre2 post2 _ rfl rfl rfl h

/-- **C11** `for_each` applies the (stateful) function object to each element once, in order. -/
theorem for_each_spec {σ : Type _} (f : σ → α → σ) (pre m post : List α) (s : σ) :
    forEach f (pre ++ m ++ post) pre.length (pre.length + m.length) s = some (m.foldl f s) :=
  forEach_at f m pre post _ _ s rfl rfl

/-- **C11** `generate` stores the successive results of the generator. -/
theorem generate_spec (gen : Nat → α) (pre m post : List α) :
    generate gen (pre ++ m ++ post) pre.length (pre.length + m.length) 0
      = some (pre ++ (List.range' 0 m.length).map gen ++ post) :=
  generate_at gen m pre post _ _ 0 rfl rfl

example : removeIf (· == 2) [7, 2, 1, 2, 3, 7] 1 5 = some ([7, 1, 3, 2, 3, 7], 3) ∧
    unique (· == ·) [7, 2, 2, 1, 1, 2, 7] 1 6 = some ([7, 2, 1, 2, 1, 2, 7], 4) := by
  constructor <;> simp +decide [removeIf, removeIfLoop, unique, uniqueLoop, rd, wr]

/-! ### C12 -/

/-- **C12** `find_if` (and `find`) returns the first matching position, or `last` if nothing matches. -/
theorem find_if_spec (pred : α → Bool) (pre m post : List α) :
    ∃ i, findIf pred (pre ++ m ++ post) pre.length (pre.length + m.length) = some (pre.length + i) ∧
      (∀ j x, j < i → m[j]? = some x → pred x = false) ∧
      (i = m.length ∨ ∃ x, m[i]? = some x ∧ pred x = true) := by
  refine ⟨_, findIf_at pred m pre post _ _ rfl rfl, ?_, ?_⟩
  · intro j x hj hx
    induction m generalizing j with
    | nil => simp at hj
    | cons y m ih =>
      rw [List.takeWhile_cons] at hj
      cases hy : pred y with
      | true => simp [hy] at hj
      | false =>
        simp [hy] at hj
        cases j with
        | zero => simp at hx; subst hx; exact hy
        | succ j => exact ih j (by omega) (by simpa using hx)
  · induction m with
    | nil => simp
    | cons y m ih =>
      rw [List.takeWhile_cons]
      cases hy : pred y with
      | true => right; exact ⟨y, by simp, hy⟩
      | false =>
        simp only [Bool.not_false, if_true, List.length_cons]
        rcases ih with h | ⟨x, h1, h2⟩
        · left; rw [h]
        · right; exact ⟨x, by simpa using h1, h2⟩

/-- **C12** `find_first_of` is `find_if` for "matches some element of the set". -/
theorem find_first_of_spec (comp : α → β → Bool) (set : List β) (pre m post : List α) :
    ∃ i, findFirstOf comp (pre ++ m ++ post) pre.length (pre.length + m.length) set = some (pre.length + i) ∧
      (∀ j x, j < i → m[j]? = some x → ∀ b ∈ set, comp x b = false) ∧
      (i = m.length ∨ ∃ x, m[i]? = some x ∧ ∃ b ∈ set, comp x b = true) := by
  obtain ⟨i, h1, h2, h3⟩ := find_if_spec (fun x => set.any (comp x)) pre m post
  refine ⟨i, by rw [findFirstOf_at _ _ _ _ _ _ rfl]; exact h1, ?_, ?_⟩
  · intro j x hj hx b hb
    have := h2 j x hj hx
    rw [List.any_eq_false] at this
    simpa using this b hb
  · rcases h3 with h | ⟨x, hx, h⟩
    · exact Or.inl h
    · exact Or.inr ⟨x, hx, by simpa using h⟩

/-- **C12** `count_if` (and `count`). -/
theorem count_if_spec (pred : α → Bool) (pre m post : List α) :
    countIf pred (pre ++ m ++ post) pre.length (pre.length + m.length) 0 = some (m.filter pred).length := by
  rw [countIf_at pred m pre post _ _ 0 rfl rfl, List.countP_eq_length_filter, Nat.zero_add]

/-- **C12** `adjacent_find` returns the first position whose element and successor satisfy the
predicate, or `last`. -/
theorem adjacent_find_spec (p : α → α → Bool) (pre m post : List α) :
    ∃ i, adjacentFind p (pre ++ m ++ post) pre.length (pre.length + m.length) = some (pre.length + i) ∧
      i ≤ m.length ∧
      (∀ j a b, j < i → m[j]? = some a → m[j + 1]? = some b → p a b = false) ∧
      (i = m.length ∨ ∃ a b, m[i]? = some a ∧ m[i + 1]? = some b ∧ p a b = true) := by
  unfold adjacentFind
  cases m with
  | nil => exact ⟨0, by simp, by simp, by simp, Or.inl rfl⟩
  | cons x m =>
    rw [if_pos (by simp)]
    exact adjLoop_at p m x pre post _ _ rfl (by simp; omega)

/-- **C12** `mismatch`: the returned pair points `i` elements into both ranges, where the first `i`
elements agree and element `i` (if any) does not. The second range must be at least as long. -/
theorem mismatch_spec (eq : α → β → Bool) (pre m post : List α) (pre2 w post2 : List β)
    (h : m.length ≤ w.length) :
    ∃ i, mismatch eq (pre ++ m ++ post) pre.length (pre.length + m.length) (pre2 ++ w ++ post2) pre2.length
        = some (pre.length + i, pre2.length + i) ∧ i ≤ m.length ∧
      (∀ j a b, j < i → m[j]? = some a → w[j]? = some b → eq a b = true) ∧
      (i = m.length ∨ ∃ a b, m[i]? = some a ∧ w[i]? = some b ∧ eq a b = false) := by
  refine ⟨_, mismatch_at eq m pre post _ _ w pre2 post2 _ rfl rfl rfl h, ?_⟩
  clear post post2 pre pre2
  induction m generalizing w with
  | nil => simp [commonPrefix]
  | cons x m ih =>
    match w, h with
    | y :: w, h =>
      rw [commonPrefix]
      cases hxy : eq x y with
      | false => exact ⟨by simp, by simp, Or.inr ⟨x, y, by simp, by simp, hxy⟩⟩
      | true =>
        simp only [if_true]
        obtain ⟨h1, h2, h3⟩ := ih w (by simpa using h)
        refine ⟨by simp; omega, ?_, ?_⟩
        · intro j a b hj ha hb
          cases j with
          | zero => simp at ha hb; subst ha; subst hb; exact hxy
          | succ j => exact h2 j a b (by omega) (by simpa using ha) (by simpa using hb)
        · rcases h3 with h | ⟨a, b, g1, g2, g3⟩
          · left; simp [h]
          · right; exact ⟨a, b, by simpa using g1, by simpa using g2, g3⟩

/-- **C12** `equal` is pointwise equality. -/
theorem equal_spec (eq : α → β → Bool) (pre m post : List α) (pre2 w post2 : List β)
    (h : m.length ≤ w.length) :
    ∃ b, equal eq (pre ++ m ++ post) pre.length (pre.length + m.length) (pre2 ++ w ++ post2) pre2.length = some b ∧
      (b = true ↔ ∀ (j : Nat) x y, m[j]? = some x → w[j]? = some y → eq x y = true) := by
  obtain ⟨i, h1, h2, h3, h4⟩ := mismatch_spec eq pre m post pre2 w post2 h
  refine ⟨_, by rw [equal, h1]; rfl, ?_⟩
  simp only [beq_iff_eq]
  constructor
  · intro e j x y hx hy
    refine h3 j x y ?_ hx hy
    have : j < m.length := by
      rcases Nat.lt_or_ge j m.length with h | h
      · exact h
      · rw [List.getElem?_eq_none h] at hx; cases hx
    omega
  · intro hall
    rcases h4 with h | ⟨a, b, g1, g2, g3⟩
    · rw [h]
    · have := hall i a b g1 g2
      rw [g3] at this; cases this

/-- **C12** `lexicographical_compare` decides the lexicographic order. -/
theorem lexicographical_compare_spec (lt : α → α → Bool) (a b : List α) :
    lexCompare lt a b = true ↔ LexLt lt a b := lexCompare_iff a b

example : ([1, 2, 3] : List Nat).length ≤ ([1, 2, 4, 5] : List Nat).length ∧
    mismatch (· == ·) [9, 1, 2, 3, 9] 1 4 [1, 2, 4, 5] 0 = some (3, 2) := by
  refine ⟨by decide, ?_⟩
  simp +decide [mismatch, rd]

/-! ### C13 -/

/-- **C13** `search` returns the first occurrence of the pattern, or `last1` if there is none. -/
theorem search_spec (comp : α → β → Bool) (pre m post : List α) (pat : List β) :
    ∃ r, search comp (pre ++ m ++ post) pre.length (pre.length + m.length) pat = some r ∧
      ((∃ i, r = pre.length + i ∧ OccursAt comp m pat i ∧ ∀ j, j < i → ¬ OccursAt comp m pat j) ∨
       (r = pre.length + m.length ∧ ∀ j, ¬ OccursAt comp m pat j)) :=
  searchLoop_at comp pre m post pat _ _ (by omega) _ 0 rfl (by omega)

/-- **C13** for `find_end`, except for an occurrence at the very start of the range: among the positions
other than the first one it returns the last occurrence, and `last1` if there is none. Missing: an
occurrence at the first position is never found (`find_end_violated`). -/
theorem find_end_partial (comp : α → β → Bool) (pre m post : List α) (pat : List β) :
    ∃ r, findEnd comp (pre ++ m ++ post) pre.length (pre.length + m.length) pat = some r ∧
      ((∃ i, 0 < i ∧ r = pre.length + i ∧ OccursAt comp m pat i ∧ ∀ j, i < j → ¬ OccursAt comp m pat j) ∨
       (r = pre.length + m.length ∧ ∀ j, 0 < j → ¬ OccursAt comp m pat j)) := by
  unfold findEnd
  by_cases h : pat.length ≤ m.length
  · obtain ⟨r, h1, h2⟩ := findEndLoop_at comp pre m post pat (pre.length + m.length) (m.length - pat.length)
      (by omega) (fun j hj hocc => by have := hocc.1; omega)
    refine ⟨r, ?_, h2⟩
    rw [← h1]; congr 1; omega
  · unfold findEndLoop
    rw [dif_neg (by omega)]
    exact ⟨_, rfl, Or.inr ⟨rfl, fun j _ hocc => by have := hocc.1; omega⟩⟩

/-- **C13** is false for `find_end`: the only occurrence is at position 0 and the result is `last`. -/
theorem find_end_violated :
    ∃ (text pat : List Nat), OccursAt (· == ·) text pat 0 ∧
      findEnd (· == ·) text 0 text.length pat = some text.length ∧ text.length ≠ 0 := by
  refine ⟨[1, 2, 3], [1, 2], ⟨by simp, ?_⟩, ?_, by simp⟩
  · intro k a b ha hb
    match k with
    | 0 => simp at ha hb; subst ha; subst hb; rfl
    | 1 => simp at ha hb; subst ha; subst hb; rfl
    | k + 2 => simp at hb
  · simp +decide [findEnd, findEndLoop, matchAt, rd]

/-- **C13** for `search_n` with a positive count: the first position at which `count` consecutive
elements match, or `last`. Missing: `count = 0` (see `search_n_zero_violated`). -/
theorem search_n_partial (comp : α → β → Bool) (pre m post : List α) (v : β) (count : Nat) (h : 0 < count) :
    ∃ r, searchN comp (pre ++ m ++ post) pre.length (pre.length + m.length) count v 0 = some r ∧
      ((∃ i, r = pre.length + i ∧ OccursAt comp m (List.replicate count v) i ∧
          ∀ j, j < i → ¬ OccursAt comp m (List.replicate count v) j) ∨
       (r = pre.length + m.length ∧ ∀ j, ¬ OccursAt comp m (List.replicate count v) j)) :=
  searchN_at comp pre m post v count h _ 0 0 rfl (by omega) h (by omega) (by omega) (by omega)
    (fun j _ => by omega)

/-- **C13** is false for `search_n` with count 0: the empty run occurs at the start of every range, but
`last` is returned. -/
theorem search_n_zero_violated : OccursAt (· == ·) [1, 2] (List.replicate 0 1) 0 ∧
    searchN (· == ·) [1, 2] 0 2 0 1 0 = some 2 := by
  refine ⟨⟨by simp, by simp⟩, ?_⟩
  simp +decide [searchN, rd]

example : search (· == ·) [9, 1, 1, 2, 1, 2, 9] 1 6 [1, 2] = some 2 ∧
    findEnd (· == ·) [9, 1, 1, 2, 1, 2, 9] 1 6 [1, 2] = some 4 ∧
    searchN (· == ·) [9, 1, 1, 2, 2, 2, 9] 1 6 2 2 0 = some 3 := by
  refine ⟨?_, ?_, ?_⟩
  · simp +decide [search, searchLoop, matchAt, rd]
  · simp +decide [findEnd, findEndLoop, matchAt, rd]
  · simp +decide [searchN, rd]

/-! ### C16 -/

/-- **C16** `is_sorted` decides sortedness. -/
theorem is_sorted_spec {lt : α → α → Bool} (hlt : StrictWeak lt) (pre m post : List α) :
    ∃ b, isSorted lt (pre ++ m ++ post) pre.length (pre.length + m.length) = some b ∧
      (b = true ↔ Sorted lt m) := by
  obtain ⟨b, h1, h2⟩ := isSorted_at (comp := lt) m pre post _ _ rfl rfl
  exact ⟨b, h1, h2.trans (adjacent_sorted hlt m)⟩

/-- **C16** `max_element` of a non-empty range is its first maximum. -/
theorem max_element_spec {lt : α → α → Bool} (hlt : StrictWeak lt) (pre m post : List α) (hne : m ≠ []) :
    ∃ i y, maxElement lt (pre ++ m ++ post) pre.length (pre.length + m.length) pre.length
        = some (pre.length + i) ∧ m[i]? = some y ∧
      (∀ x ∈ m, lt y x = false) ∧ (∀ k x, k < i → m[k]? = some x → lt x y = true) := by
  obtain ⟨r, h1, h2, h3, h4⟩ := maxElement_at hlt pre m post _ 0 0 rfl (by omega)
    (List.length_pos_iff.mpr hne) (by omega) (by omega) (by omega)
  refine ⟨r, m[r], h1, List.getElem?_eq_getElem h2, fun x hx => ?_, fun k x hk hx => ?_⟩
  · obtain ⟨k, hk⟩ := List.mem_iff_getElem?.mp hx
    exact h3 k x _ hk (List.getElem?_eq_getElem h2)
  · exact h4 k x _ hk hx (List.getElem?_eq_getElem h2)

/-- **C16** `min_element` of a non-empty range is its first minimum. -/
theorem min_element_spec {lt : α → α → Bool} (hlt : StrictWeak lt) (pre m post : List α) (hne : m ≠ []) :
    ∃ i y, minElement lt (pre ++ m ++ post) pre.length (pre.length + m.length) pre.length
        = some (pre.length + i) ∧ m[i]? = some y ∧
      (∀ x ∈ m, lt x y = false) ∧ (∀ k x, k < i → m[k]? = some x → lt y x = true) := by
  obtain ⟨i, y, h⟩ := max_element_spec hlt.flip pre m post hne
  exact ⟨i, y, by rw [minElement_eq _ _ _ _ _ _ rfl]; exact h.1, h.2⟩

/-- **C16** on an empty range all three return `last`. -/
theorem extrema_empty (lt : α → α → Bool) (l : List α) (p : Nat) :
    maxElement lt l p p p = some p ∧ minElement lt l p p p = some p ∧ minmaxElement lt l p p p p = some (p, p) := by
  unfold maxElement minElement minmaxElement; simp

/-- **C16** `minmax_element` pairs the results of `min_element` and `max_element`. -/
theorem minmax_element_spec {lt : α → α → Bool} (hlt : StrictWeak lt) (pre m post : List α) (hne : m ≠ []) :
    ∃ a b, minmaxElement lt (pre ++ m ++ post) pre.length (pre.length + m.length) pre.length pre.length
        = some (a, b) ∧
      minElement lt (pre ++ m ++ post) pre.length (pre.length + m.length) pre.length = some a ∧
      maxElement lt (pre ++ m ++ post) pre.length (pre.length + m.length) pre.length = some b := by
  obtain ⟨i, _, h1, _⟩ := min_element_spec hlt pre m post hne
  obtain ⟨j, _, h2, _⟩ := max_element_spec hlt pre m post hne
  exact ⟨_, _, minmaxElement_eq lt _ _ _ _ _ _ _ _ rfl h1 h2, h1, h2⟩

/-- **C16** `min`, `max` and `minmax` return their arguments, bounding both. -/
theorem min_max_spec {lt : α → α → Bool} (hlt : StrictWeak lt) (a b : α) :
    (min' lt a b = a ∨ min' lt a b = b) ∧ lt a (min' lt a b) = false ∧ lt b (min' lt a b) = false ∧
    (max' lt a b = a ∨ max' lt a b = b) ∧ lt (max' lt a b) a = false ∧ lt (max' lt a b) b = false ∧
    (minmax lt a b = (a, b) ∨ minmax lt a b = (b, a)) ∧ lt (minmax lt a b).2 (minmax lt a b).1 = false := by
  unfold min' max' minmax
  cases h1 : lt a b with
  | true => simp [hlt.irrefl, hlt.asymm h1]
  | false => cases h2 : lt b a <;> simp [hlt.irrefl, h1, h2]

/-- **C16** `clamp` brings a value into `[l, h]`: to `l` from below, to `h` from above, and leaves it alone if it is there already. -/
theorem clamp_spec {lt : α → α → Bool} (hlt : StrictWeak lt) (v l h : α) (hlh : lt h l = false) :
    lt (clamp lt v l h) l = false ∧ lt h (clamp lt v l h) = false ∧
    (lt v l = false → lt h v = false → clamp lt v l h = v) ∧
    (lt v l = true → clamp lt v l h = l) ∧ (lt h v = true → clamp lt v l h = h) := by
  unfold clamp
  cases h1 : lt v l with
  | true =>
    have : lt h v = false := by
      cases h2 : lt h v with
      | false => rfl
      | true => exact absurd (hlt.trans _ _ _ h2 h1) (by simp [hlh])
    simp [hlt.irrefl, hlh, this]
  | false => cases h2 : lt h v <;> simp [hlt.irrefl, h1, h2, hlh]

example : natLt 9 3 = false ∧ clamp natLt 12 3 9 = 9 := by decide

/-! ### C17 -/

/-- **C17** `accumulate` is the left fold. -/
theorem accumulate_spec (op : β → α → β) (pre m post : List α) (init : β) :
    accumulate op (pre ++ m ++ post) pre.length (pre.length + m.length) init = some (m.foldl op init) :=
  accumulate_at op m pre post _ _ init rfl rfl

/-- **C17** `inner_product` of ranges of equal length. -/
theorem inner_product_spec (sumOp : γ → γ → γ) (productOp : α → β → γ) (pre m post : List α)
    (pre2 w post2 : List β) (init : γ) (h : m.length = w.length) :
    innerProduct sumOp productOp (pre ++ m ++ post) pre.length (pre.length + m.length)
      (pre2 ++ w ++ post2) pre2.length init = some ((List.zipWith productOp m w).foldl sumOp init) :=
  innerProduct_at sumOp productOp m pre post _ _ w pre2 post2 _ init rfl rfl rfl h

example : ([1, 2, 3] : List Nat).length = ([4, 5, 6] : List Nat).length ∧
    innerProduct (· + ·) (· * ·) [1, 2, 3] 0 3 [4, 5, 6] 0 0 = some 32 :=
  ⟨rfl, inner_product_spec (· + ·) (· * ·) [] [1, 2, 3] [] [] [4, 5, 6] [] 0 rfl⟩

/-- **C17** `iota` stores consecutive values. -/
theorem iota_spec (succ : α → α) (pre m post : List α) (v : α) :
    iota succ (pre ++ m ++ post) pre.length (pre.length + m.length) v =
      some (pre ++ consecutive succ v m.length ++ post) :=
  iota_at succ m pre post _ _ v rfl rfl

/-- **C17** for `partial_sum`, if the compiler reads `*result` before incrementing `result` (which C++14
does not promise): the destination gets the prefix sums; the returned iterator points to the *last*
element written. Missing: the other evaluation order (`partial_sum_order_violated`) and the returned
iterator, which should be one past it. -/
theorem partial_sum_partial (op : α → α → α) (pre post dpre dm dpost : List α) (x : α) (m : List α)
    (hd : dm.length = m.length + 1) :
    partialSum false op (pre ++ (x :: m) ++ post) pre.length (pre.length + (x :: m).length)
        (dpre ++ dm ++ dpost) dpre.length
      = some (dpre ++ (x :: prefixSums op x m) ++ dpost, dpre.length + m.length) := by
  unfold partialSum
  have h1 : rd (pre ++ (x :: m) ++ post) pre.length = some x := by simp
  rw [if_pos (by simp), h1]
  simp only
  match dm, hd with
  | y :: dm, hd =>
    rw [seg_cons dpre, wr_seg _ _ _ _ _ _ rfl]
    simp only
    have := partialSumLoop_at op m (pre ++ [x]) post (pre.length + 1) (pre.length + (x :: m).length)
      dpre dm dpost x dpre.length (by simp) (by simp; omega) rfl (by simpa using hd)
    rw [seg_cons pre]
    rw [← seg_cons dpre]
    rw [this]

/-- With the other evaluation order the sums are wrong: `[1, 2, 3]` into a zeroed destination gives
`[1, 2, 3]`. -/
theorem partial_sum_order_violated :
    partialSum true (· + ·) [1, 2, 3] 0 3 [0, 0, 0] 0 = some ([1, 2, 3], 2) ∧
    prefixSums (· + ·) 1 [2, 3] = [3, 6] := by
  constructor
  · simp +decide [partialSum, partialSumLoop, rd, wr]
  · decide

/-- **C17** is false for `adjacent_difference`: on every range of at least two elements its loop never
ends (after any number `n` of iterations it is still running, having written `n` more values). -/
theorem adjacent_difference_violated (op : α → α → α) (l : List α) (first last : Nat)
    (h : first + 1 < last) (hl : last ≤ l.length) (n : Nat) :
    ∃ out, adjDiffRun op l last n (first + 1, [l[first]'(by omega)]) = some (first + 1, out) ∧
      out.length = n + 1 := by
  obtain ⟨out, h1, h2⟩ := adjDiffRun_at op l last (first + 1) h hl n [l[first]'(by omega)]
  exact ⟨out, h1, by rw [h2]; simp; omega⟩

example : 0 + 1 < 3 ∧ 3 ≤ ([5, 7, 2] : List Nat).length := by decide

/-- **C17** `power` computes `x ^ n` in any monoid, for every `n`. -/
theorem power_spec {M : Type _} [Monoid M] (x : M) (n : Nat) : power (· * ·) 1 x n = x ^ n := by
  unfold power
  rw [powerLoop_at, ← pow_two, ← pow_mul]
  rcases Nat.mod_two_eq_zero_or_one n with h | h
  · rw [if_neg (by omega), one_mul, show 2 * (n / 2) = n by omega]
  · rw [if_pos h, ← pow_succ', show 2 * (n / 2) + 1 = n by omega]

end Ustl.Forward
