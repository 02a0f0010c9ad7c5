import Verif.Ctr.Lemmas
/-!
# C72 (sort), C73 (algorithms on whole containers)
-/
namespace Ustl.Ctr
open Ustl (rd wr)
variable {α β γ κ : Type _}

/-! ### C72 -/

/-- **C72** `sort (first, last, comp)`, provided the comparison object behaves as a default-constructed one of its type
does, for every `qsort` meeting C's contract: the range becomes a sorted permutation of itself, nothing else changes.
Missing: comparison objects with state, function pointers (`sort_compare_violated`, `sort_pointer_violated`). -/
theorem sort_partial {qs : (α → α → Int) → List α → List α} (hq : Seq.QsortContract qs) (T : CmpType κ α) (c d : κ)
    (hd : T.dflt = some d) (hc : T.call c = T.call d) (hlt : StrictWeak (T.call c)) (pre m post : List α) :
    ∃ r, sort qs T (pre ++ m ++ post) pre.length (pre.length + m.length) c = some (pre ++ r ++ post) ∧
      r.Perm m ∧ Sorted (T.call c) r := by
  unfold sort
  rw [if_pos (by simp)]
  split
  · have : m = [] := by
      cases m with
      | nil => rfl
      | cons x m => simp at *
    subst this
    exact ⟨[], rfl, List.Perm.refl _, List.Pairwise.nil⟩
  · simp only [hd]
    refine ⟨_, ?_, Seq.list_sort hlt hq m⟩
    have h1 : (pre ++ m ++ post).take pre.length = pre := by simp
    have h2 : ((pre ++ m ++ post).take (pre.length + m.length)).drop pre.length = m := by
      rw [← List.length_append, List.take_left']
      · simp
      · simp
    have h3 : (pre ++ m ++ post).drop (pre.length + m.length) = post := by
      rw [← List.length_append]; simp
    rw [h1, h2, h3, hc]

/-- **C72** `sort (first, last)` and `sort (ctr)` by `operator<`. -/
theorem sort_less {qs : (α → α → Int) → List α → List α} (hq : Seq.QsortContract qs) {lt : α → α → Bool}
    (hlt : StrictWeak lt) (pre m post : List α) :
    ∃ r, sortLess qs lt (pre ++ m ++ post) pre.length (pre.length + m.length) = some (pre ++ r ++ post) ∧
      r.Perm m ∧ Sorted lt r :=
  sort_partial hq (lessType lt) () () rfl rfl hlt pre m post

theorem sort_ctr {qs : (α → α → Int) → List α → List α} (hq : Seq.QsortContract qs) {lt : α → α → Bool}
    (hlt : StrictWeak lt) (c : List α) : ∃ r, sortCtr qs lt c = some r ∧ r.Perm c ∧ Sorted lt r := by
  have := sort_less hq hlt [] c []
  simpa [sortCtr] using this

theorem sort_ctr_comp_partial {qs : (α → α → Int) → List α → List α} (hq : Seq.QsortContract qs) (T : CmpType κ α)
    (x d : κ) (hd : T.dflt = some d) (hc : T.call x = T.call d) (hlt : StrictWeak (T.call x)) (c : List α) :
    ∃ r, sortCtrComp qs T c x = some r ∧ r.Perm c ∧ Sorted (T.call x) r := by
  have := sort_partial hq T x d hd hc hlt [] c []
  simpa [sortCtrComp] using this

/-- **C72** `nth_element (first, nth, last, comp)`, with the same proviso: no element before `nth` is greater than the
one at `nth`, and none after it is smaller. -/
theorem nth_element_comp_partial {qs : (α → α → Int) → List α → List α} (hq : Seq.QsortContract qs) (T : CmpType κ α)
    (c d : κ) (hd : T.dflt = some d) (hc : T.call c = T.call d) (hlt : StrictWeak (T.call c)) (pre m post : List α) (k : Nat)
    (hk : k < m.length) :
    ∃ lo x hi, nthElementComp qs T (pre ++ m ++ post) pre.length (pre.length + k) (pre.length + m.length) c
        = some (pre ++ (lo ++ x :: hi) ++ post) ∧
      lo.length = k ∧ (lo ++ x :: hi).Perm m ∧ (∀ a ∈ lo, T.call c x a = false) ∧ (∀ b ∈ hi, T.call c b x = false) := by
  obtain ⟨r, h1, h2, h3⟩ := sort_partial hq T c d hd hc hlt pre m post
  have hr : k < r.length := by rw [h2.length_eq]; exact hk
  have e : r = r.take k ++ r[k] :: r.drop (k + 1) := by
    rw [List.getElem_cons_drop, List.take_append_drop]
  refine ⟨r.take k, r[k], r.drop (k + 1), ?_, ?_, ?_, ?_, ?_⟩
  · rw [← e]; exact h1
  · rw [List.length_take]; omega
  · rw [← e]; exact h2
  · rw [Sorted, e, List.pairwise_append] at h3
    exact fun a ha => h3.2.2 a ha _ List.mem_cons_self
  · rw [Sorted, e, List.pairwise_append, List.pairwise_cons] at h3
    exact fun b hb => h3.2.1.1 b hb

/-- A comparison object with a state: ascending by default, descending when asked. -/
def updown : CmpType Bool Nat := ⟨fun down a b => if down then natLt b a else natLt a b, some false⟩

/-- A `qsort`: merge sort. -/
def msort (cmp : α → α → Int) (l : List α) : List α := l.mergeSort fun a b => decide (cmp a b ≤ 0)

/-- **C72** is false for comparison objects with a state: `sort` ignores the object it is given. Whatever `qsort` does
within its contract, asking for descending order yields ascending order. -/
theorem sort_compare_violated {qs : (Nat → Nat → Int) → List Nat → List Nat} (hq : Seq.QsortContract qs) :
    ∃ r, sortCtrComp qs updown [1, 2] true = some r ∧ Sorted natLt r ∧ ¬ Sorted (updown.call true) r := by
  have h := sort_partial hq updown false false rfl rfl (by simpa [updown] using natLt_strictWeak) [] [1, 2] []
  obtain ⟨r, e, hp, hs⟩ := h
  simp only [List.nil_append, List.append_nil, List.length_nil, Nat.zero_add] at e
  refine ⟨r, e, hs, fun hn => ?_⟩
  have hn' : Sorted (fun a b => natLt b a) r := hn
  have hs' : Sorted natLt r := hs
  match r, hp.length_eq, hp with
  | [a, b], _, hp =>
    simp only [Sorted, List.pairwise_cons, List.mem_singleton, forall_eq, natLt, decide_eq_false_iff_not] at hn' hs'
    have h1 := hp.mem_iff (a := 1)
    have h2 := hp.mem_iff (a := 2)
    simp at h1 h2
    omega

/-- **C72** in general: the result does not depend on the comparison object passed, only on its type. -/
theorem sort_ignores_object (qs : (α → α → Int) → List α → List α) (T : CmpType κ α) (l : List α) (f t : Nat) (c c' : κ) :
    sort qs T l f t c = sort qs T l f t c' := rfl

/-- **C72** is false for comparison functions passed by pointer: the call goes through an uninitialised pointer, for
every non-empty range. -/
theorem sort_pointer_violated (qs : (α → α → Int) → List α → List α) (T : CmpType κ α) (hT : T.dflt = none) (c : List α)
    (hc : c ≠ []) (x : κ) : sortCtrComp qs T c x = none := by
  unfold sortCtrComp sort
  have : ¬ 0 = c.length := by
    intro h; exact hc (List.length_eq_zero_iff.1 h.symm)
  simp [hT, this]

theorem msort_contract : Seq.QsortContract (msort (α := α)) := by
  intro cmp l hc
  refine ⟨List.mergeSort_perm _ _, ?_⟩
  have := List.pairwise_mergeSort (le := fun a b => decide (cmp a b ≤ 0)) (fun a b c => by
    simpa using hc.trans a b c) (fun a b => by
      rcases Int.lt_or_le 0 (cmp a b) with h | h
      · have := (hc.anti a b).1 h
        simp; omega
      · simp [h]) l
  simpa [msort] using this

example : ∃ r, sortLess msort natLt ([9] ++ [3, 1, 2] ++ [0]) 1 (1 + 3) = some ([9] ++ r ++ [0]) ∧ r.Perm [3, 1, 2] ∧
    Sorted natLt r := sort_less msort_contract natLt_strictWeak [9] [3, 1, 2] [0]
example : updown.dflt = some false ∧ updown.call false = natLt := ⟨rfl, by funext a b; simp [updown]⟩
example : ∃ T : CmpType (Nat → Nat → Bool) Nat, T.dflt = none ∧ T.call natLt 1 2 = true := ⟨⟨fun f => f, none⟩, rfl, rfl⟩

/-! ### C73: reading -/

/-- **C73** `find`/`find_if` return the position of the first match, `end()` if there is none. -/
theorem ctr_find (p : α → Bool) (c : List α) : find p c = some (c.findIdx p) := by
  obtain ⟨i, h1, h2, h3⟩ := Forward.find_if_spec p [] c []
  simp only [List.nil_append, List.append_nil, List.length_nil, Nat.zero_add] at h1
  unfold find
  rw [h1]
  congr 1
  rcases h3 with h3 | ⟨x, hx, hp⟩
  · subst h3
    symm
    rw [List.findIdx_eq_length]
    intro x hx
    obtain ⟨j, hj, e⟩ := List.getElem_of_mem hx
    exact h2 j x hj (by rw [← e]; simp [hj])
  · obtain ⟨hi, e⟩ := List.getElem?_eq_some_iff.1 hx
    symm
    rw [List.findIdx_eq hi]
    refine ⟨e ▸ hp, fun j hj => ?_⟩
    have := h2 j c[j] hj (by simp [Nat.lt_trans hj hi])
    simpa using this

/-- **C73** `count`/`count_if`. -/
theorem ctr_count (p : α → Bool) (c : List α) : count p c = some (c.countP p) := by
  have := Forward.count_if_spec p [] c []
  simpa [count, List.countP_eq_length_filter] using this

/-- **C73** `for_each`: once per element, in order. -/
theorem ctr_for_each {σ : Type _} (f : σ → α → σ) (c : List α) (s : σ) : forEach f c s = some (c.foldl f s) := by
  have := Forward.for_each_spec f [] c [] s
  simpa [forEach] using this

/-- **C73** `copy`, `copy_if`, `remove_copy`, `remove_copy_if`, `unique_copy`: what is written to the destination. -/
theorem ctr_copies (p : α → Bool) (eq : α → α → Bool) (c : List α) : copy c = some c ∧
    copyIf p c = some (c.filter p) ∧ removeCopy p c = some (c.filter fun x => !p x) ∧
    uniqueCopy eq c = some (runHeads eq c) := by
  refine ⟨?_, ?_, ?_, ?_⟩
  · have := Forward.copy_at c [] [] 0 c.length rfl (by simp)
    simpa [copy] using this
  · have := Forward.copy_if_spec p [] c []
    simpa [copyIf] using this
  · have := Forward.remove_copy_if_spec p [] c []
    simpa [removeCopy] using this
  · have := Forward.unique_copy_spec eq [] c []
    simpa [uniqueCopy] using this

/-- **C73** the three `transform`s; the first writes over the container itself. -/
theorem ctr_transform (op : α → α) (op1 : α → β) (op2 : α → β → γ) (c : List α) (d : List β) (hd : c.length ≤ d.length) :
    transform op c = some (c.map op) ∧ transformTo op1 c = some (c.map op1) ∧
    transform2 op2 c d = some (List.zipWith op2 c d) := by
  refine ⟨?_, ?_, ?_⟩
  · have := transformIn_at op c [] 0 c.length rfl (by simp)
    simpa [transform] using this
  · have := Forward.transform_spec op1 [] c []
    simpa [transformTo] using this
  · have := Forward.transform2_spec op2 [] c [] [] (d.take c.length) (d.drop c.length) (by simp; omega)
    rw [List.append_nil, List.nil_append, List.nil_append, List.take_append_drop] at this
    simp only [List.length_nil, Nat.zero_add] at this
    unfold transform2
    rw [this]
    congr 1
    apply List.ext_getElem?
    intro i
    rw [List.getElem?_zipWith, List.getElem?_zipWith, List.getElem?_take]
    by_cases h : i < c.length
    · simp [h]
    · simp [h]

example : find (· == 3) [1, 3, 3] = some 1 ∧ count (· == 3) [1, 3, 3] = some 2 ∧ find (· == 4) [1, 3, 3] = some 3 :=
  ⟨ctr_find _ _, ctr_count _ _, ctr_find _ _⟩

/-! ### C73: writing -/

/-- **C73** `replace`, the old value not being an element of the container (the new one may be): exactly the matching
elements are replaced. -/
theorem ctr_replace_partial [DecidableEq α] (c : List α) (o n : α) (new : Ref α) (hn : new.get c = some n) :
    replace (fun a b => decide (a = b)) c (.out o) new = some (c.map fun x => if x = o then n else x) := by
  have := replaceLoop_eq (.out o) new c o n rfl hn c.length (.inr ⟨rfl, rfl⟩) c.length c 0 c.length rfl (Nat.zero_le _) rfl
    (by apply List.ext_getElem (by simp); intro i h1 h2; simp)
  unfold replace
  rw [this]
  congr 1
  apply List.ext_getElem (by simp)
  intro i h1 h2
  simp only [List.length_mapIdx] at h1
  simp [Nat.le_of_lt h1]

/-- **C73** `replace`, the old value being element `k` of the container: what is left of it once element `k` itself has
been replaced is the new value, so exactly the matching elements up to `k` are replaced. -/
theorem ctr_replace_ref [DecidableEq α] (c : List α) (k : Nat) (o n : α) (new : Ref α) (ho : c[k]? = some o)
    (hn : new.get c = some n) : replace (fun a b => decide (a = b)) c (.elem k) new =
      some (c.mapIdx fun i x => if i ≤ k ∧ x = o then n else x) :=
  replaceLoop_eq (.elem k) new c o n ho hn k (.inl rfl) c.length c 0 c.length rfl (Nat.zero_le _) rfl
    (by apply List.ext_getElem (by simp); intro i h1 h2; simp)

/-- **C73** so `replace (c, c[k], n)` is wrong exactly when the value occurs again after position `k` (and `n` is another
value). -/
theorem ctr_replace_ref_violated [DecidableEq α] (c : List α) (k : Nat) (o n : α) (ho : c[k]? = some o) (hne : n ≠ o)
    (j : Nat) (hj : k < j) (hm : c[j]? = some o) : replace (fun a b => decide (a = b)) c (.elem k) (.out n) ≠
      some (c.map fun x => if x = o then n else x) := by
  rw [ctr_replace_ref c k o n (.out n) ho rfl]
  intro h
  have h := congrArg (fun r : List α => r[j]?) (Option.some.inj h)
  simp only [List.getElem?_mapIdx, List.getElem?_map, hm, Option.map_some, Option.some.injEq, if_true] at h
  rw [if_neg (by omega)] at h
  exact hne h.symm

example : replace (fun a b => decide (a = b)) [1, 2, 1] (.elem 0) (.out 5) = some [5, 2, 1] :=
  ctr_replace_ref [1, 2, 1] 0 1 5 _ rfl rfl
example : replace (fun a b => decide (a = b)) [1, 2, 1] (.out 1) (.elem 1) = some [2, 2, 2] :=
  ctr_replace_partial [1, 2, 1] 1 2 _ rfl

/-- **C73** `replace_if`. -/
theorem ctr_replace_if (p : α → Bool) (n : α) (c : List α) :
    replaceIf p n c = some (c.map fun x => if p x then n else x) := by
  have := Forward.replace_if_spec p n [] c []
  simpa [replaceIf] using this

/-- **C73** `fill`, even with one of the container's own elements. -/
theorem ctr_fill (c : List α) (v : Ref α) (x : α) (hv : v.get c = some x) : fill c v = some (List.replicate c.length x) := by
  have := fillLoop_eq v x c 0 0 c.length (by simpa using hv) rfl (by simp)
  simpa [fill] using this

example : fill [1, 2, 3] (.elem 2) = some [3, 3, 3] := ctr_fill _ _ 3 rfl

/-- **C73** `generate`: the successive results of the generator; `random_shuffle`: a permutation. -/
theorem ctr_generate (gen : Nat → α) (rnd : Nat → Nat) (c : List α) : generate gen c = some ((List.range c.length).map gen) ∧
    ∃ r, randomShuffle rnd c = some r ∧ r.Perm c := by
  refine ⟨?_, ?_⟩
  · have := Forward.generate_spec gen [] c []
    simpa [generate, List.range_eq_range'] using this
  · have := Permute.random_shuffle_spec rnd [] c []
    simpa [randomShuffle] using this

/-! ### C73: removing -/

/-- **C73** `remove_if`: exactly the elements for which the predicate is false stay, in order. -/
theorem ctr_remove_if (p : α → Bool) (c : List α) : removeIf p c = some (c.filter fun x => !p x) := Seq.list_remove_if p c

/-- **C73** `remove`: exactly the elements not equal to the value stay, in order, if the value is outside the container
or is an element with at least as many positions before it as there are elements that stay.
Missing: other references into the container (`ctr_remove_ref_violated`). -/
theorem ctr_remove_partial (eq : α → α → Bool) (c : List α) (v : Ref α) (x : α) (hv : v.get c = some x)
    (h : ∀ k, v = .elem k → (c.filter fun y => !eq y x).length ≤ k) :
    remove eq c v = some (c.filter fun y => !eq y x) := by
  cases v with
  | out z =>
    simp only [Ref.get, Option.some.injEq] at hv
    subst hv
    exact Seq.list_remove_partial eq c z
  | elem k =>
    have e := removeRefLoop_eq eq k x c.length c 0 c.length 0 (by simp) (by simp) (by simp) (by simp) hv
      (by simpa using h k rfl)
    show Seq.removeRef eq c k = _
    unfold Seq.removeRef
    rw [e]
    exact Seq.list_remove_if (fun y => eq y x) c

/-- **C73** in particular `remove (c, c.back())` is right. -/
theorem ctr_remove_back (eq : α → α → Bool) (hr : ∀ x, eq x x = true) (c : List α) (hc : c ≠ []) :
    remove eq c (.elem (c.length - 1)) = some (c.filter fun y => !eq y (c.getLast hc)) := by
  have hl : 0 < c.length := List.length_pos_iff.2 hc
  refine ctr_remove_partial eq c _ (c.getLast hc) ?_ ?_
  · simp [Ref.get, rd, List.getLast_eq_getElem]
  · rintro k hk
    injection hk with hk
    subst hk
    have : (c.filter fun y => !eq y (c.getLast hc)).length < c.length := by
      rw [List.length_filter_lt_length_iff_exists]
      exact ⟨c.getLast hc, List.getLast_mem hc, by simp [hr]⟩
    omega

/-- **C73** is false for other references into the container: `remove (c, c[0])` on `1 2 1 2` leaves `2 1`. -/
theorem ctr_remove_ref_violated : remove (fun a b : Nat => a == b) [1, 2, 1, 2] (.elem 0) = some [2, 1] ∧
    [1, 2, 1, 2].filter (fun y => !y == 1) = [2, 2] := ⟨Seq.list_remove_ref_violated.1, by decide⟩

example : remove (fun a b : Nat => a == b) [1, 2, 1, 2] (.elem 3) = some [1, 1] :=
  ctr_remove_back _ (by simp) [1, 2, 1, 2] (by simp)
example : remove (fun a b : Nat => a == b) [1, 2, 1, 2] (.elem 2) = some [2, 2] :=
  ctr_remove_partial _ _ _ 1 rfl (by rintro k hk; injection hk with hk; subst hk; simp)

/-- **C73** `remove (ctr, rfirst, rlast)`, given a sorted sequence of iterators (repetitions allowed): exactly the
elements at other positions stay, in order. -/
theorem ctr_remove_iters (c : List α) (rs : List Nat) (hs : rs.Pairwise (· ≤ ·)) :
    removeIters c rs = some ((c.zipIdx.filter fun x => decide (x.2 ∉ rs)).map Prod.fst) := by
  obtain ⟨g, e⟩ := removeItersLoop_at c [] [] rs 0 c.length 0 rfl rfl (by simp) hs
  simp only [List.nil_append, Nat.zero_add] at e
  unfold removeIters
  rw [e]
  have := Seq.verase_tail ((c.zipIdx.filter fun x => decide (x.2 ∉ rs)).map Prod.fst) g
  simpa using this

example : removeIters [10, 11, 12, 13] [1, 1, 3] = some [10, 12] := ctr_remove_iters _ _ (by simp)

/-- **C73** `unique`: the first element of every run stays. -/
theorem ctr_unique (eq : α → α → Bool) (c : List α) : unique eq c = some (runHeads eq c) := Seq.list_unique eq c

/-- **C73** what `remove`, `remove_if`, `remove` by iterators and `unique` leave of a sorted container (a multiset, say)
is sorted. -/
theorem ctr_removals_sorted {lt : α → α → Bool} (c : List α) (hs : Sorted lt c) (p : α → Bool) (rs : List Nat)
    (hr : rs.Pairwise (· ≤ ·)) :
    (∃ r, removeIf p c = some r ∧ Sorted lt r) ∧ (∃ r, removeIters c rs = some r ∧ Sorted lt r) := by
  refine ⟨⟨_, ctr_remove_if p c, hs.sublist List.filter_sublist⟩, _, ctr_remove_iters c rs hr, ?_⟩
  refine List.Pairwise.sublist (l₂ := c) ?_ hs
  have : (c.zipIdx.filter fun x => decide (x.2 ∉ rs)).map Prod.fst |>.Sublist (c.zipIdx.map Prod.fst) :=
    List.filter_sublist.map _
  simpa using this

example : Sorted natLt [1, 1, 2, 4] ∧ ([0, 2] : List Nat).Pairwise (· ≤ ·) := by decide

/-! ### C73: rearranging and searching -/

/-- **C73** `reverse`. -/
theorem ctr_reverse (c : List α) : reverse c = some c.reverse := Seq.list_reverse c

/-- **C73** `rotate (ctr, n)` for `n > 0` moves every element `n` places towards the end, the last `n` to the front. -/
theorem ctr_rotate_right (c : List α) (n : Nat) (h0 : 0 < n) (hn : n < c.length) :
    rotate c n = some (c.drop (c.length - n) ++ c.take (c.length - n)) := by
  unfold rotate
  rw [if_pos (by omega), if_pos (by omega)]
  obtain ⟨r, e⟩ := Permute.rotate_spec_partial [] (c.take (c.length - n)) (c.drop (c.length - n)) []
  simp only [List.nil_append, List.append_nil, List.length_nil, Nat.zero_add, List.take_append_drop] at e
  have h1 : (c.take (c.length - n)).length = c.length - n := by simp
  have h2 : c.length - n + (c.drop (c.length - n)).length = c.length := by rw [List.length_drop]; omega
  rw [h1, h2] at e
  have h3 : (n : Int).toNat = n := by omega
  rw [h3, e]
  rfl

/-- **C73** `rotate (ctr, -n)` moves every element `n` places towards the front, the first `n` to the end.
Missing: the empty container (`ctr_rotate_empty_violated`). -/
theorem ctr_rotate_left_partial (c : List α) (n : Nat) (hn : n < c.length) :
    rotate c (-(n : Int)) = some (c.drop n ++ c.take n) := by
  unfold rotate
  rw [if_pos (by omega), if_neg (by omega)]
  obtain ⟨r, e⟩ := Permute.rotate_spec_partial [] (c.take n) (c.drop n) []
  simp only [List.nil_append, List.append_nil, List.length_nil, Nat.zero_add, List.take_append_drop] at e
  have h1 : (c.take n).length = n := by simp; omega
  have h2 : n + (c.drop n).length = c.length := by simp; omega
  rw [h1, h2] at e
  have h3 : (-(-(n : Int))).toNat = n := by omega
  rw [h3, e]
  rfl

/-- **C73** rotating one way and back restores the container. -/
theorem ctr_rotate_back (c : List α) (n : Nat) (h0 : 0 < n) (hn : n < c.length) :
    (rotate c n).bind (fun d => rotate d (-(n : Int))) = some c := by
  rw [ctr_rotate_right c n h0 hn]
  simp only [Option.bind_some]
  have hl : (c.drop (c.length - n) ++ c.take (c.length - n)).length = c.length := by
    rw [List.length_append, List.length_drop, List.length_take]; omega
  have h1 : (c.drop (c.length - n)).length = n := by rw [List.length_drop]; omega
  rw [ctr_rotate_left_partial _ n (by omega), List.drop_left' h1, List.take_left' h1, List.take_append_drop]

/-- **C73** is false for the empty container: rotating it by nothing fails the assertion. -/
theorem ctr_rotate_empty_violated : rotate ([] : List α) 0 = none := rfl

example : rotate [1, 2, 3, 4] 1 = some [4, 1, 2, 3] := ctr_rotate_right [1, 2, 3, 4] 1 (by simp) (by simp)
example : rotate [1, 2, 3, 4] (-1) = some [2, 3, 4, 1] := ctr_rotate_left_partial [1, 2, 3, 4] 1 (by simp)

/-- **C73** `stable_sort`. -/
theorem ctr_stable_sort {lt : α → α → Bool} (hlt : StrictWeak lt) (c : List α) :
    ∃ r, stableSort lt c = some r ∧ r.Perm c ∧ Sorted lt r ∧ ∀ a, equivalents lt a r = equivalents lt a c := by
  have := Permute.stable_sort_spec hlt [] c []
  simpa [stableSort] using this

/-- **C73** the binary searches of a sorted container. -/
theorem ctr_search {lt : α → α → Bool} (hlt : StrictWeak lt) (c : List α) (v : α) (hs : Sorted lt c) :
    ∃ lo eq hi, c = lo ++ eq ++ hi ∧ (∀ x ∈ lo, lt x v = true) ∧ (∀ x ∈ eq, Equiv lt x v) ∧ (∀ x ∈ hi, lt v x = true) ∧
      lowerBound lt c v = some lo.length ∧ upperBound lt c v = some (lo.length + eq.length) ∧
      equalRange lt c v = some (lo.length, lo.length + eq.length) ∧ binarySearch lt c v = some (!eq.isEmpty) := by
  obtain ⟨lo, e, hi, hc, he, h1, h2, h3⟩ := Search.equal_range_spec hlt [] c [] v hs
  obtain ⟨lo', hi', hc', hl, h4, h5⟩ := Search.lower_bound_spec hlt [] c [] v hs
  obtain ⟨lo'', hi'', hc'', hu, h6, h7⟩ := Search.upper_bound_spec hlt [] c [] v hs
  obtain ⟨b, hb, hb'⟩ := Search.binary_search_spec hlt [] c [] v hs
  simp only [List.nil_append, List.append_nil, List.length_nil, Nat.zero_add] at he hl hu hb
  -- a split of `c` at a position where `p` goes from true to false is unique
  have split : ∀ (p : α → Bool) (a b a' b' : List α), a ++ b = a' ++ b' → (∀ x ∈ a, p x = true) → (∀ x ∈ b, p x = false) →
      (∀ x ∈ a', p x = true) → (∀ x ∈ b', p x = false) → a = a' := by
    intro p a b a' b' hab ha hb ha' hb'
    have e1 : (a ++ b).filter p = a := by
      rw [List.filter_append, List.filter_eq_self.2 ha, List.filter_eq_nil_iff.2 (fun x hx => by simp [hb x hx]), List.append_nil]
    have e2 : (a' ++ b').filter p = a' := by
      rw [List.filter_append, List.filter_eq_self.2 ha', List.filter_eq_nil_iff.2 (fun x hx => by simp [hb' x hx]), List.append_nil]
    rw [← e1, ← e2, hab]
  have hlo : lo' = lo := split (fun x => lt x v) lo' hi' lo (e ++ hi) (by rw [← hc', hc, List.append_assoc]) h4 h5 h1 (by
    intro x hx
    rcases List.mem_append.1 hx with h | h
    · exact (h2 x h).1
    · exact hlt.asymm (h3 x h))
  have hup : lo'' = lo ++ e := split (fun x => !lt v x) lo'' hi'' (lo ++ e) hi (by rw [← hc'', hc]) (by simpa using h6)
    (by simpa using h7) (by
      intro x hx
      rcases List.mem_append.1 hx with h | h
      · simp [hlt.asymm (h1 x h)]
      · simp [(h2 x h).2]) (by simpa using h3)
  refine ⟨lo, e, hi, hc, h1, h2, h3, ?_, ?_, ?_, ?_⟩
  · rw [← hlo]; exact hl
  · rw [← List.length_append, ← hup]; exact hu
  · exact he
  · refine hb.trans ?_
    congr 1
    rw [Bool.eq_iff_iff, hb']
    constructor
    · rintro ⟨x, hx, hv⟩
      rw [hc, List.mem_append, List.mem_append] at hx
      rcases hx with (h | h) | h
      · exact absurd hv.1 (by simp [h1 x h])
      · cases e with
        | nil => cases h
        | cons y e => rfl
      · exact absurd hv.2 (by simp [h3 x h])
    · intro h
      cases e with
      | nil => cases h
      | cons y e => exact ⟨y, by simp [hc], h2 y (by simp)⟩

example : ∃ r, stableSort natLt [3, 1, 2] = some r ∧ r.Perm [3, 1, 2] ∧ Sorted natLt r ∧ ∀ a, equivalents natLt a r =
    equivalents natLt a [3, 1, 2] := ctr_stable_sort natLt_strictWeak _
example : Sorted natLt [1, 2, 2, 3] := by decide

end Ustl.Ctr
