import Verif.Assoc.Lemmas
/-! # Sorted containers: C30 set, C31 multiset, C32 map, C33 multimap -/
set_option linter.unusedSectionVars false
namespace Ustl.Assoc
open Ustl.Search

variable {α κ V : Type _}

/-! ### Searches -/

theorem findKey_split {lt : κ → κ → Bool} {key : α → κ} {l lo eq hi : List α} {k : κ} (sp : Split lt key l k lo eq hi) :
    findKey lt key l k = some (if eq = [] then l.length else lo.length) := by
  have hcat := sp.cat
  unfold findKey
  rw [sp.lb]
  match eq, sp with
  | [], sp =>
    rw [List.append_nil] at hcat
    match hi, sp with
    | [], _ =>
      rw [List.append_nil] at hcat
      simp only
      rw [if_neg (by rw [hcat]; omega), if_pos trivial, hcat]
    | z :: t, sp =>
      simp only
      rw [if_pos (by rw [hcat]; simp), hcat, rd_cat]
      simp only [if_pos (sp.hi z (by simp)), if_true]
  | y :: t, sp =>
    simp only
    have e : l = lo ++ y :: (t ++ hi) := by rw [hcat]; simp
    rw [if_pos (by rw [e]; simp), e, rd_cat, if_neg (by simp)]
    simp only [(sp.eq y (by simp)).1, Bool.false_eq_true, if_false]

theorem findEq_split [DecidableEq κ] {lt : κ → κ → Bool} {key : α → κ} {l lo eq hi : List α} {k : κ} (h : Linear lt)
    (sp : Split lt key l k lo eq hi) : findEq lt key l k = some (if eq = [] then l.length else lo.length) := by
  have hcat := sp.cat
  unfold findEq
  rw [sp.lb]
  match eq, sp with
  | [], sp =>
    rw [List.append_nil] at hcat
    match hi, sp with
    | [], _ =>
      rw [List.append_nil] at hcat
      simp only
      rw [if_pos (by rw [hcat]), if_pos trivial]
    | z :: t, sp =>
      simp only
      rw [if_neg (by rw [hcat]; simp), hcat, rd_cat]
      have hz := sp.hi z (by simp)
      have : key z ≠ k := by
        intro e; rw [e, h.irrefl] at hz; cases hz
      simp only [if_neg this, if_true]
  | y :: t, sp =>
    simp only
    have e : l = lo ++ y :: (t ++ hi) := by rw [hcat]; simp
    have hy := sp.eq y (by simp)
    rw [if_neg (by rw [e]; simp), e, rd_cat, if_neg (by simp)]
    simp only [if_pos (h.tri _ _ hy.1 hy.2).symm]

/-! ### C30: set -/

/-- The contents show the mathematical set. -/
def SetRep (lt : α → α → Bool) (l : List α) (S : α → Prop) : Prop := KStrict lt id l ∧ ∀ x, x ∈ l ↔ S x

section
variable [DecidableEq α] {lt : α → α → Bool}

theorem not_mem_split (h : StrictWeak lt) {l lo hi : List α} {v : α} (sp : Split lt id l v lo [] hi) : v ∉ l := by
  intro hv
  rw [sp.cat, List.append_nil, List.mem_append] at hv
  rcases hv with hv | hv
  · have := sp.lo v hv; rw [id, h.irrefl] at this; cases this
  · have := sp.hi v hv; rw [id, h.irrefl] at this; cases this

theorem insertU_set (h : Linear lt) {l : List α} (hl : KStrict lt id l) (v : α) :
    ∃ l' i b, insertU lt id l v = some (l', i, b) ∧ KStrict lt id l' ∧ (∀ x, x ∈ l' ↔ x = v ∨ x ∈ l) ∧
      l'[i]? = some v ∧ (b = true ↔ v ∉ l) := by
  rcases insertU_spec h.toStrictWeak hl v with ⟨lo, hi, e, hi', h1, h2⟩ | ⟨lo, y, hi, e, hi', he, sp⟩
  · subst e
    refine ⟨_, _, _, hi', strict_insert hl h1 h2, ?_, by simp, ?_⟩
    · intro x; simp only [List.mem_append, List.mem_singleton]; constructor
      · rintro ((hx | hx) | hx)
        · exact Or.inr (Or.inl hx)
        · exact Or.inl hx
        · exact Or.inr (Or.inr hx)
      · rintro (hx | hx | hx)
        · exact Or.inl (Or.inr hx)
        · exact Or.inl (Or.inl hx)
        · exact Or.inr hx
    · simp only [List.mem_append, true_iff]
      rintro (hv | hv)
      · have := h1 v hv; rw [h.irrefl] at this; cases this
      · have := h2 v hv; rw [h.irrefl] at this; cases this
  · have hy : v = y := h.tri _ _ he.1 he.2
    subst hy
    subst e
    refine ⟨_, _, _, hi', hl, ?_, by simp, ?_⟩
    · intro x; constructor
      · exact Or.inr
      · rintro (rfl | hx)
        · simp
        · exact hx
    · simp

theorem insertUs_set (h : Linear lt) : ∀ (vs l : List α), KStrict lt id l →
    ∃ l', insertUs lt id l vs = some l' ∧ KStrict lt id l' ∧ ∀ x, x ∈ l' ↔ x ∈ vs ∨ x ∈ l
  | [], l, hl => ⟨l, rfl, hl, fun x => by simp⟩
  | v :: vs, l, hl => by
    obtain ⟨l1, i, b, e, k1, m1, _, _⟩ := insertU_set h hl v
    obtain ⟨l2, e2, k2, m2⟩ := insertUs_set h vs l1 k1
    refine ⟨l2, by unfold insertUs; rw [e]; exact e2, k2, fun x => ?_⟩
    rw [m2, m1, List.mem_cons]
    constructor
    · rintro (hx | hx | hx)
      · exact Or.inl (Or.inr hx)
      · exact Or.inl (Or.inl hx)
      · exact Or.inr hx
    · rintro ((hx | hx) | hx)
      · exact Or.inr (Or.inl hx)
      · exact Or.inl hx
      · exact Or.inr (Or.inr hx)

theorem set_step (h : Linear lt) {l : List α} {S : α → Prop} (op : SetOp α) (hr : SetRep lt l S) (hp : op.Pre l) :
    ∃ l', setStep lt l op = some l' ∧ SetRep lt l' (op.apply l S) := by
  obtain ⟨hl, hm⟩ := hr
  have hn := KStrict.nodup h.toStrictWeak hl
  cases op with
  | insert v =>
    obtain ⟨l1, i, b, e, k1, m1, _, _⟩ := insertU_set h hl v
    exact ⟨l1, by show (insertU lt id l v).map (·.1) = _; rw [e]; rfl, k1, fun x => by rw [m1, hm]; rfl⟩
  | insertRange vs =>
    obtain ⟨l1, e, k1, m1⟩ := insertUs_set h vs l hl
    exact ⟨l1, e, k1, fun x => by rw [m1, hm]; rfl⟩
  | assign vs =>
    obtain ⟨l1, e, k1, m1⟩ := insertUs_set h vs [] List.Pairwise.nil
    exact ⟨l1, e, k1, fun x => by rw [m1]; simp [SetOp.apply]⟩
  | clear => exact ⟨[], rfl, List.Pairwise.nil, fun x => by simp [SetOp.apply]⟩
  | eraseAt i =>
    have hi : i < l.length := hp
    refine ⟨_, verase_at hi, hl.sublist (List.eraseIdx_sublist _ _), fun x => ?_⟩
    have := mem_range_of_nodup hn (Nat.le_succ i) x
    rw [List.eraseIdx_eq_take_drop_succ, this, hm]
    have e : (l.take (i + 1)).drop i = [l[i]] := by
      rw [List.take_succ_eq_append_getElem hi, List.drop_append_of_le_length (by simp; omega)]
      rw [List.drop_of_length_le (by simp; omega)]; rfl
    show S x ∧ x ∉ (l.take (i + 1)).drop i ↔ S x ∧ l[i]? ≠ some x
    rw [e, List.getElem?_eq_getElem hi, List.mem_singleton, ne_eq, Option.some.injEq]
    constructor
    · rintro ⟨a, b⟩; exact ⟨a, fun c => b c.symm⟩
    · rintro ⟨a, b⟩; exact ⟨a, fun c => b c.symm⟩
  | eraseRange i j =>
    obtain ⟨h1, h2⟩ : i ≤ j ∧ j ≤ l.length := hp
    refine ⟨_, veraseRange_at h1 h2, hl.sublist (range_sublist l h1), fun x => ?_⟩
    rw [mem_range_of_nodup hn h1, hm]; rfl
  | erase v =>
    obtain ⟨lo, eq, hi, sp⟩ := split h.toStrictWeak (KStrict.sorted h.toStrictWeak hl) v
    have hf := findEq_split h sp
    show ∃ l', eraseFound l (findEq lt id l v) = some l' ∧ _
    rw [hf]
    rcases unique_eq h.toStrictWeak hl sp with he | ⟨y, he⟩
    · subst he
      refine ⟨l, by unfold eraseFound; simp, hl, fun x => ?_⟩
      have hv := not_mem_split h.toStrictWeak sp
      rw [hm] at hv
      show x ∈ l ↔ S x ∧ x ≠ v
      rw [hm]
      exact ⟨fun hx => ⟨hx, fun e => hv (e ▸ hx)⟩, fun hx => hx.1⟩
    · subst he
      have hy := sp.eq y (by simp)
      have : v = y := h.tri _ _ hy.1 hy.2
      subst this
      have hcat := sp.cat
      have hlt : lo.length ≠ l.length := by rw [hcat]; simp
      refine ⟨lo ++ hi, ?_, ?_, fun x => ?_⟩
      · unfold eraseFound
        rw [if_neg (by simp)]
        simp only [if_neg hlt]
        rw [hcat]
        exact verase_cat lo [v] hi
      · refine hl.sublist ?_
        rw [hcat, List.append_assoc]
        exact List.Sublist.append (List.Sublist.refl _) (List.sublist_append_right _ _)
      · show x ∈ lo ++ hi ↔ S x ∧ x ≠ v
        rw [← hm, hcat]
        simp only [List.mem_append, List.mem_singleton]
        constructor
        · rintro (hx | hx)
          · refine ⟨Or.inl (Or.inl hx), fun e => ?_⟩
            have := sp.lo x hx; rw [e, id, h.irrefl] at this; cases this
          · refine ⟨Or.inr hx, fun e => ?_⟩
            have := sp.hi x hx; rw [e, id, h.irrefl] at this; cases this
        · rintro ⟨(hx | hx) | hx, hne⟩
          · exact Or.inl hx
          · exact absurd hx hne
          · exact Or.inr hx

theorem set_rep (h : Linear lt) {l : List α} {S : α → Prop} (hh : SetHist lt l S) : SetRep lt l S := by
  induction hh with
  | nil => exact ⟨List.Pairwise.nil, fun x => by simp⟩
  | step op _ hp he ih =>
    obtain ⟨l', e, r⟩ := set_step h op ih hp
    rw [he] at e
    cases e
    exact r

/-- **C30** after any history a set's elements in iteration order are strictly increasing and are exactly those of the
mathematical set. -/
theorem set_history (h : Linear lt) {l : List α} {S : α → Prop} (hh : SetHist lt l S) :
    l.Pairwise (fun a b => lt a b = true) ∧ ∀ x, x ∈ l ↔ S x := set_rep h hh

/-- **C30** no operation with valid iterators is undefined after any history. -/
theorem set_progress (h : Linear lt) {l : List α} {S : α → Prop} (hh : SetHist lt l S) (op : SetOp α) (hp : op.Pre l) :
    ∃ l', setStep lt l op = some l' ∧ SetHist lt l' (op.apply l S) := by
  obtain ⟨l', e, _⟩ := set_step h op (set_rep h hh) hp
  exact ⟨l', e, hh.step op hp e⟩

/-- **C30** `insert` returns the position of the value and whether it was new. -/
theorem set_insert_result (h : Linear lt) {l : List α} {S : α → Prop} (hh : SetHist lt l S) (v : α) :
    ∃ l' i b, insertU lt id l v = some (l', i, b) ∧ SetHist lt l' (fun x => x = v ∨ S x) ∧ l'[i]? = some v ∧
      (b = true ↔ ¬ S v) := by
  have hr := set_rep h hh
  obtain ⟨l1, i, b, e, _, _, m2, m3⟩ := insertU_set h hr.1 v
  refine ⟨l1, i, b, e, ?_, m2, by rw [m3, hr.2]⟩
  exact hh.step (.insert v) trivial (by show (insertU lt id l v).map (·.1) = _; rw [e]; rfl)

/-- **C30** `find` returns the position of the value if it is a member and `end()` otherwise; `count` is 1 or 0. -/
theorem set_find_count (h : Linear lt) {l : List α} {S : α → Prop} (hh : SetHist lt l S) (v : α) :
    (S v → ∃ i, findEq lt id l v = some i ∧ l[i]? = some v ∧ count lt id l v = some 1) ∧
    (¬ S v → findEq lt id l v = some l.length ∧ count lt id l v = some 0) := by
  obtain ⟨hl, hm⟩ := set_rep h hh
  obtain ⟨lo, eq, hi, sp⟩ := split h.toStrictWeak (KStrict.sorted h.toStrictWeak hl) v
  have hf := findEq_split h sp
  have hc : count lt id l v = some eq.length := by
    unfold count; rw [sp.er]; simp
  rcases unique_eq h.toStrictWeak hl sp with he | ⟨y, he⟩
  · subst he
    have hv := not_mem_split h.toStrictWeak sp
    rw [hm] at hv
    exact ⟨fun hs => absurd hs hv, fun _ => ⟨hf, hc⟩⟩
  · subst he
    have hy := sp.eq y (by simp)
    have : v = y := h.tri _ _ hy.1 hy.2
    subst this
    have hvl : S v := by rw [← hm, sp.cat]; simp
    refine ⟨fun _ => ⟨lo.length, hf, ?_, hc⟩, fun hs => absurd hvl hs⟩
    rw [sp.cat]; simp

/-- **C30** `lower_bound` and `upper_bound` separate the members below, and not above, the value from the rest. -/
theorem set_bounds (h : Linear lt) {l : List α} {S : α → Prop} (hh : SetHist lt l S) (v : α) :
    ∃ i j, lb lt id l v = some i ∧ ub lt id l v = some j ∧ er lt id l v = some (i, j) ∧
      (∀ x, x ∈ l.take i ↔ S x ∧ lt x v = true) ∧ (∀ x, x ∈ l.drop j ↔ S x ∧ lt v x = true) := by
  obtain ⟨hl, hm⟩ := set_rep h hh
  obtain ⟨lo, eq, hi, sp⟩ := split h.toStrictWeak (KStrict.sorted h.toStrictWeak hl) v
  have hcat := sp.cat
  refine ⟨_, _, sp.lb, sp.ub, sp.er, fun x => ?_, fun x => ?_⟩
  · have e : l.take lo.length = lo := by rw [hcat, List.append_assoc, List.take_left]
    rw [e, ← hm]
    constructor
    · intro hx
      exact ⟨by rw [hcat]; simp [hx], sp.lo x hx⟩
    · rintro ⟨hx, hlt⟩
      rw [hcat, List.append_assoc, List.mem_append, List.mem_append] at hx
      rcases hx with hx | hx | hx
      · exact hx
      · have := (sp.eq x hx).2; rw [id, hlt] at this; cases this
      · have := h.asymm (sp.hi x hx); rw [id, hlt] at this; cases this
  · have e : l.drop (lo.length + eq.length) = hi := by
      rw [hcat, show lo.length + eq.length = (lo ++ eq).length by simp, List.drop_left]
    rw [e, ← hm]
    constructor
    · intro hx
      exact ⟨by rw [hcat]; simp [hx], sp.hi x hx⟩
    · rintro ⟨hx, hlt⟩
      rw [hcat, List.append_assoc, List.mem_append, List.mem_append] at hx
      rcases hx with hx | hx | hx
      · have := h.asymm (sp.lo x hx); rw [id, hlt] at this; cases this
      · have := (sp.eq x hx).1; rw [id, hlt] at this; cases this
      · exact hx
end

/-- `set (n)` calls `vector (n)`: `n` equal elements. Models uset.h:38. -/
def setCtorN (n : Nat) (dflt : α) : List α := List.replicate n dflt

/-- **C30** violated by the size constructor: for `n ≥ 2` the set holds one key several times. -/
theorem set_ctor_n_violated {lt : α → α → Bool} (h : StrictWeak lt) (n : Nat) (d : α) (hn : 2 ≤ n) :
    ¬ (setCtorN n d).Pairwise (fun a b => lt a b = true) := by
  obtain ⟨m, rfl⟩ : ∃ m, n = m + 2 := ⟨n - 2, by omega⟩
  intro hp
  unfold setCtorN at hp
  rw [List.replicate_succ, List.replicate_succ, List.pairwise_cons] at hp
  have := hp.1 d (by simp)
  rw [h.irrefl] at this
  cases this

/-- Ordering pairs by their first component only. -/
def fstLt (a b : Nat × Nat) : Bool := decide (a.1 < b.1)

theorem fstLt_weak : StrictWeak fstLt := by
  constructor
  · intro a; simp [fstLt]
  · intro a b c; simp only [fstLt, decide_eq_true_eq]; omega
  · intro a b c; simp only [fstLt, decide_eq_false_iff_not]; omega

/-- With an order in which distinct values can be equivalent, `insert` refuses a value that `find` does not find. -/
theorem set_find_equiv_violated : StrictWeak fstLt ∧ insertU fstLt id [(1, 0)] (1, 5) = some ([(1, 0)], 0, false) ∧
    findEq fstLt id [(1, 0)] (1, 5) = some 1 := by
  refine ⟨fstLt_weak, ?_, ?_⟩
  · simp [insertU, lb, lowerBound, rd, fstLt]
  · simp [findEq, lb, lowerBound, rd, fstLt]

/-! ### C32: map -/

/-- The contents show the finite map. -/
def MapRep (lt : κ → κ → Bool) (l : List (κ × V)) (F : κ → Option V) : Prop :=
  KStrict lt Prod.fst l ∧ ∀ k v, (k, v) ∈ l ↔ F k = some v

section
variable [DecidableEq κ] {lt : κ → κ → Bool}

theorem map_split (h : Linear lt) {l lo eq hi : List (κ × V)} {F : κ → Option V} {k : κ} (hr : MapRep lt l F)
    (sp : Split lt Prod.fst l k lo eq hi) : (eq = [] ∧ F k = none) ∨ ∃ v, eq = [(k, v)] ∧ F k = some v := by
  rcases unique_eq h.toStrictWeak hr.1 sp with he | ⟨y, he⟩
  · refine Or.inl ⟨he, ?_⟩
    cases hF : F k with
    | none => rfl
    | some v =>
      exfalso
      have hv := (hr.2 k v).2 hF
      rw [sp.cat, he, List.append_nil, List.mem_append] at hv
      rcases hv with hv | hv
      · have := sp.lo _ hv; rw [h.irrefl] at this; cases this
      · have := sp.hi _ hv; rw [h.irrefl] at this; cases this
  · obtain ⟨k', v⟩ := y
    subst he
    have hy := sp.eq _ (List.mem_singleton.2 rfl)
    have : k = k' := h.tri _ _ hy.1 hy.2
    subst this
    refine Or.inr ⟨v, rfl, ?_⟩
    rw [← hr.2, sp.cat]; simp

theorem map_put (h : Linear lt) {lo hi : List (κ × V)} {F : κ → Option V} {k : κ} (v : V) (hr : MapRep lt (lo ++ hi) F)
    (h1 : ∀ x ∈ lo, lt x.1 k = true) (h2 : ∀ x ∈ hi, lt k x.1 = true) :
    MapRep lt (lo ++ [(k, v)] ++ hi) (fun x => if x = k then some v else F x) := by
  refine ⟨strict_insert hr.1 h1 h2, fun k' v' => ?_⟩
  have hne : (k', v') ∈ lo ++ hi → k' ≠ k := by
    intro hx e
    subst e
    rw [List.mem_append] at hx
    rcases hx with hx | hx
    · have := h1 _ hx; rw [h.irrefl] at this; cases this
    · have := h2 _ hx; rw [h.irrefl] at this; cases this
  simp only []
  by_cases hk : k' = k
  · rw [if_pos hk]
    simp only [List.mem_append, List.mem_singleton, Prod.mk.injEq, Option.some.injEq]
    constructor
    · rintro ((hx | hx) | hx)
      · exact absurd hk (hne (by simp [hx]))
      · exact hx.2.symm
      · exact absurd hk (hne (by simp [hx]))
    · rintro rfl; exact Or.inl (Or.inr ⟨hk, rfl⟩)
  · rw [if_neg hk, ← hr.2]
    simp only [List.mem_append, List.mem_singleton, Prod.mk.injEq]
    constructor
    · rintro ((hx | hx) | hx)
      · exact Or.inl hx
      · exact absurd hx.1 hk
      · exact Or.inr hx
    · rintro (hx | hx)
      · exact Or.inl (Or.inl hx)
      · exact Or.inr hx

/-- What surrounds an entry of a strictly increasing list. -/
theorem strict_around {lo hi : List (κ × V)} {p : κ × V} (hl : KStrict lt Prod.fst (lo ++ [p] ++ hi)) :
    (∀ x ∈ lo, lt x.1 p.1 = true) ∧ ∀ x ∈ hi, lt p.1 x.1 = true := by
  unfold KStrict at hl
  rw [List.append_assoc, List.pairwise_append] at hl
  refine ⟨fun x hx => hl.2.2 x hx p (by simp), ?_⟩
  rw [List.singleton_append, List.pairwise_cons] at hl
  exact hl.2.1.1

theorem map_remove (h : Linear lt) {lo hi : List (κ × V)} {F : κ → Option V} {k : κ} {v : V}
    (hr : MapRep lt (lo ++ [(k, v)] ++ hi) F) : MapRep lt (lo ++ hi) (fun x => if x = k then none else F x) := by
  obtain ⟨h1, h2⟩ := strict_around hr.1
  refine ⟨hr.1.sublist ?_, fun k' v' => ?_⟩
  · rw [List.append_assoc]
    exact List.Sublist.append (List.Sublist.refl _) (List.sublist_append_right _ _)
  · simp only []
    by_cases hk : k' = k
    · rw [if_pos hk]
      subst hk
      refine ⟨fun hx => ?_, fun hx => nomatch hx⟩
      rw [List.mem_append] at hx
      rcases hx with hx | hx
      · have := h1 _ hx; rw [h.irrefl] at this; cases this
      · have := h2 _ hx; rw [h.irrefl] at this; cases this
    · rw [if_neg hk, ← hr.2]
      simp only [List.mem_append, List.mem_singleton, Prod.mk.injEq]
      constructor
      · rintro (hx | hx)
        · exact Or.inl (Or.inl hx)
        · exact Or.inr hx
      · rintro ((hx | hx) | hx)
        · exact Or.inl hx
        · exact absurd hx.1 hk
        · exact Or.inr hx

theorem map_change (h : Linear lt) {lo hi : List (κ × V)} {F : κ → Option V} {k : κ} {v : V} (w : V)
    (hr : MapRep lt (lo ++ [(k, v)] ++ hi) F) :
    MapRep lt (lo ++ [(k, w)] ++ hi) (fun x => if x = k then some w else F x) := by
  obtain ⟨h1, h2⟩ := strict_around hr.1
  have := map_put h w (map_remove h hr) h1 h2
  refine ⟨this.1, fun k' v' => ?_⟩
  rw [this.2]
  simp only
  by_cases hk : k' = k
  · rw [if_pos hk, if_pos hk]
  · rw [if_neg hk, if_neg hk, if_neg hk]

theorem MapRep.congr {l : List (κ × V)} {F G : κ → Option V} (hr : MapRep lt l F) (e : ∀ k, F k = G k) : MapRep lt l G :=
  ⟨hr.1, fun k v => by rw [hr.2, e]⟩

theorem insertU_map (h : Linear lt) {l : List (κ × V)} {F : κ → Option V} (hr : MapRep lt l F) (k : κ) (v : V) :
    ∃ l' i b, insertU lt Prod.fst l (k, v) = some (l', i, b) ∧
      MapRep lt l' (fun x => if x = k then (F k).or (some v) else F x) ∧ (l'[i]?).map (·.1) = some k ∧
      (b = true ↔ F k = none) := by
  rcases insertU_spec h.toStrictWeak hr.1 (k, v) with ⟨lo, hi, e, hi', h1, h2⟩ | ⟨lo, y, hi, e, hi', he, sp⟩
  · subst e
    have hF : F k = none := by
      cases hF : F k with
      | none => rfl
      | some w =>
        exfalso
        have hv := (hr.2 k w).2 hF
        rw [List.mem_append] at hv
        rcases hv with hv | hv
        · have := h1 _ hv; rw [h.irrefl] at this; cases this
        · have := h2 _ hv; rw [h.irrefl] at this; cases this
    refine ⟨_, _, _, hi', ?_, by simp, by simp [hF]⟩
    rw [hF]
    exact map_put h v hr h1 h2
  · rcases map_split h hr sp with ⟨hn, _⟩ | ⟨w, hw, hF⟩
    · cases hn
    · rw [List.cons.injEq] at hw
      obtain ⟨rfl, _⟩ := hw
      refine ⟨_, _, _, hi', hr.congr fun x => ?_, by rw [e]; simp, by simp [hF]⟩
      by_cases hx : x = k
      · rw [if_pos hx, hx, hF]; rfl
      · rw [if_neg hx]

theorem insertUs_map (h : Linear lt) : ∀ (ps l : List (κ × V)) (F : κ → Option V), MapRep lt l F →
    ∃ l', insertUs lt Prod.fst l ps = some l' ∧ MapRep lt l' (fun x => (F x).or (lookup ps x))
  | [], l, F, hr => ⟨l, rfl, hr.congr fun x => by simp [lookup]⟩
  | p :: ps, l, F, hr => by
    obtain ⟨l1, i, b, e, k1, _, _⟩ := insertU_map h hr p.1 p.2
    obtain ⟨l2, e2, k2⟩ := insertUs_map h ps l1 _ k1
    refine ⟨l2, by unfold insertUs; rw [e]; exact e2, k2.congr fun x => ?_⟩
    unfold lookup
    rw [List.find?_cons]
    by_cases hx : x = p.1
    · subst hx
      rw [if_pos rfl]
      cases F p.1 <;> simp
    · rw [if_neg hx, show decide (p.1 = x) = false from decide_eq_false fun e => hx e.symm]

theorem index_map (h : Linear lt) {l : List (κ × V)} {F : κ → Option V} (dflt : V) (hr : MapRep lt l F) (k : κ) :
    ∃ lo v hi, index lt dflt l k = some (lo ++ [(k, v)] ++ hi, lo.length) ∧ some v = (F k).or (some dflt) ∧
      MapRep lt (lo ++ [(k, v)] ++ hi) (fun x => if x = k then (F k).or (some dflt) else F x) := by
  obtain ⟨lo, eq, hi, sp⟩ := split h.toStrictWeak (KStrict.sorted h.toStrictWeak hr.1) k
  rcases map_split h hr sp with ⟨he, hF⟩ | ⟨v, he, hF⟩
  · subst he
    have hcat : l = lo ++ hi := by simpa using sp.cat
    refine ⟨lo, dflt, hi, ?_, by rw [hF]; rfl, ?_⟩
    · unfold index
      rw [sp.lb]
      simp only
      rw [hcat, vinsert_cat]
      match hi, sp with
      | [], _ => rw [if_pos (by simp)]
      | z :: t, sp =>
        rw [if_neg (by simp), rd_cat]
        simp only [if_pos (sp.hi z (by simp))]
    · rw [hF]
      exact map_put h dflt (hcat ▸ hr) sp.lo sp.hi
  · subst he
    have hcat := sp.cat
    refine ⟨lo, v, hi, ?_, by rw [hF]; rfl, ?_⟩
    · have e : l = lo ++ (k, v) :: hi := by rw [hcat]; simp
      unfold index
      rw [sp.lb]
      simp only
      rw [if_neg (by rw [e]; simp)]
      rw [e, rd_cat]
      simp only [h.irrefl, Bool.false_eq_true, if_false]
      simp
    · rw [← hcat]
      refine hr.congr fun x => ?_
      by_cases hx : x = k
      · rw [if_pos hx, hx, hF]; rfl
      · rw [if_neg hx]

theorem setSecond_cat (lo : List (κ × V)) (k : κ) (v w : V) (hi : List (κ × V)) :
    setSecond (lo ++ [(k, v)] ++ hi) lo.length w = some (lo ++ [(k, w)] ++ hi) := by
  unfold setSecond
  rw [List.append_assoc, List.singleton_append, rd_cat]
  simp only [wr]
  rw [if_pos (by simp)]
  simp

theorem entry_split {l : List (κ × V)} {i : Nat} (hi : i < l.length) :
    l = l.take i ++ [(l[i].1, l[i].2)] ++ l.drop (i + 1) ∧ (l.take i).length = i := by
  constructor
  · rw [List.append_assoc, List.singleton_append]
    show l = l.take i ++ l[i] :: l.drop (i + 1)
    rw [← List.drop_eq_getElem_cons hi, List.take_append_drop]
  · simp; omega

theorem map_step (h : Linear lt) {dflt : V} {l : List (κ × V)} {F : κ → Option V} (op : MapOp κ V) (hr : MapRep lt l F)
    (hp : op.Pre l) : ∃ l', mapStep lt dflt l op = some l' ∧ MapRep lt l' (op.apply dflt l F) := by
  cases op with
  | insert k v =>
    obtain ⟨l1, i, b, e, k1, _, _⟩ := insertU_map h hr k v
    exact ⟨l1, by show (insertU lt Prod.fst l (k, v)).map (·.1) = _; rw [e]; rfl, k1⟩
  | insertRange ps => exact insertUs_map h ps l F hr
  | assign ps =>
    obtain ⟨l1, e, k1⟩ := insertUs_map h ps [] (fun _ => none) ⟨List.Pairwise.nil, fun k v => by simp⟩
    exact ⟨l1, e, k1.congr fun x => by simp [MapOp.apply]⟩
  | clear => exact ⟨[], rfl, List.Pairwise.nil, fun k v => by simp [MapOp.apply]⟩
  | index k =>
    obtain ⟨lo, v, hi, e, _, r⟩ := index_map h dflt hr k
    exact ⟨_, by show (index lt dflt l k).map (·.1) = _; rw [e]; rfl, r⟩
  | indexSet k w =>
    obtain ⟨lo, v, hi, e, _, r⟩ := index_map h dflt hr k
    refine ⟨lo ++ [(k, w)] ++ hi, ?_, (map_change h w r).congr fun x => ?_⟩
    · show indexSet lt dflt l k w = _
      unfold indexSet
      rw [e]
      exact setSecond_cat lo k v w hi
    · simp only [MapOp.apply]
      by_cases hx : x = k
      · rw [if_pos hx, if_pos hx]
      · rw [if_neg hx, if_neg hx, if_neg hx]
  | setAt i w =>
    have hi : i < l.length := hp
    obtain ⟨e1, e2⟩ := entry_split hi
    refine ⟨l.take i ++ [(l[i].1, w)] ++ l.drop (i + 1), ?_, (map_change h w (e1 ▸ hr)).congr fun x => ?_⟩
    · have := setSecond_cat (l.take i) l[i].1 l[i].2 w (l.drop (i + 1))
      rw [← e1, e2] at this
      exact this
    · simp only [MapOp.apply]
      rw [List.getElem?_eq_getElem hi, Option.map_some]
      by_cases hx : x = l[i].1
      · rw [if_pos hx, if_pos (congrArg some hx.symm)]
      · rw [if_neg hx, if_neg fun e => hx (Option.some.inj e).symm]
  | eraseAt i =>
    have hi : i < l.length := hp
    obtain ⟨e1, e2⟩ := entry_split hi
    refine ⟨l.take i ++ l.drop (i + 1), ?_, (map_remove h (e1 ▸ hr)).congr fun x => ?_⟩
    · show verase l i 1 = _
      rw [verase_at hi, List.eraseIdx_eq_take_drop_succ]
    · simp only [MapOp.apply]
      rw [List.getElem?_eq_getElem hi, Option.map_some]
      by_cases hx : x = l[i].1
      · rw [if_pos hx, if_pos (congrArg some hx.symm)]
      · rw [if_neg hx, if_neg fun e => hx (Option.some.inj e).symm]
  | eraseRange i j =>
    obtain ⟨h1, h2⟩ : i ≤ j ∧ j ≤ l.length := hp
    have hn := KStrict.nodup h.toStrictWeak hr.1
    refine ⟨_, veraseRange_at h1 h2, hr.1.sublist (range_sublist l h1), fun k v => ?_⟩
    rw [mem_range_of_nodup hn h1, hr.2]
    simp only [MapOp.apply]
    by_cases hk : k ∈ ((l.take j).drop i).map (·.1)
    · rw [if_pos hk]
      refine ⟨fun hx => ?_, fun hx => nomatch hx⟩
      obtain ⟨⟨k', w⟩, hw, e⟩ := List.mem_map.1 hk
      simp only at e
      subst e
      have hwl : (k', w) ∈ l := List.mem_of_mem_take (List.mem_of_mem_drop hw)
      rw [hr.2, hx.1] at hwl
      cases hwl
      exact absurd hw hx.2
    · rw [if_neg hk]
      refine ⟨fun hx => hx.1, fun hx => ⟨hx, fun hm => hk ?_⟩⟩
      exact List.mem_map.2 ⟨_, hm, rfl⟩
  | erase k =>
    obtain ⟨lo, eq, hi, sp⟩ := split h.toStrictWeak (KStrict.sorted h.toStrictWeak hr.1) k
    show ∃ l', eraseFound l (findKey lt Prod.fst l k) = some l' ∧ _
    rw [findKey_split sp]
    rcases map_split h hr sp with ⟨he, hF⟩ | ⟨v, he, hF⟩
    · subst he
      refine ⟨l, by unfold eraseFound; simp, hr.congr fun x => ?_⟩
      simp only [MapOp.apply]
      by_cases hx : x = k
      · rw [if_pos hx, hx, hF]
      · rw [if_neg hx]
    · subst he
      have hcat := sp.cat
      have hlt : lo.length ≠ l.length := by rw [hcat]; simp
      refine ⟨lo ++ hi, ?_, map_remove h (hcat ▸ hr)⟩
      unfold eraseFound
      rw [if_neg (by simp)]
      simp only [if_neg hlt]
      rw [hcat]
      exact verase_cat lo [(k, v)] hi

theorem map_rep (h : Linear lt) {dflt : V} {l : List (κ × V)} {F : κ → Option V} (hh : MapHist lt dflt l F) : MapRep lt l F := by
  induction hh with
  | nil => exact ⟨List.Pairwise.nil, fun k v => by simp⟩
  | step op _ hp he ih =>
    obtain ⟨l', e, r⟩ := map_step (dflt := dflt) h op ih hp
    rw [he] at e
    cases e
    exact r

/-- **C32** after any history a map's keys are strictly increasing in iteration order and its entries are exactly
those of the mathematical finite map. -/
theorem map_history (h : Linear lt) {dflt : V} {l : List (κ × V)} {F : κ → Option V} (hh : MapHist lt dflt l F) :
    l.Pairwise (fun a b => lt a.1 b.1 = true) ∧ ∀ k v, (k, v) ∈ l ↔ F k = some v := map_rep h hh

/-- **C32** no operation with valid iterators is undefined after any history. -/
theorem map_progress (h : Linear lt) {dflt : V} {l : List (κ × V)} {F : κ → Option V} (hh : MapHist lt dflt l F)
    (op : MapOp κ V) (hp : op.Pre l) : ∃ l', mapStep lt dflt l op = some l' ∧ MapHist lt dflt l' (op.apply dflt l F) := by
  obtain ⟨l', e, _⟩ := map_step (dflt := dflt) h op (map_rep h hh) hp
  exact ⟨l', e, hh.step op hp e⟩

/-- **C32** `find`, `at` and `count` agree with the finite map: the entry's position, its value and 1, or `end()`
and 0. -/
theorem map_lookup (h : Linear lt) {dflt : V} {l : List (κ × V)} {F : κ → Option V} (hh : MapHist lt dflt l F) (k : κ) :
    (∀ v, F k = some v → at' lt l k = some v ∧ count lt Prod.fst l k = some 1 ∧
      ∃ i, findKey lt Prod.fst l k = some i ∧ l[i]? = some (k, v)) ∧
    (F k = none → findKey lt Prod.fst l k = some l.length ∧ count lt Prod.fst l k = some 0) := by
  have hr := map_rep h hh
  obtain ⟨lo, eq, hi, sp⟩ := split h.toStrictWeak (KStrict.sorted h.toStrictWeak hr.1) k
  have hf := findKey_split sp
  have hc : count lt Prod.fst l k = some eq.length := by
    unfold count; rw [sp.er]; simp
  rcases map_split h hr sp with ⟨he, hF⟩ | ⟨v, he, hF⟩
  · subst he
    refine ⟨fun v hv => (by rw [hF] at hv; cases hv), fun _ => ⟨hf, hc⟩⟩
  · subst he
    rw [if_neg (by simp)] at hf
    have hi' : l[lo.length]? = some (k, v) := by rw [sp.cat]; simp
    refine ⟨fun w hw => ?_, fun hn => (by rw [hF] at hn; cases hn)⟩
    rw [hF] at hw
    cases hw
    refine ⟨?_, hc, _, hf, hi'⟩
    unfold at' rd
    rw [hf]
    simp only [hi', Option.map_some]

/-- **C32** `insert` reports whether the key was new and where the entry is; it never overwrites. -/
theorem map_insert_result (h : Linear lt) {dflt : V} {l : List (κ × V)} {F : κ → Option V} (hh : MapHist lt dflt l F)
    (k : κ) (v : V) : ∃ l' i b, insertU lt Prod.fst l (k, v) = some (l', i, b) ∧ (b = true ↔ F k = none) ∧
      l'[i]? = some (k, (F k).getD v) := by
  have hr := map_rep h hh
  obtain ⟨l1, i, b, e, r, m1, m2⟩ := insertU_map h hr k v
  refine ⟨l1, i, b, e, m2, ?_⟩
  cases hx : l1[i]? with
  | none => rw [hx] at m1; cases m1
  | some p =>
    obtain ⟨k', w⟩ := p
    rw [hx] at m1
    have m1 : k' = k := Option.some.inj m1
    subst m1
    have := (r.2 k' w).1 (List.mem_of_getElem? hx)
    simp only [if_true] at this
    cases hF : F k' with
    | none => rw [hF] at this; cases this; rfl
    | some u => rw [hF] at this; cases this; rfl

/-- **C32** `operator[]` refers to the entry of the key, created with the default value if absent. -/
theorem map_index_result (h : Linear lt) {dflt : V} {l : List (κ × V)} {F : κ → Option V} (hh : MapHist lt dflt l F)
    (k : κ) : ∃ l' i, index lt dflt l k = some (l', i) ∧ l'[i]? = some (k, (F k).getD dflt) := by
  obtain ⟨lo, v, hi, e, hv, _⟩ := index_map h dflt (map_rep h hh) k
  refine ⟨_, _, e, ?_⟩
  have : v = (F k).getD dflt := by
    cases hF : F k with
    | none => rw [hF] at hv; cases hv; rfl
    | some u => rw [hF] at hv; cases hv; rfl
  simp [this]

/-- **C32** `find_data` returns the first entry with that value in the range, or its end. -/
theorem find_data_first [DecidableEq V] (l : List (κ × V)) (v : V) : ∀ (n first last : Nat), last - first = n →
    first ≤ last → last ≤ l.length → ∃ i, findData l first last v = some i ∧ first ≤ i ∧ i ≤ last ∧
      (∀ j, first ≤ j → j < i → (l[j]?).map (·.2) ≠ some v) ∧ (i < last → (l[i]?).map (·.2) = some v)
  | 0, first, last, hn, h1, h2 => by
    unfold findData
    rw [if_neg (by omega), if_pos (by omega)]
    exact ⟨first, rfl, Nat.le_refl _, h1, fun j a b => by omega, fun hlt => by omega⟩
  | n + 1, first, last, hn, h1, h2 => by
    unfold findData
    have hlt : first < l.length := by omega
    rw [if_pos (by omega), rd, List.getElem?_eq_getElem hlt]
    simp only
    by_cases hv : l[first].2 = v
    · rw [if_neg (by simpa using hv)]
      refine ⟨first, rfl, Nat.le_refl _, by omega, fun j a b => by omega, fun _ => ?_⟩
      rw [List.getElem?_eq_getElem hlt, Option.map_some, hv]
    · rw [if_pos hv]
      obtain ⟨i, e, i1, i2, i3, i4⟩ := find_data_first l v n (first + 1) last (by omega) (by omega) h2
      refine ⟨i, e, by omega, i2, fun j a b => ?_, i4⟩
      rcases Nat.lt_or_ge first j with hj | hj
      · exact i3 j (by omega) b
      · have : j = first := by omega
        subst this
        rw [List.getElem?_eq_getElem hlt, Option.map_some]
        intro e
        cases e
        exact hv rfl
end

/-! ### C31, C33: multiset and multimap -/

section
variable {lt : κ → κ → Bool} {key : α → κ}

/-- The contents are sorted and show, for each key, the entries in order of insertion. -/
def MultiRep (lt : κ → κ → Bool) (key : α → κ) (l : List α) (F : κ → List α) : Prop :=
  KSorted lt key l ∧ ∀ k, ofKey lt key k l = F k

theorem ofKey_append (k : κ) (a b : List α) : ofKey lt key k (a ++ b) = ofKey lt key k a ++ ofKey lt key k b := by
  unfold ofKey; rw [List.filter_append]

theorem ofKey_nil {k : κ} {a : List α} (h : ∀ x ∈ a, ¬ Equiv lt k (key x)) : ofKey lt key k a = [] := by
  unfold ofKey
  rw [List.filter_eq_nil_iff]
  intro x hx
  simpa using h x hx

theorem ofKey_all {k : κ} {a : List α} (h : ∀ x ∈ a, Equiv lt k (key x)) : ofKey lt key k a = a := by
  unfold ofKey
  rw [List.filter_eq_self]
  intro x hx
  simpa using h x hx

theorem equiv_trans (h : StrictWeak lt) {a b c : κ} (h1 : Equiv lt a b) (h2 : Equiv lt b c) : Equiv lt a c :=
  h.incompTrans _ _ _ h1.1 h1.2 h2.1 h2.2

theorem equiv_symm {a b : κ} (h : Equiv lt a b) : Equiv lt b a := ⟨h.2, h.1⟩

theorem not_equiv_lo (h : StrictWeak lt) {k k' c : κ} (he : Equiv lt k k') (hc : lt c k' = true) : ¬ Equiv lt k c := by
  intro e
  have := (equiv_trans h (equiv_symm he) e).2
  rw [hc] at this
  cases this

theorem not_equiv_hi (h : StrictWeak lt) {k k' c : κ} (he : Equiv lt k k') (hc : lt k' c = true) : ¬ Equiv lt k c := by
  intro e
  have := (equiv_trans h (equiv_symm he) e).1
  rw [hc] at this
  cases this

theorem Split.ofKey (h : StrictWeak lt) {l lo eq hi : List α} {k k' : κ} (sp : Split lt key l k' lo eq hi)
    (he : Equiv lt k k') : ofKey lt key k l = eq := by
  rw [sp.cat, ofKey_append, ofKey_append, ofKey_nil fun x hx => not_equiv_lo h he (sp.lo x hx),
    ofKey_nil (a := hi) fun x hx => not_equiv_hi h he (sp.hi x hx),
    ofKey_all fun x hx => equiv_trans h he (sp.eq x hx)]
  simp

theorem insertM_rep (h : StrictWeak lt) {l : List α} {F : κ → List α} (hr : MultiRep lt key l F) (x : α) :
    ∃ l' i, insertM lt key l x = some (l', i) ∧ l'[i]? = some x ∧
      MultiRep lt key l' (fun k => if Equiv lt k (key x) then F k ++ [x] else F k) ∧
      (∀ j y, l'[j]? = some y → Equiv lt (key y) (key x) → j ≤ i) := by
  obtain ⟨lo, eq, hi, sp⟩ := split h hr.1 (key x)
  have hcat := sp.cat
  refine ⟨lo ++ eq ++ [x] ++ hi, lo.length + eq.length, ?_, ?_, ⟨?_, fun k => ?_⟩, ?_⟩
  · unfold insertM
    rw [sp.ub]
    simp only
    rw [hcat, show lo.length + eq.length = (lo ++ eq).length by simp, vinsert_cat]
  · rw [show lo.length + eq.length = (lo ++ eq).length by simp, List.append_assoc (lo ++ eq)]
    simp
  · have hs := hr.1
    rw [hcat] at hs
    unfold KSorted at hs ⊢
    rw [List.pairwise_append] at hs
    rw [List.append_assoc (lo ++ eq), List.pairwise_append]
    refine ⟨hs.1, ?_, ?_⟩
    · rw [List.singleton_append, List.pairwise_cons]
      exact ⟨fun y hy => h.asymm (sp.hi y hy), hs.2.1⟩
    · intro a ha b hb
      rw [List.singleton_append, List.mem_cons] at hb
      rcases hb with rfl | hb
      · rw [List.mem_append] at ha
        rcases ha with ha | ha
        · exact h.asymm (sp.lo a ha)
        · exact (sp.eq a ha).1
      · exact hs.2.2 a ha b hb
  · simp only []
    rw [← hr.2 k]
    by_cases he : Equiv lt k (key x)
    · rw [if_pos he, sp.ofKey h he, List.append_assoc (lo ++ eq), ofKey_append, ofKey_append, ofKey_append,
        ofKey_nil fun y hy => not_equiv_lo h he (sp.lo y hy),
        ofKey_nil (a := hi) fun y hy => not_equiv_hi h he (sp.hi y hy),
        ofKey_all fun y hy => equiv_trans h he (sp.eq y hy), ofKey_all (a := [x]) (by simpa using he)]
      simp
    · rw [if_neg he, hcat, List.append_assoc (lo ++ eq), ofKey_append (a := lo ++ eq), ofKey_append (a := [x]),
        ofKey_nil (a := [x]) (by simpa using he), List.nil_append, ← ofKey_append]
  · intro j y hy he
    rcases Nat.lt_or_ge (lo.length + eq.length) j with hj | hj
    · exfalso
      rw [List.getElem?_append_right (by simp; omega)] at hy
      have hm := List.mem_of_getElem? hy
      have := sp.hi y hm
      rw [he.2] at this
      cases this
    · exact hj

theorem insertMs_rep (h : StrictWeak lt) : ∀ (xs l : List α) (F : κ → List α), MultiRep lt key l F →
    ∃ l', insertMs lt key l xs = some l' ∧ MultiRep lt key l' (fun k => F k ++ ofKey lt key k xs)
  | [], l, F, hr => ⟨l, rfl, hr.1, fun k => by rw [hr.2]; simp [ofKey]⟩
  | x :: xs, l, F, hr => by
    obtain ⟨l1, i, e, _, r, _⟩ := insertM_rep h hr x
    obtain ⟨l2, e2, r2⟩ := insertMs_rep h xs l1 _ r
    refine ⟨l2, by unfold insertMs; rw [e]; exact e2, r2.1, fun k => ?_⟩
    rw [r2.2]
    unfold ofKey
    simp only []
    by_cases he : Equiv lt k (key x)
    · rw [if_pos he, List.filter_cons_of_pos (by simpa using he)]; simp
    · rw [if_neg he, List.filter_cons_of_neg (by simpa using he)]

theorem multi_remove (h : StrictWeak lt) {l lo eq hi : List α} {F : κ → List α} {k' : κ} (hr : MultiRep lt key l F)
    (sp : Split lt key l k' lo eq hi) : MultiRep lt key (lo ++ hi) (fun k => if Equiv lt k k' then [] else F k) := by
  have hcat := sp.cat
  refine ⟨hr.1.sublist ?_, fun k => ?_⟩
  · rw [hcat, List.append_assoc]
    exact List.Sublist.append (List.Sublist.refl _) (List.sublist_append_right _ _)
  · rw [ofKey_append]
    simp only []
    by_cases he : Equiv lt k k'
    · rw [if_pos he, ofKey_nil fun x hx => not_equiv_lo h he (sp.lo x hx),
        ofKey_nil (a := hi) fun x hx => not_equiv_hi h he (sp.hi x hx)]
      rfl
    · rw [if_neg he, ← hr.2 k, hcat, ofKey_append, ofKey_append,
        ofKey_nil (a := eq) fun x hx e => he (equiv_trans h e (equiv_symm (sp.eq x hx)))]
      simp

theorem multi_step (h : StrictWeak lt) {isMap : Bool} {l : List α} {F : κ → List α} (op : MultiOp α κ)
    (hr : MultiRep lt key l F) (hp : op.Pre l) :
    ∃ l', multiStep lt key isMap l op = some l' ∧ MultiRep lt key l' (op.apply lt key l F) := by
  cases op with
  | insert x =>
    obtain ⟨l1, i, e, _, r, _⟩ := insertM_rep h hr x
    exact ⟨l1, by show (insertM lt key l x).map (·.1) = _; rw [e]; rfl, r⟩
  | insertRange xs => exact insertMs_rep h xs l F hr
  | assign xs =>
    obtain ⟨l1, e, r⟩ := insertMs_rep h xs [] (fun _ => []) ⟨List.Pairwise.nil, fun _ => rfl⟩
    exact ⟨l1, e, r.1, fun k => by rw [r.2]; simp [MultiOp.apply]⟩
  | clear => exact ⟨[], rfl, List.Pairwise.nil, fun _ => rfl⟩
  | eraseAt i =>
    have hi : i < l.length := hp
    exact ⟨_, verase_at hi, hr.1.sublist (List.eraseIdx_sublist _ _), fun k => rfl⟩
  | eraseRange i j =>
    obtain ⟨h1, h2⟩ : i ≤ j ∧ j ≤ l.length := hp
    exact ⟨_, veraseRange_at h1 h2, hr.1.sublist (range_sublist l h1), fun k => rfl⟩
  | erase k =>
    obtain ⟨lo, eq, hi, sp⟩ := split h hr.1 k
    refine ⟨lo ++ hi, ?_, multi_remove h hr sp⟩
    have hv : veraseRange l lo.length (lo.length + eq.length) = some (lo ++ hi) := by
      rw [sp.cat]; exact veraseRange_cat lo eq hi
    unfold multiStep
    cases isMap with
    | true =>
      simp only [if_true]
      unfold eraseMm
      rw [sp.lb, sp.ub]
      exact hv
    | false =>
      simp only [Bool.false_eq_true, if_false]
      unfold eraseMs
      rw [sp.er]
      simp only [hv, Option.map_some]

theorem multi_rep (h : StrictWeak lt) {isMap : Bool} {l : List α} {F : κ → List α} (hh : MultiHist lt key isMap l F) :
    MultiRep lt key l F := by
  induction hh with
  | nil => exact ⟨List.Pairwise.nil, fun _ => rfl⟩
  | step op _ hp he ih =>
    obtain ⟨l', e, r⟩ := multi_step (isMap := isMap) h op ih hp
    rw [he] at e
    cases e
    exact r

/-- **C31, C33** after any history a multiset (`key = id`) or multimap (`key = first`) is sorted by key, and the
entries of every key are the ones inserted and not removed, in order of insertion. -/
theorem multi_history (h : StrictWeak lt) {isMap : Bool} {l : List α} {F : κ → List α} (hh : MultiHist lt key isMap l F) :
    l.Pairwise (fun a b => lt (key b) (key a) = false) ∧
    ∀ k, (l.filter fun x => decide (Equiv lt k (key x))) = F k := multi_rep h hh

/-- **C31, C33** no operation with valid iterators is undefined after any history. -/
theorem multi_progress (h : StrictWeak lt) {isMap : Bool} {l : List α} {F : κ → List α}
    (hh : MultiHist lt key isMap l F) (op : MultiOp α κ) (hp : op.Pre l) :
    ∃ l', multiStep lt key isMap l op = some l' ∧ MultiHist lt key isMap l' (op.apply lt key l F) := by
  obtain ⟨l', e, _⟩ := multi_step (isMap := isMap) h op (multi_rep h hh) hp
  exact ⟨l', e, hh.step op hp e⟩

/-- **C31, C33** `count` is the number of entries of the key and `equal_range` delimits exactly those entries. -/
theorem multi_count_range (h : StrictWeak lt) {isMap : Bool} {l : List α} {F : κ → List α}
    (hh : MultiHist lt key isMap l F) (k : κ) :
    count lt key l k = some (F k).length ∧
    ∃ i j, er lt key l k = some (i, j) ∧ lb lt key l k = some i ∧ ub lt key l k = some j ∧ i ≤ j ∧ (l.take j).drop i = F k := by
  have hr := multi_rep h hh
  obtain ⟨lo, eq, hi, sp⟩ := split h hr.1 k
  have he : F k = eq := by rw [← hr.2]; exact sp.ofKey h ⟨h.irrefl _, h.irrefl _⟩
  rw [he]
  refine ⟨by unfold count; rw [sp.er]; simp, _, _, sp.er, sp.lb, sp.ub, by omega, ?_⟩
  rw [sp.cat, show lo.length + eq.length = (lo ++ eq).length by simp, List.take_left, List.drop_left]

/-- **C31, C33** a new entry goes after the existing entries of its key; `insert` returns its position. -/
theorem multi_insert_last (h : StrictWeak lt) {isMap : Bool} {l : List α} {F : κ → List α}
    (hh : MultiHist lt key isMap l F) (x : α) :
    ∃ l' i, insertM lt key l x = some (l', i) ∧ l'[i]? = some x ∧
      ∀ j y, l'[j]? = some y → Equiv lt (key y) (key x) → j ≤ i := by
  obtain ⟨l1, i, e, e1, _, e2⟩ := insertM_rep h (multi_rep h hh) x
  exact ⟨l1, i, e, e1, e2⟩

/-- **C31** `multiset::erase (v)` returns the number of elements it removed. -/
theorem multiset_erase_count (h : StrictWeak lt) {isMap : Bool} {l : List α} {F : κ → List α}
    (hh : MultiHist lt key isMap l F) (k : κ) :
    ∃ l', eraseMs lt key l k = some (l', (F k).length) ∧ l'.length + (F k).length = l.length ∧
      ∀ x ∈ l', ¬ Equiv lt k (key x) := by
  have hr := multi_rep h hh
  obtain ⟨lo, eq, hi, sp⟩ := split h hr.1 k
  have hk : Equiv lt k k := ⟨h.irrefl _, h.irrefl _⟩
  have he : F k = eq := by rw [← hr.2]; exact sp.ofKey h hk
  rw [he]
  refine ⟨lo ++ hi, ?_, ?_, ?_⟩
  · unfold eraseMs
    rw [sp.er]
    simp only
    rw [sp.cat, veraseRange_cat]
    simp
  · rw [sp.cat]; simp; omega
  · intro x hx
    rw [List.mem_append] at hx
    rcases hx with hx | hx
    · exact not_equiv_lo h hk (sp.lo x hx)
    · exact not_equiv_hi h hk (sp.hi x hx)

/-- **C33** `multimap::find (k)` is the first entry of the key, or `end()` if there is none. -/
theorem multimap_find (h : StrictWeak lt) {isMap : Bool} {l : List α} {F : κ → List α}
    (hh : MultiHist lt key isMap l F) (k : κ) :
    ∃ i, findKey lt key l k = some i ∧ (F k = [] → i = l.length) ∧
      (F k ≠ [] → l[i]? = (F k).head? ∧ ∀ j y, j < i → l[j]? = some y → lt (key y) k = true) := by
  have hr := multi_rep h hh
  obtain ⟨lo, eq, hi, sp⟩ := split h hr.1 k
  have he : F k = eq := by rw [← hr.2]; exact sp.ofKey h ⟨h.irrefl _, h.irrefl _⟩
  rw [he]
  refine ⟨_, findKey_split sp, fun hn => by rw [if_pos hn], fun hn => ?_⟩
  rw [if_neg hn]
  obtain ⟨y, t, rfl⟩ := List.exists_cons_of_ne_nil hn
  refine ⟨by rw [sp.cat]; simp, fun j z hj hz => ?_⟩
  rw [sp.cat, List.append_assoc, List.getElem?_append_left hj] at hz
  exact sp.lo z (List.mem_of_getElem? hz)

/-- **C31** in a linear order `multiset::find (v)` is the first copy, or `end()` if there is none. -/
theorem multiset_find [DecidableEq κ] (h : Linear lt) {isMap : Bool} {l : List α} {F : κ → List α}
    (hh : MultiHist lt key isMap l F) (k : κ) :
    ∃ i, findEq lt key l k = some i ∧ (F k = [] → i = l.length) ∧
      (F k ≠ [] → l[i]? = (F k).head? ∧ ∀ j y, j < i → l[j]? = some y → lt (key y) k = true) := by
  have hr := multi_rep h.toStrictWeak hh
  obtain ⟨lo, eq, hi, sp⟩ := split h.toStrictWeak hr.1 k
  obtain ⟨i, h1, h2⟩ := multimap_find h.toStrictWeak hh k
  refine ⟨i, ?_, h2⟩
  rw [findEq_split h sp, ← findKey_split sp, h1]
end

/-- **C31** for a linear order: the multiplicity of every value is what the history says. -/
theorem multiset_multiplicity [DecidableEq α] {lt : α → α → Bool} (h : Linear lt) {l : List α} {F : α → List α}
    (hh : MultiHist lt id false l F) (v : α) : l.count v = (F v).length := by
  have hr := multi_rep h.toStrictWeak hh
  rw [← hr.2 v, List.count_eq_length_filter]
  unfold ofKey
  congr 1
  refine List.filter_congr fun x _ => ?_
  by_cases hx : x = v
  · subst hx
    rw [decide_eq_true (show Equiv lt x (id x) from ⟨h.irrefl x, h.irrefl x⟩)]
    simp
  · have : ¬ Equiv lt v (id x) := fun e => hx (h.tri _ _ e.1 e.2).symm
    rw [decide_eq_false this]
    simpa using hx

/-! ### The hypotheses are met -/

/-- `<` on numbers. -/
def nlt (a b : Nat) : Bool := decide (a < b)

theorem nlt_linear : Linear nlt where
  irrefl a := by simp [nlt]
  trans a b c := by simp only [nlt, decide_eq_true_eq]; omega
  incompTrans a b c := by simp only [nlt, decide_eq_false_iff_not]; omega
  tri a b := by simp only [nlt, decide_eq_false_iff_not]; omega

example : ∃ l S, SetHist nlt l S ∧ S 3 ∧ ¬ S 5 ∧ l.length = 2 := by
  obtain ⟨l1, _, h1⟩ := set_progress nlt_linear SetHist.nil (.insertRange [5, 3, 9, 3]) trivial
  obtain ⟨l2, _, h2⟩ := set_progress nlt_linear h1 (.erase 5) trivial
  refine ⟨l2, _, h2, ?_, ?_, ?_⟩
  · simp [SetOp.apply]
  · simp [SetOp.apply]
  · have hr := set_history nlt_linear h2
    have hn := KStrict.nodup nlt_linear.toStrictWeak (key := id) hr.1
    have hp : l2.Perm [3, 9] := by
      rw [List.perm_ext_iff_of_nodup hn (by decide)]
      intro a
      rw [hr.2]
      simp only [SetOp.apply, List.mem_cons, List.not_mem_nil, or_false]
      omega
    rw [hp.length_eq]; rfl

example : ∃ l F, MapHist nlt (0 : Nat) l F ∧ F 7 = some 0 ∧ F 2 = some 5 ∧ F 3 = none := by
  obtain ⟨l1, _, h1⟩ := map_progress nlt_linear (dflt := 0) MapHist.nil (.insert 2 4) trivial
  obtain ⟨l2, _, h2⟩ := map_progress nlt_linear h1 (.index 7) trivial
  obtain ⟨l3, _, h3⟩ := map_progress nlt_linear h2 (.indexSet 2 5) trivial
  obtain ⟨l4, _, h4⟩ := map_progress nlt_linear h3 (.insert 3 1) trivial
  obtain ⟨l5, _, h5⟩ := map_progress nlt_linear h4 (.erase 3) trivial
  exact ⟨l5, _, h5, by simp [MapOp.apply], by simp [MapOp.apply], by simp [MapOp.apply]⟩

example : ∃ l F, MultiHist nlt (Prod.fst : Nat × Nat → Nat) true l F ∧ F 2 = [(2, 4), (2, 1)] ∧ F 3 = [] := by
  obtain ⟨l1, _, h1⟩ := multi_progress nlt_linear.toStrictWeak (isMap := true) (key := Prod.fst) MultiHist.nil
    (.insertRange [(2, 4), (3, 0), (2, 1), (1, 1)]) trivial
  obtain ⟨l2, _, h2⟩ := multi_progress nlt_linear.toStrictWeak h1 (.erase 3) trivial
  refine ⟨l2, _, h2, ?_, ?_⟩
  · simp [MultiOp.apply, ofKey, Equiv, nlt]
  · simp [MultiOp.apply, Equiv, nlt]

end Ustl.Assoc
