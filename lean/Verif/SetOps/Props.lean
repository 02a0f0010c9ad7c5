import Verif.SetOps.Model
/-!
# C09: the set algorithms compute multiset operations on sorted ranges

`equivalents lt c l` is the subsequence of `l` of elements equivalent to `c`; its length is the
multiplicity of `c` in `l`. The theorems determine the equivalents of every `c` in the output, in order,
which together with sortedness determines the output completely.
-/
namespace Ustl.SetOps
variable {α : Type _} {lt : α → α → Bool}

theorem equivalents_cons (c x : α) (l : List α) :
    equivalents lt c (x :: l) = if Equiv lt c x then x :: equivalents lt c l else equivalents lt c l := by
  rw [equivalents, List.filter_cons]
  by_cases h : Equiv lt c x
  · rw [if_pos h, if_pos (by simpa using h)]; rfl
  · rw [if_neg h, if_neg (by simpa using h)]; rfl

theorem mem_equivalents (c x : α) (l : List α) : x ∈ equivalents lt c l ↔ x ∈ l ∧ Equiv lt c x := by
  simp [equivalents, List.mem_filter]

theorem equivalents_eq_nil (c : α) (l : List α) (h : ∀ x ∈ l, ¬ Equiv lt c x) : equivalents lt c l = [] := by
  rw [equivalents, List.filter_eq_nil_iff]
  intro x hx; simpa using h x hx

/-- Nothing in a sorted list whose head is above `x` is equivalent to `x`. -/
theorem equivalents_above (hlt : StrictWeak lt) {c x y : α} {b : List α} (hc : Equiv lt c x) (hxy : lt x y = true)
    (hb : Sorted lt (y :: b)) : equivalents lt c (y :: b) = [] := by
  apply equivalents_eq_nil
  intro z hz hcz
  have hxz : lt x z = true := by
    rcases List.mem_cons.mp hz with e | e
    · rw [e]; exact hxy
    · exact hlt.lt_of_lt_of_le hxy ((List.pairwise_cons.mp hb).1 z e)
  have := hlt.lt_of_le_of_lt hc.2 hxz
  rw [hcz.1] at this; cases this

theorem equiv_iff (hlt : StrictWeak lt) {c x y : α} (h1 : lt x y = false) (h2 : lt y x = false) :
    Equiv lt c x ↔ Equiv lt c y := by
  constructor
  · rintro ⟨a, b⟩; exact hlt.incompTrans _ _ _ a b h1 h2
  · rintro ⟨a, b⟩; exact hlt.incompTrans _ _ _ a b h2 h1

/-! ### The effect on the equivalents of `c`, case by case -/

theorem eq_step_lt (hlt : StrictWeak lt) {x y : α} {b : List α} (hxy : lt x y = true)
    (hb : Sorted lt (y :: b)) (c : α) : Equiv lt c x → equivalents lt c (y :: b) = [] :=
  fun hx => equivalents_above hlt hx hxy hb

theorem union_equivalents (hlt : StrictWeak lt) (a b : List α) (ha : Sorted lt a) (hb : Sorted lt b) (c : α) :
    equivalents lt c (setUnion lt a b) =
      equivalents lt c a ++ (equivalents lt c b).drop (equivalents lt c a).length := by
  fun_induction setUnion lt a b with
  | case1 x a y b h ih =>
    have ih := ih ha (List.pairwise_cons.mp hb).2
    rw [equivalents_cons c y, equivalents_cons c y]
    by_cases hy : Equiv lt c y
    · have := equivalents_above hlt hy h ha
      rw [if_pos hy, if_pos hy, ih, this]; simp
    · rw [if_neg hy, if_neg hy, ih]
  | case2 x a y b h hxy ih =>
    have ih := ih (List.pairwise_cons.mp ha).2 hb
    rw [equivalents_cons c x, equivalents_cons c x]
    by_cases hx : Equiv lt c x
    · rw [if_pos hx, if_pos hx, ih, equivalents_above hlt hx hxy hb]; simp
    · rw [if_neg hx, if_neg hx, ih]
  | case3 x a y b h h2 ih =>
    have h' : lt y x = false := by simpa using h
    have hxy : lt x y = false := by simpa using h2
    have ih := ih (List.pairwise_cons.mp ha).2 (List.pairwise_cons.mp hb).2
    rw [equivalents_cons c x, equivalents_cons c x, equivalents_cons c y]
    by_cases hx : Equiv lt c x
    · rw [if_pos hx, if_pos hx, if_pos ((equiv_iff hlt hxy h').mp hx), ih]; simp
    · rw [if_neg hx, if_neg hx, if_neg (fun h => hx ((equiv_iff hlt hxy h').mpr h)), ih]
  | case4 a b h =>
    cases a with
    | nil => simp [equivalents]
    | cons x a =>
      cases b with
      | nil => simp [equivalents]
      | cons y b => exact absurd rfl (h x a y b rfl)

theorem intersection_equivalents (hlt : StrictWeak lt) (a b : List α) (ha : Sorted lt a) (hb : Sorted lt b) (c : α) :
    equivalents lt c (setIntersection lt a b) =
      (equivalents lt c a).take (equivalents lt c b).length := by
  fun_induction setIntersection lt a b with
  | case1 x a y b h1 h2 => have := hlt.asymm h1; rw [h2] at this; cases this
  | case2 x a y b hxy h2 ih =>
    have ih := ih (List.pairwise_cons.mp ha).2 hb
    rw [ih, equivalents_cons c x]
    by_cases hx : Equiv lt c x
    · rw [equivalents_above hlt hx hxy hb]; simp
    · rw [if_neg hx]
  | case3 x a y b h1 hyx ih =>
    have ih := ih ha (List.pairwise_cons.mp hb).2
    rw [ih, equivalents_cons c y]
    by_cases hy : Equiv lt c y
    · rw [equivalents_above hlt hy hyx ha]; simp
    · rw [if_neg hy]
  | case4 x a y b h1 h2 ih =>
    have h' : lt y x = false := by simpa using h2
    have hxy : lt x y = false := by simpa using h1
    have ih := ih (List.pairwise_cons.mp ha).2 (List.pairwise_cons.mp hb).2
    rw [equivalents_cons c x, equivalents_cons c x, equivalents_cons c y]
    by_cases hx : Equiv lt c x
    · rw [if_pos hx, if_pos hx, if_pos ((equiv_iff hlt hxy h').mp hx), ih]; simp
    · rw [if_neg hx, if_neg hx, if_neg (fun h => hx ((equiv_iff hlt hxy h').mpr h)), ih]
  | case5 a b h =>
    cases a with
    | nil => simp [equivalents]
    | cons x a =>
      cases b with
      | nil => simp [equivalents]
      | cons y b => exact absurd rfl (h x a y b rfl)

theorem difference_equivalents (hlt : StrictWeak lt) (a b : List α) (ha : Sorted lt a) (hb : Sorted lt b) (c : α) :
    equivalents lt c (setDifference lt a b) =
      (equivalents lt c a).drop (equivalents lt c b).length := by
  fun_induction setDifference lt a b with
  | case1 x a y b h1 h2 => have := hlt.asymm h1; rw [h2] at this; cases this
  | case2 x a y b hxy h2 ih =>
    have ih := ih (List.pairwise_cons.mp ha).2 hb
    rw [equivalents_cons c x, equivalents_cons c x, ih]
    by_cases hx : Equiv lt c x
    · rw [equivalents_above hlt hx hxy hb]; simp [hx]
    · rw [if_neg hx, if_neg hx]
  | case3 x a y b h1 hyx ih =>
    have ih := ih ha (List.pairwise_cons.mp hb).2
    rw [ih, equivalents_cons c y]
    by_cases hy : Equiv lt c y
    · rw [equivalents_above hlt hy hyx ha]; simp
    · rw [if_neg hy]
  | case4 x a y b h1 h2 ih =>
    have h' : lt y x = false := by simpa using h2
    have hxy : lt x y = false := by simpa using h1
    have ih := ih (List.pairwise_cons.mp ha).2 (List.pairwise_cons.mp hb).2
    rw [equivalents_cons c x, equivalents_cons c y]
    by_cases hx : Equiv lt c x
    · rw [if_pos hx, if_pos ((equiv_iff hlt hxy h').mp hx), ih]; simp
    · rw [if_neg hx, if_neg (fun h => hx ((equiv_iff hlt hxy h').mpr h)), ih]
  | case5 a b h =>
    cases a with
    | nil => simp [equivalents]
    | cons x a =>
      cases b with
      | nil => simp [equivalents]
      | cons y b => exact absurd rfl (h x a y b rfl)

theorem symdiff_equivalents (hlt : StrictWeak lt) (a b : List α) (ha : Sorted lt a) (hb : Sorted lt b) (c : α) :
    equivalents lt c (setSymmetricDifference lt a b) =
      (equivalents lt c a).drop (equivalents lt c b).length ++
      (equivalents lt c b).drop (equivalents lt c a).length := by
  fun_induction setSymmetricDifference lt a b with
  | case1 x a y b h1 h2 => have := hlt.asymm h1; rw [h2] at this; cases this
  | case2 x a y b hxy h2 ih =>
    have ih := ih (List.pairwise_cons.mp ha).2 hb
    rw [equivalents_cons c x, equivalents_cons c x, ih]
    by_cases hx : Equiv lt c x
    · rw [equivalents_above hlt hx hxy hb]; simp [hx]
    · rw [if_neg hx, if_neg hx]
  | case3 x a y b h1 hyx ih =>
    have ih := ih ha (List.pairwise_cons.mp hb).2
    rw [equivalents_cons c y, equivalents_cons c y, ih]
    by_cases hy : Equiv lt c y
    · rw [equivalents_above hlt hy hyx ha]; simp [hy]
    · rw [if_neg hy, if_neg hy]
  | case4 x a y b h1 h2 ih =>
    have h' : lt y x = false := by simpa using h2
    have hxy : lt x y = false := by simpa using h1
    have ih := ih (List.pairwise_cons.mp ha).2 (List.pairwise_cons.mp hb).2
    rw [equivalents_cons c x, equivalents_cons c y]
    by_cases hx : Equiv lt c x
    · rw [if_pos hx, if_pos ((equiv_iff hlt hxy h').mp hx), ih]; simp
    · rw [if_neg hx, if_neg (fun h => hx ((equiv_iff hlt hxy h').mpr h)), ih]
  | case5 a b h =>
    cases a with
    | nil => simp [equivalents]
    | cons x a =>
      cases b with
      | nil => simp [equivalents]
      | cons y b => exact absurd rfl (h x a y b rfl)

/-! ### Sortedness of the outputs -/

theorem union_mem (a b : List α) (z : α) (h : z ∈ setUnion lt a b) : z ∈ a ∨ z ∈ b := by
  fun_induction setUnion lt a b with
  | case1 x a y b hc ih =>
    rcases List.mem_cons.mp h with e | e
    · right; simp [e]
    · rcases ih e with g | g
      · exact Or.inl g
      · right; simp [g]
  | case2 x a y b hc hc2 ih =>
    rcases List.mem_cons.mp h with e | e
    · left; simp [e]
    · rcases ih e with g | g
      · left; simp [g]
      · exact Or.inr g
  | case3 x a y b hc hc2 ih =>
    rcases List.mem_cons.mp h with e | e
    · left; simp [e]
    · rcases ih e with g | g
      · left; simp [g]
      · right; simp [g]
  | case4 a b hc => exact List.mem_append.mp h

theorem symdiff_mem (a b : List α) (z : α) (h : z ∈ setSymmetricDifference lt a b) : z ∈ a ∨ z ∈ b := by
  fun_induction setSymmetricDifference lt a b with
  | case1 => simp at h
  | case2 x a y b hc hc2 ih =>
    rcases List.mem_cons.mp h with e | e
    · left; simp [e]
    · rcases ih e with g | g
      · left; simp [g]
      · exact Or.inr g
  | case3 x a y b hc hc2 ih =>
    rcases List.mem_cons.mp h with e | e
    · right; simp [e]
    · rcases ih e with g | g
      · exact Or.inl g
      · right; simp [g]
  | case4 x a y b hc hc2 ih =>
    rcases ih h with g | g
    · left; simp [g]
    · right; simp [g]
  | case5 a b hc => exact List.mem_append.mp h

/-- Every element of a sorted list is at least its head. -/
theorem head_le (hlt : StrictWeak lt) {y z : α} {b : List α} (hb : Sorted lt (y :: b)) (hz : z ∈ y :: b) :
    lt z y = false := by
  rcases List.mem_cons.mp hz with g | g
  · rw [g]; exact hlt.irrefl _
  · exact (List.pairwise_cons.mp hb).1 z g

theorem union_sorted (hlt : StrictWeak lt) (a b : List α) (ha : Sorted lt a) (hb : Sorted lt b) :
    Sorted lt (setUnion lt a b) := by
  fun_induction setUnion lt a b with
  | case1 x a y b h ih =>
    refine List.pairwise_cons.mpr ⟨fun z hz => ?_, ih ha (List.pairwise_cons.mp hb).2⟩
    rcases union_mem _ _ _ hz with e | e
    · exact hlt.le_trans (hlt.asymm h) (head_le hlt ha e)
    · exact (List.pairwise_cons.mp hb).1 z e
  | case2 x a y b h h2 ih =>
    refine List.pairwise_cons.mpr ⟨fun z hz => ?_, ih (List.pairwise_cons.mp ha).2 hb⟩
    rcases union_mem _ _ _ hz with e | e
    · exact (List.pairwise_cons.mp ha).1 z e
    · exact hlt.le_trans (hlt.asymm h2) (head_le hlt hb e)
  | case3 x a y b h h2 ih =>
    refine List.pairwise_cons.mpr ⟨fun z hz => ?_, ih (List.pairwise_cons.mp ha).2 (List.pairwise_cons.mp hb).2⟩
    rcases union_mem _ _ _ hz with e | e
    · exact (List.pairwise_cons.mp ha).1 z e
    · exact hlt.le_trans (by simpa using h) ((List.pairwise_cons.mp hb).1 z e)
  | case4 a b h =>
    cases a with
    | nil => exact hb
    | cons x a =>
      cases b with
      | nil => simpa using ha
      | cons y b => exact absurd rfl (h x a y b rfl)

theorem symdiff_sorted (hlt : StrictWeak lt) (a b : List α) (ha : Sorted lt a) (hb : Sorted lt b) :
    Sorted lt (setSymmetricDifference lt a b) := by
  fun_induction setSymmetricDifference lt a b with
  | case1 => exact List.Pairwise.nil
  | case2 x a y b h2 h ih =>
    refine List.pairwise_cons.mpr ⟨fun z hz => ?_, ih (List.pairwise_cons.mp ha).2 hb⟩
    rcases symdiff_mem _ _ _ hz with e | e
    · exact (List.pairwise_cons.mp ha).1 z e
    · exact hlt.le_trans (hlt.asymm h2) (head_le hlt hb e)
  | case3 x a y b h2 h ih =>
    refine List.pairwise_cons.mpr ⟨fun z hz => ?_, ih ha (List.pairwise_cons.mp hb).2⟩
    rcases symdiff_mem _ _ _ hz with e | e
    · exact hlt.le_trans (hlt.asymm h) (head_le hlt ha e)
    · exact (List.pairwise_cons.mp hb).1 z e
  | case4 x a y b h h2 ih => exact ih (List.pairwise_cons.mp ha).2 (List.pairwise_cons.mp hb).2
  | case5 a b h =>
    cases a with
    | nil => exact hb
    | cons x a =>
      cases b with
      | nil => simpa using ha
      | cons y b => exact absurd rfl (h x a y b rfl)

theorem intersection_sublist (a b : List α) : (setIntersection lt a b).Sublist a := by
  fun_induction setIntersection lt a b with
  | case1 => simp
  | case2 x a y b _ _ ih => exact ih.cons x
  | case3 x a y b _ _ ih => exact ih
  | case4 x a y b _ _ ih => exact ih.cons_cons x
  | case5 => simp

theorem difference_sublist (a b : List α) : (setDifference lt a b).Sublist a := by
  fun_induction setDifference lt a b with
  | case1 => simp
  | case2 x a y b _ _ ih => exact ih.cons_cons x
  | case3 x a y b _ _ ih => exact ih
  | case4 x a y b _ _ ih => exact ih.cons x
  | case5 => simp

/-! ### C09 -/

/-- Multiplicity of (the class of) `c`. -/
def mult (lt : α → α → Bool) (c : α) (l : List α) : Nat := (equivalents lt c l).length

/-- **C09** `set_union`: sorted, and of every class the elements of the first range followed by the
surplus of the second, so the multiplicity is the maximum. -/
theorem set_union_spec (hlt : StrictWeak lt) (a b : List α) (ha : Sorted lt a) (hb : Sorted lt b) :
    Sorted lt (setUnion lt a b) ∧
    ∀ c, equivalents lt c (setUnion lt a b) = equivalents lt c a ++ (equivalents lt c b).drop (mult lt c a) ∧
      mult lt c (setUnion lt a b) = max (mult lt c a) (mult lt c b) := by
  refine ⟨union_sorted hlt a b ha hb, fun c => ?_⟩
  have := union_equivalents hlt a b ha hb c
  refine ⟨this, ?_⟩
  simp only [mult]
  rw [this, List.length_append, List.length_drop]; omega

/-- **C09** `set_intersection`: sorted, taken from the first range, multiplicity the minimum. -/
theorem set_intersection_spec (hlt : StrictWeak lt) (a b : List α) (ha : Sorted lt a) (hb : Sorted lt b) :
    Sorted lt (setIntersection lt a b) ∧
    ∀ c, equivalents lt c (setIntersection lt a b) = (equivalents lt c a).take (mult lt c b) ∧
      mult lt c (setIntersection lt a b) = min (mult lt c a) (mult lt c b) := by
  refine ⟨ha.sublist (intersection_sublist a b), fun c => ?_⟩
  have := intersection_equivalents hlt a b ha hb c
  refine ⟨this, ?_⟩
  simp only [mult]
  rw [this, List.length_take]; omega

/-- **C09** `set_difference`: sorted, taken from the first range, multiplicity the truncated difference. -/
theorem set_difference_spec (hlt : StrictWeak lt) (a b : List α) (ha : Sorted lt a) (hb : Sorted lt b) :
    Sorted lt (setDifference lt a b) ∧
    ∀ c, equivalents lt c (setDifference lt a b) = (equivalents lt c a).drop (mult lt c b) ∧
      mult lt c (setDifference lt a b) = mult lt c a - mult lt c b := by
  refine ⟨ha.sublist (difference_sublist a b), fun c => ?_⟩
  have := difference_equivalents hlt a b ha hb c
  refine ⟨this, ?_⟩
  simp only [mult]
  rw [this, List.length_drop]

/-- **C09** `set_symmetric_difference`: sorted, multiplicity the absolute difference. -/
theorem set_symmetric_difference_spec (hlt : StrictWeak lt) (a b : List α) (ha : Sorted lt a) (hb : Sorted lt b) :
    Sorted lt (setSymmetricDifference lt a b) ∧
    ∀ c, equivalents lt c (setSymmetricDifference lt a b) =
        (equivalents lt c a).drop (mult lt c b) ++ (equivalents lt c b).drop (mult lt c a) ∧
      mult lt c (setSymmetricDifference lt a b) = (mult lt c a - mult lt c b) + (mult lt c b - mult lt c a) := by
  refine ⟨symdiff_sorted hlt a b ha hb, fun c => ?_⟩
  have := symdiff_equivalents hlt a b ha hb c
  refine ⟨this, ?_⟩
  simp only [mult]
  rw [this, List.length_append, List.length_drop, List.length_drop]

theorem mult_cons (c x : α) (l : List α) : mult lt c (x :: l) = mult lt c l + (if Equiv lt c x then 1 else 0) := by
  rw [mult, equivalents_cons]
  by_cases h : Equiv lt c x <;> simp [h, mult]

/-- **C09** `includes` decides sub-multiset inclusion of the second range in the first. -/
theorem includes_spec (hlt : StrictWeak lt) (a b : List α) (ha : Sorted lt a) (hb : Sorted lt b) :
    includes lt a b = true ↔ ∀ c, mult lt c b ≤ mult lt c a := by
  fun_induction includes lt a b with
  | case1 x a y b h =>
    simp only [Bool.false_eq_true, false_iff]
    intro hall
    have hy : Equiv lt y y := ⟨hlt.irrefl _, hlt.irrefl _⟩
    have h1 := hall y
    rw [mult_cons y y, if_pos hy, mult, mult, equivalents_above hlt hy h ha] at h1
    simp at h1
  | case2 x a y b h hxy ih =>
    rw [ih (List.pairwise_cons.mp ha).2 hb]
    refine forall_congr' fun c => ?_
    rw [mult_cons c x]
    by_cases hx : Equiv lt c x
    · have : mult lt c (y :: b) = 0 := by rw [mult, equivalents_above hlt hx hxy hb]; rfl
      omega
    · simp [hx]
  | case3 x a y b h h2 ih =>
    have h' : lt y x = false := by simpa using h
    have hxy : lt x y = false := by simpa using h2
    rw [ih (List.pairwise_cons.mp ha).2 (List.pairwise_cons.mp hb).2]
    refine forall_congr' fun c => ?_
    rw [mult_cons c x, mult_cons c y]
    by_cases hx : Equiv lt c x
    · rw [if_pos hx, if_pos ((equiv_iff hlt hxy h').mp hx)]; omega
    · rw [if_neg hx, if_neg (fun h => hx ((equiv_iff hlt hxy h').mpr h))]; omega
  | case4 a b h =>
    cases b with
    | nil => simp [mult, equivalents]
    | cons y b =>
      cases a with
      | nil =>
        simp only [List.isEmpty_cons, Bool.false_eq_true, false_iff]
        intro hall
        have h1 := hall y
        rw [mult_cons y y, if_pos ⟨hlt.irrefl _, hlt.irrefl _⟩] at h1
        simp [mult, equivalents] at h1
      | cons x a => exact absurd rfl (h x a y b rfl)

example : StrictWeak natLt ∧ Sorted natLt [1, 2, 2, 2, 5] ∧ Sorted natLt [2, 2, 3, 5, 5] ∧
    setUnion natLt [1, 2, 2, 2, 5] [2, 2, 3, 5, 5] = [1, 2, 2, 2, 3, 5, 5] ∧
    setIntersection natLt [1, 2, 2, 2, 5] [2, 2, 3, 5, 5] = [2, 2, 5] ∧
    setDifference natLt [1, 2, 2, 2, 5] [2, 2, 3, 5, 5] = [1, 2] ∧
    setSymmetricDifference natLt [1, 2, 2, 2, 5] [2, 2, 3, 5, 5] = [1, 2, 3, 5] ∧
    includes natLt [1, 2, 2, 2, 5] [2, 2, 5] = true := by
  refine ⟨natLt_strictWeak, ?_, ?_, ?_, ?_, ?_, ?_, ?_⟩
  · simp [Sorted, natLt]
  · simp [Sorted, natLt]
  all_goals simp [setUnion, setIntersection, setDifference, setSymmetricDifference, includes, natLt]

end Ustl.SetOps
