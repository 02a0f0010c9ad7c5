import Verif.Search.Lemmas
/-!
# C01, C02: binary searches

The memory is `pre ++ m ++ post` and the searched range is `m`; a result `some k` means that the
call terminates, reads only inside the range's memory, and returns the position `k`.
-/
namespace Ustl.Search
variable {α β : Type _}

/-- On *any* range whatsoever, `lower_bound`, `upper_bound` terminate, never read outside the range
(here: the block consists of the range alone) and return a position in `[first,last]`. -/
theorem bounds_memory_safe (cmpEV : α → β → Bool) (cmpVE : β → α → Bool) (m : List α) (v : β) :
    (∃ k, lowerBound cmpEV m 0 m.length v = some k ∧ k ≤ m.length) ∧
    (∃ k, upperBound cmpVE m 0 m.length v = some k ∧ k ≤ m.length) := by
  constructor
  · obtain ⟨k, h, _, h2, _⟩ := lowerBound_eq (cmpEV := cmpEV) (l := m) (v := v)
      (Nat.zero_le m.length) (Nat.le_refl _)
    exact ⟨k, h, h2⟩
  · rw [upperBound_eq (Nat.zero_le _) (Nat.le_refl _)]
    obtain ⟨k, h, _, h2, _⟩ := lowerBound_eq (cmpEV := fun x v => !cmpVE v x) (l := m) (v := v)
      (Nat.zero_le m.length) (Nat.le_refl _)
    exact ⟨k, h, h2⟩

/-- **C01** (`lower_bound`): on a sorted range the result splits the range into the elements less
than the value and those not less. -/
theorem lower_bound_spec {lt : α → α → Bool} (hlt : StrictWeak lt) (pre m post : List α) (v : α)
    (hs : Sorted lt m) :
    ∃ lo hi, m = lo ++ hi ∧
      lowerBound lt (pre ++ m ++ post) pre.length (pre.length + m.length) v
        = some (pre.length + lo.length) ∧
      (∀ x ∈ lo, lt x v = true) ∧ (∀ x ∈ hi, lt x v = false) := by
  refine lowerBound_partitioned lt pre m post v ?_
  refine List.Pairwise.imp ?_ hs
  intro a b hab hb
  exact hlt.lt_of_le_of_lt hab hb

/-- **C01** (`lower_bound`, heterogeneous form): it is enough that the range is partitioned by the
comparison with the value, the precondition the C++ standard states. -/
theorem lower_bound_spec_partitioned (cmpEV : α → β → Bool) (pre m post : List α) (v : β)
    (hp : m.Pairwise (fun a b => cmpEV b v = true → cmpEV a v = true)) :
    ∃ lo hi, m = lo ++ hi ∧
      lowerBound cmpEV (pre ++ m ++ post) pre.length (pre.length + m.length) v
        = some (pre.length + lo.length) ∧
      (∀ x ∈ lo, cmpEV x v = true) ∧ (∀ x ∈ hi, cmpEV x v = false) :=
  lowerBound_partitioned cmpEV pre m post v hp

/-- **C01** (`upper_bound`): the result splits the sorted range into the elements not greater than
the value and those greater. -/
theorem upper_bound_spec {lt : α → α → Bool} (hlt : StrictWeak lt) (pre m post : List α) (v : α)
    (hs : Sorted lt m) :
    ∃ lo hi, m = lo ++ hi ∧
      upperBound lt (pre ++ m ++ post) pre.length (pre.length + m.length) v
        = some (pre.length + lo.length) ∧
      (∀ x ∈ lo, lt v x = false) ∧ (∀ x ∈ hi, lt v x = true) := by
  rw [upperBound_eq (by omega) (by simp)]
  obtain ⟨lo, hi, h1, h2, h3, h4⟩ :=
    lowerBound_partitioned (fun x v => !lt v x) pre m post v (by
      refine List.Pairwise.imp ?_ hs
      intro a b hab hb
      simp only [Bool.not_eq_true'] at hb ⊢
      exact hlt.le_trans hab hb)
  exact ⟨lo, hi, h1, h2, by simpa using h3, by simpa using h4⟩

/-- **C01** (`equal_range`): on a sorted range the result delimits exactly the elements equivalent to
the value: less before, equivalent inside, greater after. -/
theorem equal_range_spec {lt : α → α → Bool} (hlt : StrictWeak lt) (pre m post : List α) (v : α)
    (hs : Sorted lt m) :
    ∃ lo eq hi, m = lo ++ eq ++ hi ∧
      equalRange lt lt (pre ++ m ++ post) pre.length (pre.length + m.length) v
        = some (pre.length + lo.length, pre.length + lo.length + eq.length) ∧
      (∀ x ∈ lo, lt x v = true) ∧ (∀ x ∈ eq, Equiv lt x v) ∧ (∀ x ∈ hi, lt v x = true) := by
  obtain ⟨lo, rest, rfl, hlb, hlo, hrest⟩ := lower_bound_spec hlt pre m post v hs
  obtain ⟨eq, hi, rfl, hadv, heq, hhi⟩ := advance_spec lt (pre ++ lo) rest post v
    (pre.length + (lo ++ rest).length) (by simp; omega)
  refine ⟨lo, eq, hi, by simp, ?_, hlo, ?_, ?_⟩
  · simp only [equalRange, hlb]
    simp only [List.append_assoc, List.length_append] at hadv ⊢
    simp [hadv]
  · intro x hx
    exact ⟨hrest x (by simp [hx]), heq x hx⟩
  · intro x hx
    cases hi with
    | nil => simp at hx
    | cons y ys =>
      have hy := hhi y (by simp)
      rcases List.mem_cons.mp hx with h | h
      · subst h; exact hy
      · have hs2 : Sorted lt (y :: ys) := by
          have := (List.pairwise_append.mp hs).2.1
          exact (List.pairwise_append.mp this).2.1
        exact hlt.lt_of_lt_of_le hy ((List.pairwise_cons.mp hs2).1 x h)

example : Sorted natLt [1, 3, 3, 3, 7] ∧ StrictWeak natLt ∧
    equalRange natLt natLt ([0, 9] ++ [1, 3, 3, 3, 7] ++ [2]) 2 7 3 = some (3, 6) :=
  ⟨by decide, natLt_strictWeak, by simp [equalRange, lowerBound, advanceWhileNotLess, rd, natLt]⟩

/-- **C02** (overload without comparison object): on a sorted range `binary_search` is true iff some
element is equivalent to the value. -/
theorem binary_search_spec {lt : α → α → Bool} (hlt : StrictWeak lt) (pre m post : List α) (v : α)
    (hs : Sorted lt m) :
    ∃ b, binarySearch lt lt (pre ++ m ++ post) pre.length (pre.length + m.length) v = some b ∧
      (b = true ↔ ∃ x ∈ m, Equiv lt x v) := by
  obtain ⟨lo, hi, rfl, hlb, hlo, hhi⟩ := lower_bound_spec hlt pre m post v hs
  simp only [binarySearch, hlb]
  cases hi with
  | nil =>
    refine ⟨false, by simp, ?_⟩
    simp only [Bool.false_eq_true, false_iff]
    rintro ⟨x, hx, h1, _⟩
    rw [hlo x (by simpa using hx)] at h1; cases h1
  | cons y ys =>
    have hne : pre.length + lo.length ≠ pre.length + (lo ++ y :: ys).length := by simp
    have hr : rd (pre ++ (lo ++ y :: ys) ++ post) (pre.length + lo.length) = some y := by
      have := rd_at (pre ++ lo) (ys ++ post) y
      simpa using this
    simp only [hne, if_false, hr]
    refine ⟨!lt v y, rfl, ?_⟩
    constructor
    · intro h
      exact ⟨y, by simp, hhi y (by simp), by simpa using h⟩
    · rintro ⟨x, hx, h1, h2⟩
      simp only [Bool.not_eq_true']
      rcases List.mem_append.mp hx with h | h
      · rw [hlo x h] at h1; cases h1
      · rcases List.mem_cons.mp h with h | h
        · subst h; exact h2
        · have hs2 : Sorted lt (y :: ys) := (List.pairwise_append.mp hs).2.1
          exact hlt.le_trans ((List.pairwise_cons.mp hs2).1 x h) h2

example : Sorted natLt [1, 3, 3, 7] ∧ binarySearch natLt natLt [1, 3, 3, 7] 0 4 3 = some true ∧
    binarySearch natLt natLt [1, 3, 3, 7] 0 4 4 = some false :=
  ⟨by decide, by simp [binarySearch, lowerBound, rd, natLt], by simp [binarySearch, lowerBound, rd, natLt]⟩

/-- The claim of C02 for the overload taking a comparison object, to be refuted below. -/
def BinarySearchCompClaim : Prop :=
  ∀ (lt : Nat → Nat → Bool), StrictWeak lt → ∀ (m : List Nat) (v : Nat), Sorted lt m →
    ∃ b, binarySearchComp lt m 0 m.length v = some b ∧ (b = true ↔ ∃ x ∈ m, Equiv lt x v)

/-- **C02 is violated** by the overload taking a comparison object: searching 2 in `{1,3}` with
`less` answers true. -/
theorem binary_search_comp_violated : ¬ BinarySearchCompClaim := by
  intro h
  obtain ⟨b, h1, h2⟩ := h natLt natLt_strictWeak [1, 3] 2 (by decide)
  have : binarySearchComp natLt [1, 3] 0 2 2 = some true := by
    simp [binarySearchComp, lowerBound, rd, natLt]
  simp only [List.length_cons, List.length_nil] at h1
  rw [this] at h1
  cases h1
  have h3 := h2.mp rfl
  simp [Equiv, natLt] at h3

/-- **C02**, what the overload with a comparison object does compute on a sorted range: whether some
element is *not less* than the value. In particular it never misses an element that is present.
Missing for the full claim: a `true` answer does not imply presence. -/
theorem binary_search_comp_partial {lt : α → α → Bool} (hlt : StrictWeak lt) (pre m post : List α) (v : α)
    (hs : Sorted lt m) :
    ∃ b, binarySearchComp lt (pre ++ m ++ post) pre.length (pre.length + m.length) v = some b ∧
      (b = true ↔ ∃ x ∈ m, lt x v = false) ∧ ((∃ x ∈ m, Equiv lt x v) → b = true) := by
  obtain ⟨lo, hi, rfl, hlb, hlo, hhi⟩ := lower_bound_spec hlt pre m post v hs
  have key : ∃ b, binarySearchComp lt (pre ++ (lo ++ hi) ++ post) pre.length
      (pre.length + (lo ++ hi).length) v = some b ∧ (b = true ↔ ∃ x ∈ lo ++ hi, lt x v = false) := by
    simp only [binarySearchComp, hlb]
    cases hi with
    | nil =>
      refine ⟨false, by simp, ?_⟩
      simp only [Bool.false_eq_true, false_iff]
      rintro ⟨x, hx, h1⟩
      rw [hlo x (by simpa using hx)] at h1; cases h1
    | cons y ys =>
      have hne : pre.length + lo.length ≠ pre.length + (lo ++ y :: ys).length := by simp
      have hr : rd (pre ++ (lo ++ y :: ys) ++ post) (pre.length + lo.length) = some y := by
        have := rd_at (pre ++ lo) (ys ++ post) y
        simpa using this
      simp only [hne, if_false, hr]
      have hy := hhi y (by simp)
      refine ⟨!lt y v, rfl, ?_⟩
      simp only [hy, Bool.not_false, true_iff]
      exact ⟨y, by simp, hy⟩
  obtain ⟨b, h1, h2⟩ := key
  refine ⟨b, h1, h2, ?_⟩
  rintro ⟨x, hx, hxv⟩
  exact h2.mpr ⟨x, hx, hxv.1⟩

example : Sorted natGt [7, 3, 3, 1] ∧ StrictWeak natGt ∧
    binarySearchComp natGt [7, 3, 3, 1] 0 4 3 = some true :=
  ⟨by decide, natGt_strictWeak, by simp [binarySearchComp, lowerBound, rd, natGt]⟩

end Ustl.Search
