import Verif.Heap.Lemmas
/-!
# C03 (heap algorithms) and C04 (priority_queue)

`some r` means that the call terminates without touching memory outside the block.
-/
namespace Ustl.Heap
variable {α : Type _}

/-- **C03** `make_heap` turns any range into a heap of the same elements. -/
theorem make_heap_spec {lt : α → α → Bool} (hlt : StrictWeak lt) (l : List α) :
    ∃ r, makeHeap lt l l.length = some r ∧ r.Perm l ∧ IsHeapN lt r r.length := by
  obtain ⟨r, h1, h2, h3, _⟩ := makeHeap_spec hlt l l.length (Nat.le_refl _)
  exact ⟨r, h1, h2, by rw [h2.length_eq]; exact h3⟩

/-- **C03** `push_heap` extends a heap by the element after it. -/
theorem push_heap_spec {lt : α → α → Bool} (hlt : StrictWeak lt) (h : List α) (x : α)
    (hh : IsHeapN lt h h.length) :
    ∃ r, pushHeap lt (h ++ [x]) (h.length + 1) = some r ∧ r.Perm (h ++ [x]) ∧
      IsHeapN lt r r.length := by
  obtain ⟨r, h1, h2, h3, _⟩ := pushHeap_spec hlt (h ++ [x]) h.length (by simp) (by
    intro j hj hjn a b ha hb
    rw [List.getElem?_append_left (by omega)] at ha hb
    exact hh j hj hjn a b ha hb)
  exact ⟨r, h1, h2, by rw [h2.length_eq]; simpa using h3⟩

/-- **C03** `pop_heap` moves the root, which is a maximum, to the end and leaves a heap before it. -/
theorem pop_heap_spec {lt : α → α → Bool} (hlt : StrictWeak lt) (l : List α) (hne : l ≠ [])
    (hh : IsHeapN lt l l.length) :
    ∃ r x, popHeap lt l l.length = some (r ++ [x]) ∧ (r ++ [x]).Perm l ∧ IsHeapN lt r r.length ∧
      l.head? = some x ∧ IsMax lt x l := by
  obtain ⟨n, hn⟩ : ∃ n, l.length = n + 1 := by
    cases l with
    | nil => exact absurd rfl hne
    | cons a t => exact ⟨t.length, rfl⟩
  obtain ⟨r, h1, h2, h3, h4, _⟩ := popHeap_spec hlt l n (by omega) (by rw [← hn]; exact hh)
  have hrl : r.length = n + 1 := by rw [h2.length_eq, hn]
  have hrne : r ≠ [] := by intro e; rw [e] at hrl; simp at hrl
  have e : r = r.dropLast ++ [r.getLast hrne] := (List.dropLast_concat_getLast hrne).symm
  have hx : l[0]? = some (r.getLast hrne) := by
    rw [← h4, List.getLast_eq_getElem, ← List.getElem?_eq_getElem]; congr 1; omega
  refine ⟨r.dropLast, r.getLast hrne, ?_, ?_, ?_, ?_, ?_, ?_⟩
  · rw [← e, hn]; exact h1
  · rw [← e]; exact h2
  · intro j hj hjn a b ha hb
    simp only [List.length_dropLast] at hjn
    rw [List.getElem?_dropLast, if_pos (by omega)] at ha hb
    exact h3 j hj (by omega) a b ha hb
  · rw [List.head?_eq_getElem?]; exact hx
  · exact List.mem_of_getElem? hx
  · intro y hy
    obtain ⟨k, hk⟩ := List.mem_iff_getElem?.mp hy
    have hkl : k < l.length := by
      rcases Nat.lt_or_ge k l.length with h | h
      · exact h
      · rw [List.getElem?_eq_none h] at hk; cases hk
    exact root_max hlt l l.length (Nat.le_refl _) hh _ hx k y hkl hk

/-- **C03** `sort_heap` turns a heap into the ascending sequence of its elements. -/
theorem sort_heap_spec {lt : α → α → Bool} (hlt : StrictWeak lt) (l : List α)
    (hh : IsHeapN lt l l.length) :
    ∃ r, sortHeap lt l l.length = some r ∧ r.Perm l ∧ Sorted lt r := by
  refine sortHeap_spec hlt l.length l (Nat.le_refl _) hh ?_ ?_
  · intro i j x y hi _ hx
    rw [List.getElem?_eq_none hi] at hx; cases hx
  · intro i j x y _ hj _ hy
    rw [List.getElem?_eq_none hj] at hy; cases hy

/-- **C03** heap sort: `make_heap` then `sort_heap` sorts any range. -/
theorem make_then_sort_heap {lt : α → α → Bool} (hlt : StrictWeak lt) (l : List α) :
    ∃ h r, makeHeap lt l l.length = some h ∧ sortHeap lt h h.length = some r ∧ r.Perm l ∧
      Sorted lt r := by
  obtain ⟨h, h1, h2, h3⟩ := make_heap_spec hlt l
  obtain ⟨r, r1, r2, r3⟩ := sort_heap_spec hlt h h3
  exact ⟨h, r, h1, r1, r2.trans h2, r3⟩

/-- **C03** `is_heap` decides the heap property of any range. -/
theorem is_heap_spec (lt : α → α → Bool) (l : List α) :
    ∃ b, isHeap lt l l.length = some b ∧ (b = true ↔ IsHeapN lt l l.length) := by
  obtain ⟨b, h1, h2⟩ := isHeapLoop_spec lt l l.length (Nat.le_refl _) _ 0 0 rfl rfl
  refine ⟨b, h1, h2.trans ⟨?_, ?_⟩⟩
  · intro h j hj hjn; exact h j hj hjn (Nat.zero_le _)
  · intro h j hj hjn _; exact h j hj hjn

example : IsHeapN natLt [9, 5, 8, 1, 4] 5 ∧ ([9, 5, 8, 1, 4] : List Nat) ≠ [] := by
  constructor
  · intro j h0 h1 x y hx hy
    obtain rfl | rfl | rfl | rfl : j = 1 ∨ j = 2 ∨ j = 3 ∨ j = 4 := by omega
    all_goals simp at hx hy; subst hx; subst hy; decide
  · simp

/-! ### priority_queue -/

theorem pqStep_push {lt : α → α → Bool} (hlt : StrictWeak lt) (q : List α) (x : α)
    (hq : IsHeapN lt q q.length) :
    ∃ q', pqPush lt q x = some q' ∧ q'.Perm (x :: q) ∧ IsHeapN lt q' q'.length := by
  obtain ⟨r, h1, h2, h3⟩ := push_heap_spec hlt q x hq
  exact ⟨r, h1, h2.trans (List.perm_append_comm (l₁ := q) (l₂ := [x])), h3⟩

theorem pqStep_pop {lt : α → α → Bool} (hlt : StrictWeak lt) (q : List α) (hne : q ≠ [])
    (hq : IsHeapN lt q q.length) :
    ∃ q' x, pqPop lt q = some q' ∧ q.Perm (x :: q') ∧ IsMax lt x q ∧ pqTop q = some x ∧
      IsHeapN lt q' q'.length := by
  obtain ⟨r, x, h1, h2, h3, h4, h5⟩ := pop_heap_spec hlt q hne hq
  refine ⟨r, x, ?_, ?_, h5, ?_, h3⟩
  · simp [pqPop, h1]
  · exact h2.symm.trans (List.perm_append_comm (l₁ := r) (l₂ := [x]))
  · rw [pqTop, rd, ← List.head?_eq_getElem?]; exact h4

theorem pqRun_spec {lt : α → α → Bool} (hlt : StrictWeak lt) (b₀ : List α) :
    ∀ (ops done : List (Op α)) (q : List α), IsHeapN lt q q.length → Bag lt b₀ done q →
      ValidHistory q.length ops →
      ∃ q', pqRun lt lt q ops = some q' ∧ Bag lt b₀ (done ++ ops) q' ∧ IsHeapN lt q' q'.length := by
  intro ops
  induction ops with
  | nil => intro done q hq hb _; exact ⟨q, rfl, by simpa using hb, hq⟩
  | cons op ops ih =>
    intro done q hq hb hv
    cases op with
    | push x =>
      obtain ⟨q', h1, h2, h3⟩ := pqStep_push hlt q x hq
      obtain ⟨q'', r1, r2, r3⟩ := ih (done ++ [.push x]) q' h3 (.push x hb h2)
        (by rw [h2.length_eq]; exact hv)
      exact ⟨q'', by simp only [pqRun, pqStep, h1]; exact r1, by simpa using r2, r3⟩
    | pop =>
      have hne : q ≠ [] := by intro e; subst e; exact hv
      obtain ⟨q', x, h1, h2, h3, _, h5⟩ := pqStep_pop hlt q hne hq
      obtain ⟨q'', r1, r2, r3⟩ := ih (done ++ [.pop]) q' h5 (.pop x hb h3 h2) (by
        have := h2.length_eq
        rw [this] at hv; exact hv)
      exact ⟨q'', by simp only [pqRun, pqStep, h1]; exact r1, by simpa using r2, r3⟩

/-- **C04**, for queues whose comparison object agrees with the `operator<` that `pop` falls back to
(every default-instantiated `priority_queue`): after any history that does not pop an empty queue,
starting from a queue constructed from any range (in particular from an empty one), the queue holds a
bag the specification allows (each pop removed one maximum), and `top()` is a maximum of that bag.
Missing for the full claim: other comparison objects, where the claim is false
(`priority_queue_comp_violated`). -/
theorem priority_queue_partial {lt : α → α → Bool} (hlt : StrictWeak lt) (xs : List α)
    (ops : List (Op α)) (hv : ValidHistory xs.length ops) :
    ∃ q₀ q, pqOfRange lt xs = some q₀ ∧ pqRun lt lt q₀ ops = some q ∧ Bag lt xs ops q ∧
      (q ≠ [] → ∃ t, pqTop q = some t ∧ IsMax lt t q) := by
  obtain ⟨q₀, h1, h2, h3⟩ := make_heap_spec hlt xs
  obtain ⟨q, r1, r2, r3⟩ := pqRun_spec hlt xs ops [] q₀ h3 (.start h2) (by rw [h2.length_eq]; exact hv)
  refine ⟨q₀, q, h1, r1, by simpa using r2, ?_⟩
  intro hne
  obtain ⟨q', x, _, _, hmax, htop, _⟩ := pqStep_pop hlt q hne r3
  exact ⟨x, htop, hmax⟩

example : ValidHistory 0 [Op.push 3, .push 9, .pop, .push 4] := by simp [ValidHistory]

/-- The full claim of C04: the comparison object is an arbitrary strict weak order, possibly different
from the value type's `operator<`. -/
def PriorityQueueClaim : Prop :=
  ∀ (comp : Nat → Nat → Bool), StrictWeak comp → ∀ (ops : List (Op Nat)), ValidHistory 0 ops →
    ∃ q, pqRun natLt comp [] ops = some q ∧ Bag comp [] ops q ∧
      (q ≠ [] → ∃ t, pqTop q = some t ∧ IsMax comp t q)

/-- **C04 is violated** by the code: with `greater<int>` as comparison object, after pushing 1, 2, 3
and one pop, `top()` is 3 although 2 is in the queue and comes first. -/
theorem priority_queue_comp_violated : ¬ PriorityQueueClaim := by
  intro h
  obtain ⟨q, h1, _, h3⟩ := h natGt natGt_strictWeak [.push 1, .push 2, .push 3, .pop]
    (by simp [ValidHistory])
  have hrun : pqRun natLt natGt [] [.push 1, .push 2, .push 3, .pop] = some [3, 2] := by
    simp [pqRun, pqStep, pqPush, pushHeap, pushLoop, pqPop, popHeap, iterSwap, trickleDown, trickleLoop,
      childInc, rd, wr, natLt, natGt]
  rw [hrun] at h1
  cases h1
  obtain ⟨t, ht, hm⟩ := h3 (by simp)
  simp [pqTop, rd] at ht
  subst ht
  have := hm.2 2 (by simp)
  simp [natGt] at this

end Ustl.Heap
