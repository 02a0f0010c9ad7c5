import Verif.Heap.Props
/-! # The other constructors of `priority_queue` (uheap.h): more of C04 -/
namespace Ustl.Heap
variable {α : Type _}

/-- `priority_queue (c, v)` and `priority_queue (c, move (v))`: the container is taken as it is. Models uheap.h:138, 149. -/
def pqOfContainer (v : List α) : List α := v

/-- `priority_queue (f, l, c, move (v))`: the range is appended to the container. Models uheap.h:150-151. -/
def pqOfRangeContainer (comp : α → α → Bool) (xs v : List α) : Option (List α) :=
  makeHeap comp (v ++ xs) (v ++ xs).length

/-- **C04 (partial)** a queue made from a range and a container holds the elements of both, and behaves as specified from
there on. Missing: comparisons other than the `operator<` of the elements. -/
theorem priority_queue_range_container_partial {lt : α → α → Bool} (hlt : StrictWeak lt) (xs v : List α)
    (ops : List (Op α)) (hv : ValidHistory (v.length + xs.length) ops) :
    ∃ q₀ q, pqOfRangeContainer lt xs v = some q₀ ∧ pqRun lt lt q₀ ops = some q ∧ Bag lt (v ++ xs) ops q ∧
      (q ≠ [] → ∃ t, pqTop q = some t ∧ IsMax lt t q) :=
  priority_queue_partial hlt (v ++ xs) ops (by rw [List.length_append]; exact hv)

example : ValidHistory ([4, 7].length + [9].length) [Op.pop, .pop, .pop, .push 1] := by simp [ValidHistory]

/-- **C04 (partial)** a queue made from a container alone does so if the container is a heap already. Missing: other
containers (`priority_queue_container_violated`). -/
theorem priority_queue_container_partial {lt : α → α → Bool} (hlt : StrictWeak lt) (v : List α)
    (hh : IsHeapN lt v v.length) (ops : List (Op α)) (hv : ValidHistory v.length ops) :
    ∃ q, pqRun lt lt (pqOfContainer v) ops = some q ∧ Bag lt v ops q ∧
      (q ≠ [] → ∃ t, pqTop q = some t ∧ IsMax lt t q) := by
  obtain ⟨q, r1, r2, r3⟩ := pqRun_spec hlt v ops [] v hh (.start (List.Perm.refl _)) hv
  refine ⟨q, r1, by simpa using r2, ?_⟩
  intro hne
  obtain ⟨q', x, _, _, hmax, htop, _⟩ := pqStep_pop hlt q hne r3
  exact ⟨x, htop, hmax⟩

/-- A container in descending order will do. -/
example : IsHeapN natLt [9, 5, 4] 3 := by
  intro j h0 h1 x y hx hy
  obtain rfl | rfl : j = 1 ∨ j = 2 := by omega
  all_goals simp at hx hy; subst hx; subst hy; decide

/-- **C04 violated** `priority_queue (less, {1, 2})` does not order the container: `top ()` is 1 although 2 is in the queue,
and so it is for every two elements in ascending order. -/
theorem priority_queue_container_violated (lt : α → α → Bool) (a b : α) (h : lt a b = true) :
    pqTop (pqOfContainer [a, b]) = some a ∧ ¬ IsMax lt a [a, b] := by
  refine ⟨rfl, fun hm => ?_⟩
  have := hm.2 b (by simp)
  rw [h] at this
  cases this

/-- **C04** with any comparison, a history of pushes only keeps a maximum on top, whatever the `operator<` of the
elements is. -/
theorem priority_queue_pushes {lt : α → α → Bool} (hlt : StrictWeak lt) (less : α → α → Bool) (xs ys : List α) :
    ∃ q₀ q, pqOfRange lt xs = some q₀ ∧ pqRun less lt q₀ (ys.map .push) = some q ∧ q.Perm (xs ++ ys) ∧
      (q ≠ [] → ∃ t, pqTop q = some t ∧ IsMax lt t (xs ++ ys)) := by
  obtain ⟨q₀, h1, h2, h3⟩ := make_heap_spec hlt xs
  have key : ∀ (ys q : List α), IsHeapN lt q q.length →
      ∃ q', pqRun less lt q (ys.map .push) = some q' ∧ q'.Perm (q ++ ys) ∧ IsHeapN lt q' q'.length := by
    intro ys
    induction ys with
    | nil => intro q hq; exact ⟨q, rfl, by simp, hq⟩
    | cons y r ih =>
      intro q hq
      obtain ⟨q', k1, k2, k3⟩ := pqStep_push hlt q y hq
      obtain ⟨q'', m1, m2, m3⟩ := ih q' k3
      refine ⟨q'', by simp only [List.map_cons, pqRun, pqStep, k1]; exact m1, m2.trans ?_, m3⟩
      refine (k2.append_right r).trans ?_
      exact (List.perm_middle (a := y) (l₁ := q) (l₂ := r)).symm
  obtain ⟨q, k1, k2, k3⟩ := key ys q₀ h3
  have hp := k2.trans (h2.append_right ys)
  refine ⟨q₀, q, h1, k1, hp, fun hne => ?_⟩
  obtain ⟨_, x, _, _, hmax, htop, _⟩ := pqStep_pop hlt q hne k3
  exact ⟨x, htop, hp.mem_iff.1 hmax.1, fun y hy => hmax.2 y (hp.mem_iff.2 hy)⟩

example : StrictWeak natGt := natGt_strictWeak

end Ustl.Heap
