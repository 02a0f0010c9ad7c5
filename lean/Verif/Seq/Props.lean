import Verif.Seq.Spec
import Verif.Assoc.Lemmas
import Verif.Permute.Props
import Verif.Forward.Props
/-! # queue (C34), stack (C35), list (C36) -/
namespace Ustl.Seq
open Ustl.Assoc
variable {α : Type _}

theorem upd_self {β : Type _} (f : Nat → β) (i : Nat) (x : β) : upd f i x i = x := by simp [upd]
theorem upd_ne {β : Type _} (f : Nat → β) {i k : Nat} (x : β) (h : k ≠ i) : upd f i x k = f k := by simp [upd, h]

/-! ## queue -/

/-- The relation between a queue and the sequence it holds: not more than half of the storage is dead. -/
def QRep (q : Queue α) (c : List α) : Prop := q.front ≤ q.storage.length / 2 ∧ q.storage.drop q.front = c

theorem QRep.shows {q : Queue α} {c : List α} (h : QRep q c) : QShows q c := by
  obtain ⟨h1, h2⟩ := h
  have hle : q.front ≤ q.storage.length := by omega
  have hlen : c.length = q.storage.length - q.front := by rw [← h2, List.length_drop]
  refine ⟨?_, fun x hx => ?_, fun x hx => ?_⟩
  · unfold Queue.size; rw [if_pos hle, hlen]
  · unfold Queue.head rd
    rw [← h2, List.head?_drop] at hx
    exact hx
  · unfold Queue.last rd
    have hne : c ≠ [] := by intro e; rw [e] at hx; cases hx
    have : 0 < c.length := List.length_pos_iff.2 hne
    rw [if_neg (by omega), ← List.getLast?_eq_getElem?]
    rw [← h2, List.getLast?_drop, if_neg (by omega)] at hx
    exact hx

theorem QRep.push {q : Queue α} {c : List α} (h : QRep q c) (v : α) : QRep (q.push v) (c ++ [v]) := by
  obtain ⟨h1, h2⟩ := h
  refine ⟨?_, ?_⟩
  · simp only [Queue.push, List.length_append, List.length_singleton]; omega
  · simp only [Queue.push]
    rw [List.drop_append_of_le_length (by omega), h2]

theorem QRep.pop {q : Queue α} {c : List α} (h : QRep q c) (hne : c ≠ []) :
    ∃ q', q.pop = some q' ∧ QRep q' c.tail := by
  obtain ⟨h1, h2⟩ := h
  have hp : 0 < c.length := List.length_pos_iff.2 hne
  have hl : q.front < q.storage.length := by rw [← h2, List.length_drop] at hp; omega
  have ht : q.storage.drop (q.front + 1) = c.tail := by rw [← h2, List.tail_drop]
  unfold Queue.pop
  simp only
  by_cases hf : q.front + 1 > q.storage.length / 2
  · rw [if_pos hf]
    unfold verase
    rw [if_pos (by omega)]
    refine ⟨_, rfl, Nat.zero_le _, ?_⟩
    simp only [List.take_zero, List.nil_append, List.drop_zero, Nat.zero_add]
    exact ht
  · rw [if_neg hf]
    exact ⟨_, rfl, by simp only; omega, ht⟩

theorem queue_step {w : Nat → Queue α} {c : Nat → List α} (op : QOp α) (hr : ∀ k, QRep (w k) (c k)) (hp : op.Pre c) :
    ∃ w', qStep w op = some w' ∧ ∀ k, QRep (w' k) (op.apply c k) := by
  have nilRep : QRep (⟨[], 0⟩ : Queue α) [] := ⟨Nat.zero_le _, rfl⟩
  cases op with
  | push i v =>
    refine ⟨_, rfl, fun k => ?_⟩
    by_cases hk : k = i
    · subst hk; simp only [QOp.apply, upd_self]; exact (hr k).push v
    · simp only [QOp.apply, upd_ne _ _ hk]; exact hr k
  | pop i =>
    obtain ⟨q', e, r⟩ := (hr i).pop hp
    refine ⟨upd w i q', by simp [qStep, e], fun k => ?_⟩
    by_cases hk : k = i
    · subst hk; simp only [QOp.apply, upd_self]; exact r
    · simp only [QOp.apply, upd_ne _ _ hk]; exact hr k
  | init i s =>
    refine ⟨_, rfl, fun k => ?_⟩
    by_cases hk : k = i
    · subst hk; simp only [QOp.apply, upd_self]; exact ⟨Nat.zero_le _, rfl⟩
    · simp only [QOp.apply, upd_ne _ _ hk]; exact hr k
  | move i j =>
    refine ⟨_, rfl, fun k => ?_⟩
    by_cases hk : k = j
    · subst hk; simp only [QOp.apply, upd_self]; exact hr i
    · simp only [QOp.apply, upd_ne _ _ hk]
      by_cases hi : k = i
      · subst hi; simp only [upd_self]; exact nilRep
      · simp only [upd_ne _ _ hi]; exact hr k
  | copy i j => exact absurd hp id

theorem queue_rep {w : Nat → Queue α} {c : Nat → List α} (h : QHist w c) : ∀ k, QRep (w k) (c k) := by
  induction h with
  | nil => exact fun k => ⟨Nat.zero_le _, rfl⟩
  | step op _ hp he ih =>
    obtain ⟨w', e, r⟩ := queue_step op ih hp
    rw [he] at e
    cases e
    exact r

/-- **C34** except for copies: after any history of pushes, pops, constructions and moves, every queue shows the
sequence of the elements pushed and not popped. Missing: `queue (const queue&)`, see `queue_copy_violated`. -/
theorem queue_history_partial {w : Nat → Queue α} {c : Nat → List α} (h : QHist w c) (k : Nat) : QShows (w k) (c k) :=
  (queue_rep h k).shows

/-- **C34** no call within the contract is undefined after any history. -/
theorem queue_progress {w : Nat → Queue α} {c : Nat → List α} (h : QHist w c) (op : QOp α) (hp : op.Pre c) :
    ∃ w', qStep w op = some w' ∧ QHist w' (op.apply c) := by
  obtain ⟨w', e, _⟩ := queue_step op (queue_rep h) hp
  exact ⟨w', e, h.step op hp e⟩

/-- **C34** storage holds at most twice the live elements: popped elements do not accumulate. -/
theorem queue_memory {w : Nat → Queue α} {c : Nat → List α} (h : QHist w c) (k : Nat) :
    (w k).storage.length ≤ 2 * (c k).length + 1 := by
  obtain ⟨h1, h2⟩ := queue_rep h k
  rw [← h2, List.length_drop]
  omega

/-- **C34** a copy of any queue: the elements already popped but not yet erased come back in front. -/
theorem queue_copy_shows {w : Nat → Queue α} {c : Nat → List α} (h : QHist w c) (i : Nat) :
    QShows (w i).copy ((w i).storage.take (w i).front ++ c i) := by
  have hr := queue_rep h i
  refine QRep.shows ⟨Nat.zero_le _, ?_⟩
  rw [← hr.2]
  simp [Queue.copy]

/-- **C34** violated by copies: push 1, 2, 3, pop, copy. The copy's front is the popped element. -/
theorem queue_copy_violated : ∃ (w : Nat → Queue Nat) (c : Nat → List Nat), QHist w c ∧ c 0 = [2, 3, 4, 5] ∧
    (w 0).head = some 2 ∧ (w 0).size = some 4 ∧ (w 0).copy.head = some 1 ∧ (w 0).copy.size = some 5 := by
  refine ⟨_, _, ((QHist.nil.step (.init 0 [1, 2, 3, 4]) trivial rfl).step (.push 0 5) trivial rfl).step (.pop 0)
    (by simp [QOp.Pre, QOp.apply, upd]) rfl, ?_, ?_, ?_, ?_, ?_⟩ <;> rfl

/-- **C34** violated by `==`: two queues holding the same sequence can compare unequal. -/
theorem queue_eq_violated : ∃ (w : Nat → Queue Nat) (c : Nat → List Nat), QHist w c ∧ c 0 = c 1 ∧
    (w 0).eq (w 1) = false := by
  refine ⟨_, _, ((QHist.nil.step (.init 0 [1, 2, 3, 4]) trivial rfl).step (.init 1 [2, 3, 4]) trivial rfl).step (.pop 0)
    (by simp [QOp.Pre, QOp.apply, upd]) rfl, ?_, ?_⟩ <;> rfl

/-- A history crossing two compactions, with a move. -/
example : ∃ (w : Nat → Queue Nat) (c : Nat → List Nat), QHist w c ∧ c 1 = [3, 9] ∧ c 0 = [] ∧ (w 1).head = some 3 := by
  refine ⟨_, _, ((((((QHist.nil.step (.push 0 1) trivial rfl).step (.push 0 2) trivial rfl).step (.push 0 3) trivial
    rfl).step (.pop 0) (by simp [QOp.Pre, QOp.apply, upd]) rfl).step (.pop 0) (by simp [QOp.Pre, QOp.apply, upd]) rfl).step (.push 0 9)
    trivial rfl).step (.move 0 1) (by simp [QOp.Pre]) rfl, ?_, ?_, ?_⟩ <;> rfl

/-! ## stack -/

theorem stack_step {w c : Nat → List α} (op : SOp α) (hr : ∀ k, (w k).reverse = c k) (hp : op.Pre c) :
    ∃ w', sStep w op = some w' ∧ ∀ k, (w' k).reverse = op.apply c k := by
  cases op with
  | push i v =>
    refine ⟨_, rfl, fun k => ?_⟩
    by_cases hk : k = i
    · subst hk; simp only [SOp.apply, upd_self, stackPush]; rw [← hr]; simp
    · simp only [SOp.apply, upd_ne _ _ hk]; exact hr k
  | pop i =>
    have hne : (w i) ≠ [] := fun e => hp (by rw [← hr i, e]; rfl)
    have hl : 0 < (w i).length := List.length_pos_iff.2 hne
    have e : stackPop (w i) = some (w i).dropLast := by
      unfold stackPop verase
      rw [if_neg (by omega), if_pos (by omega), List.drop_of_length_le (by omega), List.append_nil,
        List.dropLast_eq_take]
    refine ⟨upd w i (w i).dropLast, by simp [sStep, e], fun k => ?_⟩
    by_cases hk : k = i
    · subst hk; simp only [SOp.apply, upd_self]; rw [← hr k, List.tail_reverse]
    · simp only [SOp.apply, upd_ne _ _ hk]; exact hr k
  | init i s =>
    refine ⟨_, rfl, fun k => ?_⟩
    by_cases hk : k = i
    · subst hk; simp only [SOp.apply, upd_self]
    · simp only [SOp.apply, upd_ne _ _ hk]; exact hr k
  | move i j =>
    refine ⟨_, rfl, fun k => ?_⟩
    by_cases hk : k = j
    · subst hk; simp only [SOp.apply, upd_self]; exact hr i
    · simp only [SOp.apply, upd_ne _ _ hk]
      by_cases hi : k = i
      · subst hi; simp only [upd_self]; rfl
      · simp only [upd_ne _ _ hi]; exact hr k
  | copy i j =>
    refine ⟨_, rfl, fun k => ?_⟩
    by_cases hk : k = j
    · subst hk; simp only [SOp.apply, upd_self]; exact hr i
    · simp only [SOp.apply, upd_ne _ _ hk]; exact hr k

theorem stack_rep {w c : Nat → List α} (h : SHist w c) : ∀ k, (w k).reverse = c k := by
  induction h with
  | nil => exact fun _ => rfl
  | step op _ hp he ih =>
    obtain ⟨w', e, r⟩ := stack_step op ih hp
    rw [he] at e
    cases e
    exact r

/-- **C35** after any history every stack's size is the number of elements pushed and not popped, and `top` is the
newest of them. -/
theorem stack_history {w c : Nat → List α} (h : SHist w c) (k : Nat) :
    (w k).length = (c k).length ∧ (c k ≠ [] → stackTop (w k) = (c k).head?) := by
  have hr := stack_rep h k
  refine ⟨by rw [← hr, List.length_reverse], fun hne => ?_⟩
  have hl : 0 < (w k).length := by
    have := List.length_pos_iff.2 hne
    rw [← hr, List.length_reverse] at this
    exact this
  unfold stackTop rd
  rw [if_neg (by omega), ← List.getLast?_eq_getElem?, ← hr, List.head?_reverse]

/-- **C35** no call within the contract is undefined after any history. -/
theorem stack_progress {w c : Nat → List α} (h : SHist w c) (op : SOp α) (hp : op.Pre c) :
    ∃ w', sStep w op = some w' ∧ SHist w' (op.apply c) := by
  obtain ⟨w', e, _⟩ := stack_step op (stack_rep h) hp
  exact ⟨w', e, h.step op hp e⟩

example : ∃ (w c : Nat → List Nat), SHist w c ∧ c 0 = [3, 1] ∧ c 1 = [2, 1] ∧ stackTop (w 0) = some 3 := by
  refine ⟨_, _, ((((SHist.nil.step (.push 0 1) trivial rfl).step (.push 0 2) trivial rfl).step (.copy 0 1) trivial
    rfl).step (.pop 0) (by simp [SOp.Pre, SOp.apply, upd]) rfl).step (.push 0 3) trivial rfl, ?_, ?_, ?_⟩ <;> rfl

/-! ## list -/

/-- **C36** `push_front`, `pop_front`, `front`. -/
theorem list_front_ops (x : α) (l : List α) : pushFront l x = some (x :: l) ∧ popFront (x :: l) = some l ∧
    front (x :: l) = some x := by
  refine ⟨by simp [pushFront, vinsert], by simp [popFront, verase], by simp [front, rd]⟩

theorem verase_tail (a t : List α) : veraseRange (a ++ t) a.length (a ++ t).length = some a := by
  unfold veraseRange verase
  simp

/-- **C36** `remove_if (p)` leaves exactly the elements for which `p` is false, in order. -/
theorem list_remove_if (p : α → Bool) (l : List α) : removeIf p l = some (l.filter fun x => !p x) := by
  obtain ⟨t, e, _⟩ := Forward.remove_if_spec p [] l []
  simp only [List.nil_append, List.append_nil, List.length_nil, Nat.zero_add] at e
  unfold removeIf
  rw [e]
  exact verase_tail _ _

/-- **C36** `remove (v)` leaves exactly the elements not equal to `v`, in order (`v` outside the list). -/
theorem list_remove_partial (eq : α → α → Bool) (l : List α) (v : α) :
    remove eq l v = some (l.filter fun x => !eq x v) := list_remove_if _ l

/-- **C36** violated when `v` refers to an element of the list: `remove (l[0])` on `1 2 1 2` leaves `2 1`. -/
theorem list_remove_ref_violated : removeRef (fun a b : Nat => a == b) [1, 2, 1, 2] 0 = some [2, 1] ∧
    remove (fun a b : Nat => a == b) [1, 2, 1, 2] 1 = some [2, 2] := by
  refine ⟨?_, list_remove_partial _ _ _⟩
  simp [removeRef, removeRefLoop, rd, wr, veraseRange, verase]

/-- **C36** `unique` keeps the first element of every run. -/
theorem list_unique (eq : α → α → Bool) (l : List α) : unique eq l = some (Ustl.runHeads eq l) := by
  obtain ⟨t, e, _⟩ := Forward.unique_spec eq [] l []
  simp only [List.nil_append, List.append_nil, List.length_nil, Nat.zero_add] at e
  unfold unique
  rw [e]
  exact verase_tail _ _

/-- **C36** `reverse`. -/
theorem list_reverse (l : List α) : reverse l = some l.reverse := by
  have := Permute.reverse_spec [] l []
  simpa [reverse] using this

theorem wr_at (pre : List α) (g : α) (post : List α) (x : α) :
    wr (pre ++ g :: post) pre.length x = some (pre ++ [x] ++ post) := by
  unfold wr
  rw [if_pos (by simp)]
  simp

theorem rd_at (pre : List α) (g : α) (post : List α) : rd (pre ++ g :: post) pre.length = some g := by
  simp [rd]

theorem copyIn_self : ∀ (a pre post : List α) (f : Nat), f = pre.length →
    copyIn (pre ++ a ++ post) f (f + a.length) f = some (pre ++ a ++ post)
  | [], pre, post, f, h => by
    unfold copyIn
    rw [if_neg (by simp), if_pos (by simp)]
  | x :: a, pre, post, f, h => by
    subst h
    unfold copyIn
    rw [if_pos (by simp), List.append_assoc, List.cons_append, rd_at]
    simp only
    rw [wr_at]
    simp only
    have := copyIn_self a (pre ++ [x]) post (pre.length + 1) (by simp)
    rw [List.append_assoc (pre ++ [x])] at this
    rw [show pre.length + (x :: a).length = pre.length + 1 + a.length by simp; omega, this]
    simp

theorem copyOut_gap : ∀ (b g pre post : List α), g.length = b.length →
    copyOut (pre ++ g ++ post) b pre.length = some (pre ++ b ++ post)
  | [], g, pre, post, h => by
    have : g = [] := List.length_eq_zero_iff.1 h
    subst this
    rfl
  | y :: b, [], pre, post, h => by simp at h
  | y :: b, z :: g, pre, post, h => by
    unfold copyOut
    rw [List.append_assoc, List.cons_append, wr_at]
    simp only
    have := copyOut_gap b g (pre ++ [y]) post (by simpa using h)
    rw [List.length_append, List.append_assoc (pre ++ [y])] at this
    rw [show pre.length + 1 = pre.length + [y].length from rfl, this]
    simp

theorem mergeIn_at (lt : α → α → Bool) : ∀ (n : Nat) (a b g pre post : List α), a.length + b.length = n →
    g.length = b.length →
    mergeIn lt (pre ++ g ++ a ++ post) (pre.length + g.length) (pre.length + g.length + a.length) b pre.length =
      some (pre ++ Permute.merge lt a b ++ post)
  | n, [], b, g, pre, post, hn, hg => by
    unfold mergeIn
    rw [if_neg (by simp), if_pos (by simp), List.append_nil]
    rw [copyOut_gap b g pre post hg]
    cases b <;> simp [Permute.merge]
  | n, x :: a, [], g, pre, post, hn, hg => by
    have : g = [] := List.length_eq_zero_iff.1 hg
    subst this
    unfold mergeIn
    rw [if_pos (by simp)]
    simp only [List.append_nil, List.length_nil, Nat.add_zero]
    rw [copyIn_self (x :: a) pre post _ rfl]
    simp [Permute.merge]
  | n, x :: a, y :: b, [], pre, post, hn, hg => by simp at hg
  | n, x :: a, y :: b, z :: g, pre, post, hn, hg => by
    have hg' : g.length = b.length := by simpa using hg
    unfold mergeIn
    rw [if_pos (by simp)]
    simp only
    have hrd : rd (pre ++ z :: g ++ x :: a ++ post) (pre.length + (z :: g).length) = some x := by
      rw [← List.length_append, List.append_assoc (pre ++ z :: g), List.cons_append, rd_at]
    rw [hrd]
    simp only
    have hw : ∀ v, wr (pre ++ z :: g ++ x :: a ++ post) pre.length v = some (pre ++ [v] ++ g ++ x :: a ++ post) := by
      intro v
      rw [List.append_assoc pre, List.append_assoc pre, List.cons_append, List.cons_append, wr_at]
      simp
    rw [hw, hw]
    simp only
    by_cases hlt : lt x y = true
    · rw [if_pos hlt]
      have := mergeIn_at lt (n - 1) a (y :: b) (g ++ [x]) (pre ++ [x]) post (by simp at hn ⊢; omega) (by simp [hg'])
      rw [show pre ++ [x] ++ g ++ x :: a ++ post = pre ++ [x] ++ (g ++ [x]) ++ a ++ post by simp,
        show pre.length + (z :: g).length + 1 = (pre ++ [x]).length + (g ++ [x]).length by simp; omega,
        show pre.length + (z :: g).length + (x :: a).length = (pre ++ [x]).length + (g ++ [x]).length + a.length by
          simp; omega,
        show pre.length + 1 = (pre ++ [x]).length by simp, this]
      rw [Permute.merge, if_pos hlt]
      simp
    · rw [if_neg hlt]
      have := mergeIn_at lt (n - 1) (x :: a) b g (pre ++ [y]) post (by simp at hn ⊢; omega) hg'
      rw [show pre.length + (z :: g).length = (pre ++ [y]).length + g.length by simp; omega,
        show pre.length + 1 = (pre ++ [y]).length by simp, this]
      rw [Permute.merge, if_neg hlt]
      simp
  termination_by n => n
  decreasing_by all_goals (simp at hn; omega)

/-- **C36** `merge`: the overlapping in-place merge gives what merging the two original sequences gives. -/
theorem list_merge_eq (lt : α → α → Bool) (dflt : α) (a b : List α) :
    merge lt dflt a b = some (Permute.merge lt a b) := by
  unfold merge vinsertAll
  rw [if_pos (Nat.zero_le _)]
  simp only [List.take_zero, List.nil_append, List.drop_zero]
  have := mergeIn_at lt _ a b (List.replicate b.length dflt) [] [] rfl (by simp)
  simpa using this

/-- **C36** merging two sorted lists gives a sorted list of all their elements. -/
theorem list_merge {lt : α → α → Bool} (hlt : StrictWeak lt) (dflt : α) (a b : List α) (ha : Sorted lt a)
    (hb : Sorted lt b) : ∃ r, merge lt dflt a b = some r ∧ Sorted lt r ∧ r.Perm (a ++ b) := by
  obtain ⟨h1, h2, _⟩ := Permute.merge_spec_partial hlt a b ha hb
  exact ⟨_, list_merge_eq lt dflt a b, h1, h2⟩

example : Sorted natLt [1, 4, 4] ∧ Sorted natLt [0, 4, 9, 9] ∧
    merge natLt 7 [1, 4, 4] [0, 4, 9, 9] = some [0, 1, 4, 4, 4, 9, 9] := by
  refine ⟨by decide, by decide, ?_⟩
  rw [list_merge_eq]
  simp [Permute.merge, natLt]

/-- **C36** `splice` moves the range `mid` of the other list to position `ip`, for every split of both lists; null
iterators mean the ends. -/
theorem list_splice (a1 a2 b1 mid b2 : List α) :
    splice (a1 ++ a2) a1.length (b1 ++ mid ++ b2) (some b1.length) (some (b1.length + mid.length)) =
      some (a1 ++ mid ++ a2, b1 ++ b2) ∧
    splice (a1 ++ a2) a1.length (b1 ++ mid) (some b1.length) none = some (a1 ++ mid ++ a2, b1) ∧
    splice (a1 ++ a2) a1.length (mid ++ b2) none (some mid.length) = some (a1 ++ mid ++ a2, b2) ∧
    splice (a1 ++ a2) a1.length mid none none = some (a1 ++ mid ++ a2, []) := by
  have key : ∀ (b1 mid b2 : List α) (t : Nat), t = b1.length + mid.length →
      splice (a1 ++ a2) a1.length (b1 ++ mid ++ b2) (some b1.length) (some t) = some (a1 ++ mid ++ a2, b1 ++ b2) := by
    intro b1 mid b2 t ht
    subst ht
    unfold splice vinsertAll veraseRange verase
    simp only [Option.getD_some]
    have e1 : ((b1 ++ mid ++ b2).take (b1.length + mid.length)).drop b1.length = mid := by
      rw [← List.length_append, List.take_left, List.drop_left]
    have e2 : (b1 ++ mid ++ b2).take b1.length = b1 := by rw [List.append_assoc, List.take_left]
    have e3 : (b1 ++ mid ++ b2).drop (b1.length + mid.length) = b2 := by
      rw [← List.length_append, List.drop_left]
    rw [if_pos ⟨by omega, by simp <;> omega⟩, if_pos (by simp), if_pos (by omega), if_pos (by simp <;> omega), e1, e2,
      show b1.length + (b1.length + mid.length - b1.length) = b1.length + mid.length by omega, e3]
    simp
  refine ⟨key b1 mid b2 _ rfl, ?_, ?_, ?_⟩
  · have := key b1 mid [] _ rfl
    rw [List.append_nil, List.append_nil] at this
    rw [← this]
    unfold splice
    simp
  · exact key [] mid b2 _ (by simp)
  · have := key [] mid [] mid.length (by simp)
    simp only [List.nil_append, List.append_nil] at this
    rw [← this]
    unfold splice
    simp

/-- **C36, C07** the comparison `sort` passes to `qsort` is one `qsort` accepts. -/
theorem qsortAdapter_consistent {lt : α → α → Bool} (h : StrictWeak lt) : Consistent (qsortAdapter lt) := by
  have le : ∀ x y, qsortAdapter lt x y ≤ 0 ↔ lt y x = false := by
    intro x y
    unfold qsortAdapter
    cases hxy : lt x y with
    | true => simp [h.asymm hxy]
    | false => cases hyx : lt y x <;> simp
  refine ⟨fun x => by simp [qsortAdapter, h.irrefl], fun x y => ?_, fun x y z h1 h2 => ?_⟩
  · unfold qsortAdapter
    cases hxy : lt x y with
    | true => simp [h.asymm hxy]
    | false => cases hyx : lt y x <;> simp
  · rw [le] at h1 h2 ⊢
    exact h.le_trans h1 h2

/-- **C36** `sort`, for any `qsort` meeting C's contract: a sorted permutation. -/
theorem list_sort {lt : α → α → Bool} (h : StrictWeak lt) {qs : (α → α → Int) → List α → List α}
    (hq : QsortContract qs) (l : List α) : (qs (qsortAdapter lt) l).Perm l ∧ Sorted lt (qs (qsortAdapter lt) l) := by
  obtain ⟨h1, h2⟩ := hq _ l (qsortAdapter_consistent h)
  refine ⟨h1, h2.imp ?_⟩
  intro a b hab
  unfold qsortAdapter at hab
  cases hba : lt b a with
  | false => rfl
  | true => simp [h.asymm hba, hba] at hab

/-- The contract is met, e.g. by merge sort. -/
example : QsortContract (fun (cmp : Nat → Nat → Int) l => l.mergeSort fun a b => decide (cmp a b ≤ 0)) := by
  intro cmp l hc
  refine ⟨List.mergeSort_perm _ _, ?_⟩
  have := List.pairwise_mergeSort (le := fun a b => decide (cmp a b ≤ 0)) (fun a b c => by
    simpa using hc.trans a b c) (fun a b => by
      rcases Int.lt_or_le 0 (cmp a b) with h | h
      · have := (hc.anti a b).1 h
        simp; omega
      · simp [h]) l
  simpa using this

end Ustl.Seq
