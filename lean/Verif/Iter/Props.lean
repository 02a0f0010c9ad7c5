import Verif.Iter.Model
/-! # Iterator adaptors: theorems for C52 and C56 -/
namespace Ustl.Iter

/-- `f` applied `n` times. -/
def times {σ : Type} (f : σ → σ) : Nat → σ → σ
  | 0, s => s
  | n + 1, s => times f n (f s)

theorem times_rev (n : Nat) : ∀ a : Rev, times Rev.inc n a = ⟨a.i - n⟩ := by
  induction n with
  | zero => intro a; cases a; simp [times]
  | succ n ih => intro a; simp only [times, ih, Rev.inc]; congr 1; omega

theorem times_mov (n : Nat) : ∀ a : Mov, times Mov.inc n a = ⟨a.i + n⟩ := by
  induction n with
  | zero => intro a; cases a; simp [times]
  | succ n ih => intro a; simp only [times, ih, Mov.inc]; congr 1; omega

theorem times_idx (n : Nat) : ∀ a : Idx, times Idx.inc n a = ⟨a.base, a.i + n⟩ := by
  induction n with
  | zero => intro a; cases a; simp [times]
  | succ n ih => intro a; simp only [times, ih, Idx.inc]; congr 1; omega

theorem deref_nat {α : Type} (l : List α) (n : Nat) : deref l (n : Int) = l[n]? := by
  unfold deref
  rw [if_pos (by omega), Int.toNat_natCast]

/-! ## reverse_iterator -/

/-- **C52** from `rbegin` (the end of the array), `n` increments reach the `n`th element from the back, and as many as
there are elements reach `rend`. -/
theorem rev_traverse {α : Type} (l : List α) :
    (∀ n, n < l.length → (times Rev.inc n ⟨l.length⟩).get l = l.reverse[n]?) ∧
    Rev.eq (times Rev.inc l.length ⟨l.length⟩) ⟨0⟩ = true := by
  constructor
  · intro n hn
    rw [times_rev, List.getElem?_reverse hn]
    unfold Rev.get
    have : ((l.length : Int) - n - 1) = ((l.length - 1 - n : Nat) : Int) := by omega
    simp only [this]
    exact deref_nat _ _
  · rw [times_rev]; simp [Rev.eq]

/-- **C52** iterator algebra of `reverse_iterator`: `+ n`, `+= n` and `n` increments agree, `- n`, `-= n` and `--` undo
them, `i[n]` is `*(i + n)`, and `i < j` exactly if `j` comes after `i`. -/
theorem rev_algebra {α : Type} (l : List α) (a b : Rev) (n : Nat) :
    a.add n = times Rev.inc n a ∧ a.addAssign n = times Rev.inc n a ∧ (a.add n).sub n = a ∧ (a.addAssign n).subAssign n = a ∧
    a.inc.dec = a ∧ a.dec.inc = a ∧ a.at' l n = (a.add n).get l ∧
    (a.eq b = true ↔ a = b) ∧ (a.lt b = true ↔ ∃ m : Nat, 0 < m ∧ b = times Rev.inc m a) := by
  cases a with | mk i => cases b with | mk j =>
  refine ⟨?_, ?_, ?_, ?_, ?_, ?_, rfl, ?_, ?_⟩
  · rw [times_rev]; rfl
  · rw [times_rev]; rfl
  · simp [Rev.add, Rev.sub]
  · simp [Rev.addAssign, Rev.subAssign]
  · simp [Rev.inc, Rev.dec]
  · simp [Rev.inc, Rev.dec]
  · simp [Rev.eq]
  · simp only [Rev.lt, decide_eq_true_eq]
    constructor
    · intro h
      refine ⟨(i - j).toNat, by omega, ?_⟩
      rw [times_rev]; congr 1; simp only; omega
    · rintro ⟨m, hm, h⟩
      rw [times_rev] at h
      have := congrArg Rev.i h
      simp only at this
      omega

example : (times Rev.inc 1 ⟨3⟩).get [10, 20, 30] = some 20 ∧ Rev.at' [10, 20, 30] ⟨3⟩ 2 = some 10 := by decide

/-- **C52 fails** for the difference: `(i + n) - i` is `-n`. -/
theorem rev_diff_violated (a : Rev) (n : Nat) : (a.add n).diff a = -n ∧ (0 < n → (a.add n).diff a ≠ n) := by
  simp only [Rev.add, Rev.diff, distance]; omega

/-! ## move_iterator -/

/-- **C52** `move_iterator` traverses the array forwards by `++` or `+=`, and `--`, `-=` undo them. -/
theorem mov_traverse_partial {α : Type} (l : List α) (a b : Mov) (n : Nat) :
    (times Mov.inc n ⟨0⟩).get l = l[n]? ∧ a.addAssign n = times Mov.inc n a ∧ (a.addAssign n).subAssign n = a ∧
    a.inc.dec = a ∧ a.dec.inc = a ∧ (a.add n).sub n = a ∧ (a.eq b = true ↔ a = b) ∧
    (a.lt b = true ↔ ∃ m : Nat, 0 < m ∧ b = times Mov.inc m a) := by
  cases a with | mk i => cases b with | mk j =>
  refine ⟨?_, ?_, ?_, ?_, ?_, ?_, ?_, ?_⟩
  · rw [times_mov]; simp only [Mov.get, Int.zero_add]; exact deref_nat _ _
  · rw [times_mov]; rfl
  · simp only [Mov.addAssign, Mov.subAssign]; congr 1; omega
  · simp only [Mov.inc, Mov.dec]; congr 1; omega
  · simp only [Mov.inc, Mov.dec]; congr 1; omega
  · simp only [Mov.add, Mov.sub]; congr 1; omega
  · simp [Mov.eq]
  · simp only [Mov.lt, decide_eq_true_eq]
    constructor
    · intro h
      refine ⟨(j - i).toNat, by omega, ?_⟩
      rw [times_mov]; congr 1; simp only; omega
    · rintro ⟨m, hm, h⟩
      rw [times_mov] at h
      have := congrArg Mov.i h
      simp only at this
      omega

example : (times Mov.inc 2 ⟨0⟩).get [10, 20, 30] = some 30 := by decide

/-- **C52 fails** for `move_iterator + n`: it goes back by `n`, so `i + n` is not `n` increments, `i[n]` is the element
`n` before, and at the beginning of an array `i[1]` reads before the array; and the difference of `n` increments is
`-n`. -/
theorem mov_add_violated {α : Type} (l : List α) (a : Mov) (n : Nat) (hn : 0 < n) :
    a.add n ≠ times Mov.inc n a ∧ a.add n = a.subAssign n ∧ a.at' l n = deref l (a.i - n) ∧
    Mov.at' l ⟨0⟩ n = none ∧ (times Mov.inc n a).diff a = -n := by
  refine ⟨?_, rfl, rfl, ?_, ?_⟩
  · intro h
    rw [times_mov] at h
    have := congrArg Mov.i h
    simp only [Mov.add] at this
    omega
  · show (if 0 ≤ (0 - n : Int) then l[(0 - n : Int).toNat]? else none) = none
    rw [if_neg (by omega)]
  · rw [times_mov]; simp only [Mov.diff, distance]; omega

/-! ## index_iterate -/

/-- **C52** `index_iterate` visits the positions `base + x` for the indexes `x` in order; `+`, `+=` and increments agree,
`-`, `-=`, `--` undo them, and `i[n]` is `*(i + n)`. -/
theorem idx_traverse_partial (xs : List Nat) (p : Int) (a b : Idx) (n : Nat) :
    (times Idx.inc n ⟨p, 0⟩).get xs = (xs[n]?).map (fun x => p + (x : Int)) ∧
    a.add n = times Idx.inc n a ∧ a.addAssign n = times Idx.inc n a ∧ (a.add n).sub n = a ∧ (a.addAssign n).subAssign n = a ∧
    a.inc.dec = a ∧ a.dec.inc = a ∧ a.at' xs n = (a.add n).get xs ∧
    (a.base = b.base → (a.eq b = true ↔ a = b)) ∧
    (a.base = b.base → (a.lt b = true ↔ ∃ m : Nat, 0 < m ∧ b = times Idx.inc m a)) := by
  cases a with | mk c i => cases b with | mk d j =>
  refine ⟨?_, ?_, ?_, ?_, ?_, ?_, ?_, rfl, ?_, ?_⟩
  · rw [times_idx]; simp only [Idx.get, Int.zero_add, deref_nat]
  · rw [times_idx]; rfl
  · rw [times_idx]; rfl
  · simp only [Idx.add, Idx.sub]; congr 1; omega
  · simp only [Idx.addAssign, Idx.subAssign]; congr 1; omega
  · simp only [Idx.inc, Idx.dec]; congr 1; omega
  · simp only [Idx.inc, Idx.dec]; congr 1; omega
  · intro h; simp only at h; subst h; simp [Idx.eq]
  · intro h
    simp only at h
    subst h
    simp only [Idx.lt, decide_eq_true_eq]
    constructor
    · intro h
      refine ⟨(j - i).toNat, by omega, ?_⟩
      rw [times_idx]; congr 1; simp only; omega
    · rintro ⟨m, hm, h⟩
      rw [times_idx] at h
      have := congrArg Idx.i h
      simp only at this
      omega

example : (times Idx.inc 1 ⟨100, 0⟩).get [7, 3, 5] = some 103 := by decide

/-- **C52 fails** for the difference: `(i + n) - i` is `-n`. -/
theorem idx_diff_violated (a : Idx) (n : Nat) : (a.add n).diff a = -n ∧ (0 < n → (a.add n).diff a ≠ n) := by
  simp only [Idx.add, Idx.diff, distance]; omega

/-! ## Insert iterators -/

theorem copy_ins {α : Type} : ∀ (vs pre post : List α), copyTo Ins.assign Ins.inc vs ⟨pre ++ post, pre.length⟩ =
    some ⟨pre ++ vs ++ post, pre.length + vs.length⟩
  | [], pre, post => by simp [copyTo]
  | v :: vs, pre, post => by
    unfold copyTo
    have e : Ins.assign ⟨pre ++ post, pre.length⟩ v = some (⟨(pre ++ [v]) ++ post, pre.length⟩ : Ins α) := by
      unfold Ins.assign
      rw [if_pos (by simp)]
      simp
    rw [e]
    show copyTo Ins.assign Ins.inc vs ⟨(pre ++ [v]) ++ post, pre.length + 1⟩ = _
    have := copy_ins vs (pre ++ [v]) post
    simp only [List.length_append, List.length_cons, List.length_nil, Nat.zero_add] at this
    rw [this]
    simp
    omega

/-- **C56** copying a sequence through `inserter (c, c.begin() + p)` inserts it, in order, at `p`, and leaves the iterator
after it. -/
theorem copy_inserter {α : Type} (vs l : List α) (p : Nat) (hp : p ≤ l.length) :
    copyTo Ins.assign Ins.inc vs ⟨l, p⟩ = some ⟨l.take p ++ vs ++ l.drop p, p + vs.length⟩ := by
  have h := copy_ins vs (l.take p) (l.drop p)
  rw [List.take_append_drop, List.length_take, Nat.min_eq_left hp] at h
  exact h

/-- **C56** copying a sequence through `back_inserter` appends it in order; through `front_inserter` it puts it before,
in the opposite order. -/
theorem copy_back_front {α : Type} (vs : List α) : ∀ l : List α,
    copyTo backAssign id vs l = some (l ++ vs) ∧ copyTo frontAssign id vs l = some (vs.reverse ++ l) := by
  induction vs with
  | nil => intro l; simp [copyTo]
  | cons v vs ih =>
    intro l
    constructor
    · show copyTo backAssign id vs (l ++ [v]) = _
      rw [(ih _).1]; simp
    · show copyTo frontAssign id vs (v :: l) = _
      rw [(ih _).2]; simp

example : copyTo Ins.assign Ins.inc [7, 8] ⟨[1, 2, 3], 1⟩ = some ⟨[1, 7, 8, 2, 3], 3⟩ := rfl

end Ustl.Iter
