import Verif.Memblock.Lemmas
/-!
# Reading and writing parts of a block
-/
namespace Ustl.Memblock
variable {α : Type _}

theorem setBlk_self {h : Heap α} {id : Nat} {b : Option (Blk α)} (hb : h.blk id = b) : h.setBlk id b = h := by
  unfold Heap.setBlk
  cases h
  congr 1
  funext k
  by_cases hk : k = id <;> simp_all

theorem setBlk_get {h : Heap α} {id : Nat} (b : Option (Blk α)) : (h.setBlk id b).blk id = b := by
  simp [Heap.setBlk]

theorem setBlk_setBlk {h : Heap α} {id : Nat} (b b' : Option (Blk α)) :
    (h.setBlk id b).setBlk id b' = h.setBlk id b' := by
  unfold Heap.setBlk; congr 1; funext k; by_cases hk : k = id <;> simp [hk]

theorem ld_at {h : Heap α} {id : Nat} {A B C : List α} {k n : Nat} {t : Bool}
    (hb : h.blk id = some ⟨t, A ++ B ++ C⟩) (hk : k = A.length) (hn : n = B.length) :
    ld h (some (id, k)) n = some B := by
  subst hk hn
  unfold ld
  split
  · rename_i h0; rw [List.length_eq_zero_iff.1 h0]
  · simp only [hb]
    rw [if_pos (by simp only [List.length_append]; omega), List.append_assoc, List.drop_left, List.take_left]

theorem st_at {h : Heap α} {id : Nat} {A B C xs : List α} {k : Nat}
    (hb : h.blk id = some ⟨true, A ++ B ++ C⟩) (hk : k = A.length) (hn : xs.length = B.length) :
    st h (some (id, k)) xs = some (h.setBlk id (some ⟨true, A ++ xs ++ C⟩)) := by
  subst hk
  unfold st
  split
  · rename_i h0
    subst h0
    have : B = [] := List.length_eq_zero_iff.1 hn.symm
    subst this
    rw [setBlk_self hb]
  · simp only [hb]
    rw [if_pos (by simp only [List.length_append]; omega), hn, List.append_assoc A B C, List.take_left,
      ← List.append_assoc, ← List.length_append, List.drop_left]

/-- `insert` leaves room for the free capacity. -/
theorem insert_cap (mf : Nat) {rot : List α → Nat → Nat → Nat → Option (List α)} {h h' : Heap α} {o o' : Obj}
    (ip n : Nat) (a : Option (Nat → α)) (hh : HOK h) (ho : OOK h o) (hlim : o.size + n + mf ≤ 2 ^ 31)
    (hi : insert mf rot h o ip n a = some (true, h', o')) : o'.size = o.size + n ∧ o.size + n + mf ≤ o'.cap := by
  obtain ⟨ok, h1, o1, e1, e2, e3, e4⟩ := resize_spec mf (h := h) (o := o) (o.size + n) false a hh ho (fun _ => hlim)
  unfold insert at hi
  split at hi
  · rw [e1] at hi
    cases ok with
    | false => simp at hi
    | true =>
      simp only at hi
      split at hi
      · cases hi
      · cases hi; exact ⟨(e4 rfl).2.1, (e4 rfl).2.2.1⟩
  · cases hi

/-- `erase` leaves room for the free capacity. -/
theorem erase_cap (mf : Nat) {rot : List α → Nat → Nat → Nat → Option (List α)} {h h' : Heap α} {o o' : Obj}
    (ep n : Nat) (a : Option (Nat → α)) (hh : HOK h) (ho : OOK h o) (hlim : o.size + mf ≤ 2 ^ 31)
    (hi : erase mf rot h o ep n a = some (true, h', o')) : o'.size = o.size - n ∧ o.size + mf ≤ o'.cap := by
  obtain ⟨ok, h1, o1, e1, e2, e3, e4, e5, e6⟩ := reserve_spec mf (h := h) (o := o) o.size false a hh ho (fun _ => hlim) (by simp)
  unfold erase at hi
  split at hi
  · rw [e1] at hi
    cases ok with
    | false => simp at hi
    | true =>
      simp only at hi
      split at hi
      · cases hi
      · cases hi; exact ⟨by simp only; omega, e6 rfl⟩
  · cases hi

end Ustl.Memblock
