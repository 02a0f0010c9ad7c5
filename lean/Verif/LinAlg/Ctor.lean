import Verif.LinAlg.Props
/-! # Tuples and arrays from values and lists (C51) -/
namespace Ustl.LinAlg
variable {α : Type _}

theorem fillN_spec (v : α) (i n : Nat) (t : List α) (h : i + n ≤ t.length) :
    fillN v i n t = some (t.take i ++ List.replicate n v ++ t.drop (i + n)) := by
  obtain ⟨r, e, hl, hk⟩ := loopFrom_set (f := fun i l => wr l i v) (fun _ => v) t i n h (by
    intro j r hj hj' hr _
    exact wr_lt (by omega) v)
  rw [fillN, e]
  congr 1
  apply List.ext_getElem?
  intro k
  rw [hk k]
  by_cases h1 : k < i
  · rw [if_neg (by omega), List.append_assoc, List.getElem?_append_left (by rw [List.length_take]; omega), List.getElem?_take, if_pos h1]
  · by_cases h2 : k < i + n
    · rw [if_pos (by omega), List.append_assoc, List.getElem?_append_right (by rw [List.length_take]; omega),
        List.getElem?_append_left (by rw [List.length_take, List.length_replicate]; omega), List.getElem?_replicate, if_pos (by rw [List.length_take]; omega)]
    · rw [if_neg (by omega), List.getElem?_append_right (by rw [List.length_append, List.length_take, List.length_replicate]; omega), List.getElem?_drop]
      congr 1
      rw [List.length_append, List.length_take, List.length_replicate]
      omega

theorem sub_mod {n k : Nat} (h : k ≤ n) (hn : n < 2 ^ 64) : (n + 2 ^ 64 - k) % 2 ^ 64 = n - k := by
  rw [show n + 2 ^ 64 - k = (n - k) + 2 ^ 64 by omega, Nat.add_mod_right, Nat.mod_eq_of_lt (by omega)]

/-- **C51** (partial): a tuple made of one to four values has these values first, and the last of them in the rest; what does not fit is
left out. There must be room for all values but the last. What is missing: shorter tuples, see `tupleOf_violated`. -/
theorem tupleOf_partial (mem vs : List α) (v : α) (hv : vs.length ≤ 3) (h : vs.length ≤ mem.length) (hm : mem.length < 2 ^ 64) :
    tupleOf mem (vs ++ [v]) = some (vs ++ List.replicate (mem.length - vs.length) v) := by
  match vs, hv, h with
  | [], _, _ => exact fillN_all v mem
  | [a], _, h =>
    simp at h
    obtain ⟨m0, mem, rfl⟩ : ∃ x l, mem = x :: l := by cases mem with | nil => simp at h | cons x l => exact ⟨x, l, rfl⟩
    simp only [List.cons_append, List.nil_append, tupleOf]
    rw [wr_lt (by simp), sub_mod (by simp) hm]
    simp only [List.set_cons_zero, Option.bind_eq_bind, Option.bind_some]
    rw [fillN_spec _ _ _ _ (by simp; omega)]
    simp [Nat.add_comm 1]
  | [a, b], _, h =>
    simp at h
    obtain ⟨m0, m1, mem, rfl⟩ : ∃ x y l, mem = x :: y :: l := by
      match mem, h with
      | x :: y :: l, _ => exact ⟨x, y, l, rfl⟩
    simp only [List.cons_append, List.nil_append, tupleOf]
    rw [wr_lt (by simp), sub_mod (by simp) hm]
    simp only [List.set_cons_zero, Option.bind_eq_bind, Option.bind_some]
    rw [wr_lt (by simp)]
    simp only [List.set_cons_succ, List.set_cons_zero, Option.bind_some]
    rw [fillN_spec _ _ _ _ (by simp; omega)]
    simp [Nat.add_comm 2]
  | [a, b, c], _, h =>
    simp at h
    obtain ⟨m0, m1, m2, mem, rfl⟩ : ∃ x y z l, mem = x :: y :: z :: l := by
      match mem, h with
      | x :: y :: z :: l, _ => exact ⟨x, y, z, l, rfl⟩
    simp only [List.cons_append, List.nil_append, tupleOf]
    rw [wr_lt (by simp), sub_mod (by simp) hm]
    simp only [List.set_cons_zero, Option.bind_eq_bind, Option.bind_some]
    rw [wr_lt (by simp)]
    simp only [List.set_cons_succ, List.set_cons_zero, Option.bind_some]
    rw [wr_lt (by simp)]
    simp only [List.set_cons_succ, List.set_cons_zero, Option.bind_some]
    rw [fillN_spec _ _ _ _ (by simp; omega)]
    simp [Nat.add_comm 3]

example : tupleOf [(0 : Int), 0, 0, 0] [1, 2] = some [1, 2, 2, 2] := tupleOf_partial _ [1] 2 (by decide) (by decide) (by decide)

/-- **C51** is false for a tuple of one element made of three values, for all values: the second is stored behind the tuple. -/
theorem tupleOf_violated (m a b c : α) : tupleOf [m] [a, b, c] = none := rfl

/-- **C51**: `assign` and `=` of a list: its elements, cut at the size of the tuple; the rest is zero. -/
theorem tupleAssign_spec [Zero α] (mem v : List α) : tupleAssign mem v = some ((v ++ List.replicate mem.length 0).take mem.length) := by
  rw [tupleAssign]
  by_cases hv : v = []
  · subst hv
    simp only [List.length_nil, Nat.zero_min, loop, loopFrom, Option.bind_eq_bind, Option.bind_some, Nat.sub_zero]
    rw [fillN_all]
    simp
  · obtain ⟨a, ha⟩ : ∃ a, a ∈ v := List.exists_mem_of_ne_nil _ hv
    obtain ⟨r, e, hl, hk⟩ := loopFrom_set (f := fun i m => (rd v i).bind (fun a => wr m i a)) (fun k => v.getD k a) mem 0 (min v.length mem.length) (by omega) (by
      intro j r _ hj hr _
      rw [rd_lt (show j < v.length by omega), Option.bind_some, wr_lt (by omega)]
      simp [List.getD_eq_getElem?_getD, show j < v.length by omega])
    simp only [Option.bind_eq_bind, loop]
    rw [e, Option.bind_some, fillN_spec _ _ _ _ (by omega)]
    congr 1
    apply List.ext_getElem?
    intro k
    rw [List.getElem?_take]
    by_cases h1 : k < min v.length mem.length
    · rw [List.append_assoc, List.getElem?_append_left (by rw [List.length_take]; omega), List.getElem?_take, if_pos h1, hk k, if_pos (by omega), if_pos (by omega),
        List.getElem?_append_left (by omega)]
      simp [List.getD_eq_getElem?_getD, show k < v.length by omega]
    · by_cases h2 : k < mem.length
      · rw [if_pos h2, List.append_assoc, List.getElem?_append_right (by rw [List.length_take]; omega), List.getElem?_append_left (by
            rw [List.length_take, List.length_replicate]; omega), List.getElem?_replicate, if_pos (by rw [List.length_take]; omega),
          List.getElem?_append_right (by omega), List.getElem?_replicate, if_pos (by omega)]
      · rw [if_neg h2, List.getElem?_eq_none]
        rw [List.length_append, List.length_append, List.length_take, List.length_replicate, List.length_drop]
        omega

example : tupleAssign [(9 : Int), 9, 9] [1] = some [1, 0, 0] ∧ tupleAssign [(9 : Int), 9] [1, 2, 3] = some [1, 2] := ⟨tupleAssign_spec _ _, tupleAssign_spec _ _⟩

theorem opList_is (op : α → α → α) (t v : List α) (n : Nat) (hn : n ≤ t.length) (hv : n ≤ v.length) :
    loop n (fun i t => do let a ← rd t i; let b ← rd v i; wr t i (op a b)) t = some (List.zipWith op (t.take n) (v.take n) ++ t.drop n) := by
  obtain ⟨s, e, hs⟩ := loop_rule (f := fun i t => do let a ← rd t i; let b ← rd v i; wr t i (op a b))
    (fun k s => s = List.zipWith op (t.take k) (v.take k) ++ t.drop k) n t (by simp) (by
      rintro k s hk rfl
      have hl : (List.zipWith op (t.take k) (v.take k)).length = k := by rw [List.length_zipWith, List.length_take, List.length_take]; omega
      have e1 : (List.zipWith op (t.take k) (v.take k) ++ t.drop k)[k]? = some t[k] := by
        rw [List.getElem?_append_right (by omega), hl, List.getElem?_drop, Nat.sub_self, Nat.add_zero, List.getElem?_eq_getElem]
      refine ⟨_, ?_, rfl⟩
      simp only [rd, e1, List.getElem?_eq_getElem (show k < v.length by omega), Option.bind_eq_bind, Option.bind_some]
      rw [wr_lt (by rw [List.length_append, hl, List.length_drop]; omega), List.set_append_right _ _ (by omega), hl, Nat.sub_self,
        List.drop_eq_getElem_cons (show k < t.length by omega), List.set_cons_zero]
      congr 1
      rw [← List.take_append_getElem (show k < t.length by omega), ← List.take_append_getElem (show k < v.length by omega),
        List.zipWith_append (by rw [List.length_take, List.length_take]; omega), List.append_assoc]
      rfl)
  exact hs ▸ e

/-- **C51**: `tuple op= { ... }` does the operation with as many elements as there are on both sides, and leaves the others. -/
theorem tupleOpList_spec (op : α → α → α) (t v : List α) : tupleOpList op t v = some (List.zipWith op t v ++ t.drop v.length) := by
  rw [tupleOpList, opList_is op t v _ (Nat.min_le_left _ _) (Nat.min_le_right _ _)]
  congr 2
  · rcases Nat.le_total t.length v.length with h | h
    · rw [Nat.min_eq_left h, List.take_length]
      apply List.ext_getElem?
      intro k
      simp only [List.getElem?_zipWith, List.getElem?_take]
      by_cases hk : k < t.length
      · rw [if_pos hk]
      · rw [if_neg hk, List.getElem?_eq_none (l := t) (by omega)]
    · rw [Nat.min_eq_right h, List.take_length]
      apply List.ext_getElem?
      intro k
      simp only [List.getElem?_zipWith, List.getElem?_take]
      by_cases hk : k < v.length
      · rw [if_pos hk]
      · rw [if_neg hk, List.getElem?_eq_none (l := v) (by omega)]
        cases t[k]? <;> rfl
  · rcases Nat.le_total t.length v.length with h | h
    · rw [Nat.min_eq_left h, List.drop_length, List.drop_eq_nil_of_le h]
    · rw [Nat.min_eq_right h]

example : tupleOpList (· + ·) [(1 : Int), 2, 3] [10, 20] = some [11, 22, 3] ∧ tupleOpList (· + ·) [(1 : Int)] [10, 20] = some [11] :=
  ⟨tupleOpList_spec _ _ _, tupleOpList_spec _ _ _⟩

/-- **C51** (partial): `array op= { ... }` with a list that is long enough. What is missing: shorter lists, see
`arrayOpList_violated`. -/
theorem arrayOpList_partial (op : α → α → α) (t v : List α) (h : t.length ≤ v.length) : arrayOpList op t v = some (List.zipWith op t v) := by
  have := tupleOpList_spec op t v
  rw [tupleOpList, Nat.min_eq_left h, List.drop_eq_nil_of_le h, List.append_nil] at this
  exact this

example : arrayOpList (· * ·) [(2 : Int), 3] [4, 5] = some [8, 15] := arrayOpList_partial _ _ _ (by decide)

/-- **C51** is false for every list that is shorter than the array: the operator reads behind the list. -/
theorem arrayOpList_violated (op : α → α → α) (t v : List α) (h : v.length < t.length) : arrayOpList op t v = none := by
  have split : ∀ (f : Nat → List α → Option (List α)) (n m i : Nat) (s : List α), loopFrom f i (n + m) s = (loopFrom f i n s).bind (loopFrom f (i + n) m) := by
    intro f n
    induction n with
    | zero => intro m i s; simp [loopFrom]
    | succ n ih =>
      intro m i s
      rw [show n + 1 + m = (n + m) + 1 by omega, loopFrom, loopFrom]
      cases f i s with
      | none => rfl
      | some s' =>
        simp only [Option.bind_eq_bind, Option.bind_some]
        rw [ih, show i + 1 + n = i + (n + 1) by omega]
  have hm := opList_is op t v v.length (by omega) (Nat.le_refl _)
  rw [loop] at hm
  rw [arrayOpList, loop, show t.length = v.length + ((t.length - v.length - 1) + 1) by omega, split, hm, Option.bind_some, loopFrom]
  rw [rd, rd, List.getElem?_eq_none (l := v) (by omega)]
  generalize (List.zipWith op (t.take v.length) (v.take v.length) ++ t.drop v.length)[0 + v.length]? = o
  cases o <;> rfl

end Ustl.LinAlg
