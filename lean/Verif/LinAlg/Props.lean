import Verif.LinAlg.Model
import Mathlib.Order.Defs.LinearOrder
import Mathlib.Algebra.Order.Ring.Int
import Mathlib.Algebra.Notation.Defs
/-! # Tuples and arrays: element by element (C51) -/
namespace Ustl.LinAlg
variable {α : Type _} {σ : Type _}

/-- The rule of loops. -/
theorem loopFrom_rule {f : Nat → σ → Option σ} (P : Nat → σ → Prop) : ∀ (n i : Nat) (s : σ), P i s →
    (∀ j s, i ≤ j → j < i + n → P j s → ∃ s', f j s = some s' ∧ P (j + 1) s') → ∃ s', loopFrom f i n s = some s' ∧ P (i + n) s' := by
  intro n
  induction n with
  | zero => intro i s h _; exact ⟨s, rfl, h⟩
  | succ n ih =>
    intro i s h hf
    obtain ⟨s1, e1, h1⟩ := hf i s (Nat.le_refl _) (by omega) h
    obtain ⟨s2, e2, h2⟩ := ih (i + 1) s1 h1 (fun j s hj hj' hp => hf j s (by omega) (by omega) hp)
    refine ⟨s2, ?_, ?_⟩
    · rw [loopFrom, e1]; exact e2
    · have e : i + (n + 1) = i + 1 + n := by omega
      rw [e]
      exact h2

theorem loop_rule {f : Nat → σ → Option σ} (P : Nat → σ → Prop) (n : Nat) (s : σ) (h : P 0 s)
    (hf : ∀ j s, j < n → P j s → ∃ s', f j s = some s' ∧ P (j + 1) s') : ∃ s', loop n f s = some s' ∧ P n s' := by
  obtain ⟨s', e, h'⟩ := loopFrom_rule P n 0 s h (fun j s _ hj hp => hf j s (by omega) hp)
  exact ⟨s', e, by simpa using h'⟩

theorem rd_lt {l : List α} {i : Nat} (h : i < l.length) : rd l i = some l[i] := List.getElem?_eq_getElem h

theorem wr_lt {l : List α} {i : Nat} (h : i < l.length) (v : α) : wr l i v = some (l.set i v) := by rw [wr, if_pos h]

/-- A loop that stores `v j` in element `j`, from `i` on: the elements before and behind stay. -/
theorem loopFrom_set {f : Nat → List α → Option (List α)} (v : Nat → α) (t : List α) (i n : Nat) (hn : i + n ≤ t.length)
    (hf : ∀ j r, i ≤ j → j < i + n → r.length = t.length → (∀ k, r[k]? = if i ≤ k ∧ k < j then some (v k) else t[k]?) → f j r = some (r.set j (v j))) :
    ∃ r, loopFrom f i n t = some r ∧ r.length = t.length ∧ ∀ k, r[k]? = if i ≤ k ∧ k < i + n then some (v k) else t[k]? := by
  refine loopFrom_rule (fun j r => r.length = t.length ∧ ∀ k, r[k]? = if i ≤ k ∧ k < j then some (v k) else t[k]?) n i t ⟨rfl, ?_⟩ ?_
  · intro k; rw [if_neg (by omega)]
  · intro j r hj hj' ⟨hl, hr⟩
    refine ⟨_, hf j r hj hj' hl hr, by rw [List.length_set, hl], ?_⟩
    intro k
    rw [List.getElem?_set]
    by_cases hk : j = k
    · subst hk
      rw [if_pos rfl, if_pos (by omega), if_pos (by omega)]
    · rw [if_neg hk, hr k]
      by_cases hc : i ≤ k ∧ k < j
      · rw [if_pos hc, if_pos (by omega)]
      · rw [if_neg hc, if_neg (by omega)]

/-- The same for all elements: the result is the list of the values. -/
theorem loop_set {f : Nat → List α → Option (List α)} (w t : List α) (hl : w.length = t.length)
    (hf : ∀ j (hj : j < w.length) r, r.length = t.length → (∀ k, r[k]? = if k < j then w[k]? else t[k]?) → f j r = some (r.set j w[j])) :
    loop t.length f t = some w := by
  cases t with
  | nil =>
    have : w = [] := List.length_eq_zero_iff.mp hl
    rw [this]; rfl
  | cons a t =>
    obtain ⟨r, e, hr, hk⟩ := loopFrom_set (f := f) (fun k => w.getD k a) (a :: t) 0 (a :: t).length (by omega) (by
      intro j r _ hj' hlr hk
      have hjw : j < w.length := by omega
      rw [hf j hjw r hlr (by
        intro k
        rw [hk k]
        by_cases hc : k < j
        · rw [if_pos ⟨Nat.zero_le _, hc⟩, if_pos hc, List.getElem?_eq_getElem (by omega), List.getD_eq_getElem?_getD, List.getElem?_eq_getElem (by omega)]; rfl
        · rw [if_neg (by omega), if_neg hc])]
      simp [List.getD_eq_getElem?_getD, List.getElem?_eq_getElem hjw])
    rw [loop, e]
    congr 1
    apply List.ext_getElem?
    intro k
    rw [hk k]
    by_cases hc : k < (a :: t).length
    · rw [if_pos (by omega), List.getElem?_eq_getElem (by omega), List.getD_eq_getElem?_getD, List.getElem?_eq_getElem (by omega)]; rfl
    · rw [if_neg (by omega), List.getElem?_eq_none (by omega), List.getElem?_eq_none (by omega)]

/-- **C51**: `fill_n` of all elements. -/
theorem fillN_all (v : α) (t : List α) : fillN v 0 t.length t = some (List.replicate t.length v) := by
  refine loop_set _ t (by simp) ?_
  intro j hj r hr _
  rw [wr_lt (by rw [List.length_replicate] at hj; omega)]
  simp

theorem tupleNew_spec [Zero α] (t : List α) : tupleNew t = some (List.replicate t.length (0 : α)) := fillN_all 0 t

/-- **C51**: `t op= v` does the operation on every element, in place, and touches nothing else. -/
theorem opScalar_spec (op : α → α → α) (v : α) (t : List α) : opScalar op v t = some (t.map (op · v)) := by
  refine loop_set _ t (by simp) ?_
  intro j hj r hr hk
  have hj' : j < t.length := by simpa using hj
  have e : r[j]? = some t[j] := by rw [hk j, if_neg (by omega), List.getElem?_eq_getElem hj']
  simp only [rd, e, Option.bind_eq_bind, Option.bind_some]
  rw [wr_lt (by omega)]
  simp

example : opScalar (· * ·) (3 : Int) [1, -2, 4] = some [3, -6, 12] := opScalar_spec _ _ _

/-- **C51** for `t op= t[k]`: the elements up to `k` are right; those behind it get the new value of `t[k]`. -/
theorem opScalarRef_is (op : α → α → α) (k : Nat) (t : List α) (hk : k < t.length) :
    opScalarRef op k t = some (t.mapIdx (fun j a => if j ≤ k then op a t[k] else op a (op t[k] t[k]))) := by
  refine loop_set _ t (by simp) ?_
  intro j hj r hr hrk
  have hj' : j < t.length := by simpa using hj
  have e : r[j]? = some t[j] := by rw [hrk j, if_neg (by omega), List.getElem?_eq_getElem hj']
  have e2 : r[k]? = some (if k < j then op t[k] t[k] else t[k]) := by
    rw [hrk k]
    by_cases hc : k < j
    · rw [if_pos hc, if_pos hc]
      simp [hk]
    · rw [if_neg hc, if_neg hc, List.getElem?_eq_getElem hk]
  simp only [rd, e, e2, Option.bind_eq_bind, Option.bind_some]
  rw [wr_lt (by omega)]
  congr 2
  simp only [List.getElem_mapIdx]
  by_cases hc : k < j
  · rw [if_pos hc, if_neg (by omega)]
  · rw [if_neg hc, if_pos (by omega)]

/-- **C51** is false for `t *= t[0]`: the operator reads its argument again after it has changed it. `{2, 3} *= 2` is `{4, 12}` if
the 2 is element 0. -/
theorem opScalarRef_violated : opScalarRef (· * ·) 0 [(2 : Int), 3] = some [4, 12] ∧ opScalar (· * ·) 2 [(2 : Int), 3] = some [4, 6] := by decide

/-- **C51** (partial): `t op= t[k]` is right if `k` is the last element. What is missing: the other elements, see
`opScalarRef_violated`. -/
theorem opScalarRef_partial (op : α → α → α) (t : List α) (a : α) : opScalarRef op t.length (t ++ [a]) = some ((t ++ [a]).map (op · a)) := by
  rw [opScalarRef_is op _ _ (by simp)]
  congr 1
  apply List.ext_getElem (by simp)
  intro j h1 h2
  simp at h1
  simp only [List.getElem_mapIdx, List.getElem_map]
  rw [if_pos (by omega)]
  simp

example : opScalarRef (· + ·) 2 [(1 : Int), 2, 3] = some [4, 5, 6] := opScalarRef_partial (· + ·) [1, 2] 3

/-- **C51**: `t op v` makes the tuple of the results, whatever is in its memory. -/
theorem opScalarNew_spec (op : α → α → α) (v : α) (t r : List α) (h : r.length = t.length) : opScalarNew op v t r = some (t.map (op · v)) := by
  rw [opScalarNew, ← h]
  refine loop_set _ r (by simp [h]) ?_
  intro j hj s hs _
  have hj' : j < t.length := by simpa using hj
  simp only [rd_lt hj', Option.bind_eq_bind, Option.bind_some]
  rw [wr_lt (by omega)]
  simp

example : opScalarNew (· - ·) (1 : Int) [5, 6] [9, 9] = some [4, 5] := opScalarNew_spec _ _ _ _ rfl

/-- **C51**: `t1 op= t2` does the operation on each pair of elements. -/
theorem opAssign_spec (op : α → α → α) (t1 t2 : List α) (h : t2.length = t1.length) : opAssign op t1 t2 = some (List.zipWith op t1 t2) := by
  refine loop_set _ t1 (by simp [h]) ?_
  intro j hj r hr hk
  have hj' : j < t1.length := by simp [h] at hj; exact hj
  have e : r[j]? = some t1[j] := by rw [hk j, if_neg (by omega), List.getElem?_eq_getElem hj']
  simp only [rd, e, List.getElem?_eq_getElem (h ▸ hj'), Option.bind_eq_bind, Option.bind_some]
  rw [wr_lt (by omega)]
  simp

/-- **C51**: `t1 op t2` makes the tuple of the results. -/
theorem opNew_spec (op : α → α → α) (t1 t2 r : List α) (h : t2.length = t1.length) (hr : r.length = t1.length) :
    opNew op t1 t2 r = some (List.zipWith op t1 t2) := by
  rw [opNew, ← hr]
  refine loop_set _ r (by simp [h, hr]) ?_
  intro j hj s hs _
  have hj' : j < t1.length := by simp [h] at hj; exact hj
  simp only [rd, List.getElem?_eq_getElem hj', List.getElem?_eq_getElem (h ▸ hj'), Option.bind_eq_bind, Option.bind_some]
  rw [wr_lt (by omega)]
  simp

example : opAssign (· - ·) [(10 : Int), 20, 30] [1, 2, 3] = some [9, 18, 27] ∧ opNew (· - ·) [(10 : Int), 20, 30] [1, 2, 3] [0, 0, 0] = some [9, 18, 27] :=
  ⟨opAssign_spec _ _ _ rfl, opNew_spec _ _ _ _ rfl rfl⟩

/-- **C51**: `padd`, `psub` and the other packed operations of two operands: the second is the left operand and the result. -/
theorem packop2_spec (op : α → α → α) (op1 op2 : List α) (h : op2.length ≤ op1.length) : packop2 op op1 op2 = some (List.zipWith op op2 op1) := by
  refine loop_set _ op2 (by simp [h]) ?_
  intro j hj r hr hk
  have hj' : j < op2.length := by rw [List.length_zipWith] at hj; omega
  have e : r[j]? = some op2[j] := by rw [hk j, if_neg (by omega), List.getElem?_eq_getElem hj']
  simp only [rd, e, List.getElem?_eq_getElem (Nat.lt_of_lt_of_le hj' h), Option.bind_eq_bind, Option.bind_some]
  rw [wr_lt (by omega)]
  simp

example : packop2 (· - ·) [(1 : Int), 2] [10, 20] = some [9, 18] := packop2_spec _ _ _ (by decide)

/-- **C51** is false for the packed operations of one operand, `precip`, `psqrt`, `psin` and so on: for every operation and every
tuple they change nothing. -/
theorem packop1_violated (op : α → α) (t : List α) : packop1 op t = some t := by
  obtain ⟨s, e, h⟩ := loop_rule (f := fun i r => do let a ← rd r i; let _ := op a; some r) (fun _ r => r = t) t.length t rfl (by
    intro j s hj hs
    subst hs
    refine ⟨s, ?_, rfl⟩
    simp only [rd_lt hj, Option.bind_eq_bind, Option.bind_some])
  rw [packop1, e, h]

example : packop1 (fun a : Int => 100 / a) [1, 2, 5] = some [1, 2, 5] := packop1_violated _ _

/-- **C51**: `passign` and the copy constructor copy. -/
theorem passign_spec (t r : List α) (h : t.length ≤ r.length) : ∃ r', passign t r = some r' ∧ r'.length = r.length ∧ r'.take t.length = t := by
  cases t with
  | nil => exact ⟨r, rfl, rfl, rfl⟩
  | cons a t =>
    obtain ⟨r', e, hl, hk⟩ := loopFrom_set (f := fun i r => do let b ← rd (a :: t) i; wr r i b) (fun k => (a :: t).getD k a) r 0 (a :: t).length (by omega) (by
      intro j s _ hj hs _
      simp only [rd_lt (show j < (a :: t).length by omega), Option.bind_eq_bind, Option.bind_some]
      rw [wr_lt (by omega), List.getD_eq_getElem?_getD, List.getElem?_eq_getElem (by omega)]; rfl)
    refine ⟨r', e, hl, ?_⟩
    apply List.ext_getElem?
    intro k
    rw [List.getElem?_take]
    by_cases hc : k < (a :: t).length
    · rw [if_pos hc, hk k, if_pos (by omega), List.getElem?_eq_getElem hc, List.getD_eq_getElem?_getD, List.getElem?_eq_getElem hc]; rfl
    · rw [if_neg hc, List.getElem?_eq_none (by omega)]

example : ∃ r', passign [(1 : Int), 2] [7, 8] = some r' ∧ r'.length = 2 ∧ r'.take 2 = [1, 2] := passign_spec _ _ (by decide)

/-- **C51**: `==` of tuples and arrays of the same size is equality. -/
theorem tupleEq_spec [DecidableEq α] (t1 t2 : List α) (h : t2.length = t1.length) : tupleEqFrom t1 t2 0 t1.length = some (decide (t1 = t2)) := by
  have main : ∀ (n i : Nat), i + n = t1.length → tupleEqFrom t1 t2 i n = some (decide (t1.drop i = t2.drop i)) := by
    intro n
    induction n with
    | zero => intro i hi; rw [tupleEqFrom, List.drop_eq_nil_of_le (by omega), List.drop_eq_nil_of_le (by omega)]; simp
    | succ n ih =>
      intro i hi
      rw [tupleEqFrom, rd_lt (show i < t1.length by omega), rd_lt (show i < t2.length by omega)]
      simp only [Option.bind_eq_bind, Option.bind_some]
      rw [List.drop_eq_getElem_cons (show i < t1.length by omega), List.drop_eq_getElem_cons (show i < t2.length by omega)]
      generalize t1[i]'(by omega) = a
      generalize t2[i]'(by omega) = b
      by_cases hc : a = b
      · rw [if_neg (by simpa using hc), ih (i + 1) (by omega)]
        simp [hc]
      · rw [if_pos hc]
        simp [hc]
  simpa using main t1.length 0 (by omega)

example : tupleEqFrom [(1 : Int), 2] [1, 3] 0 2 = some false := tupleEq_spec _ _ rfl

/-- **C51**: `<` of tuples and arrays is the lexicographic order. -/
theorem tupleLt_spec [LinearOrder α] (t1 t2 : List α) (h : t2.length = t1.length) : tupleLtFrom t1 t2 0 t1.length = some (decide (t1 < t2)) := by
  have main : ∀ (n i : Nat), i + n = t1.length → tupleLtFrom t1 t2 i n = some (decide (t1.drop i < t2.drop i)) := by
    intro n
    induction n with
    | zero => intro i hi; rw [tupleLtFrom, List.drop_eq_nil_of_le (by omega), List.drop_eq_nil_of_le (by omega)]; simp
    | succ n ih =>
      intro i hi
      rw [tupleLtFrom, rd_lt (show i < t1.length by omega), rd_lt (show i < t2.length by omega)]
      simp only [Option.bind_eq_bind, Option.bind_some]
      rw [List.drop_eq_getElem_cons (show i < t1.length by omega), List.drop_eq_getElem_cons (show i < t2.length by omega)]
      generalize t1[i]'(by omega) = a
      generalize t2[i]'(by omega) = b
      by_cases hc : a ≤ b
      · rw [if_pos hc]
        by_cases hd : a < b
        · rw [if_pos hd]
          simp [List.cons_lt_cons_iff, hd]
        · have hab : a = b := le_antisymm hc (not_lt.mp hd)
          rw [if_neg hd, ih (i + 1) (by omega)]
          simp [hab]
      · rw [if_neg hc]
        have : b < a := not_le.mp hc
        simp [List.cons_lt_cons_iff, not_lt.mpr (le_of_lt this), (ne_of_lt this).symm]
  simpa using main t1.length 0 (by omega)

example : tupleLtFrom [(1 : Int), 5] [2, 3] 0 2 = some true := tupleLt_spec (α := Int) _ _ rfl

/-- **C51**: `swap` exchanges the contents. -/
theorem tupleSwap_spec (t v : List α) (h : v.length = t.length) : tupleSwap t v = some (v, t) := by
  obtain ⟨s, e, hs⟩ := loop_rule (f := fun i (p : List α × List α) => do
      let a ← rd p.1 i
      let b ← rd p.2 i
      let t ← wr p.1 i b
      let v ← wr p.2 i a
      some (t, v)) (fun i p => p.1 = v.take i ++ t.drop i ∧ p.2 = t.take i ++ v.drop i) t.length (t, v) (by simp) (by
    rintro j ⟨p, q⟩ hj ⟨rfl, rfl⟩
    have h1 : (v.take j ++ t.drop j)[j]? = some t[j] := by
      rw [List.getElem?_append_right (by rw [List.length_take]; omega), List.length_take, List.getElem?_drop]
      rw [show j + (j - min j v.length) = j by omega, List.getElem?_eq_getElem hj]
    have h2 : (t.take j ++ v.drop j)[j]? = some v[j] := by
      rw [List.getElem?_append_right (by rw [List.length_take]; omega), List.length_take, List.getElem?_drop]
      rw [show j + (j - min j t.length) = j by omega, List.getElem?_eq_getElem (by omega)]
    simp only [rd, h1, h2, Option.bind_eq_bind, Option.bind_some]
    rw [wr_lt (by simp; omega), wr_lt (by simp; omega)]
    simp only [Option.bind_some]
    refine ⟨_, rfl, ?_, ?_⟩ <;> dsimp only
    · rw [List.set_append_right _ _ (by rw [List.length_take]; omega), List.length_take, show j - min j v.length = 0 by omega,
        List.drop_eq_getElem_cons hj, List.set_cons_zero, ← List.take_append_getElem (show j < v.length by omega), List.append_assoc]; rfl
    · rw [List.set_append_right _ _ (by rw [List.length_take]; omega), List.length_take, show j - min j t.length = 0 by omega,
        List.drop_eq_getElem_cons (show j < v.length by omega), List.set_cons_zero, ← List.take_append_getElem hj, List.append_assoc]; rfl)
  rw [tupleSwap]
  refine Eq.trans e ?_
  obtain ⟨p, q⟩ := s
  obtain ⟨rfl, rfl⟩ := hs
  have e1 : v.take t.length = v := by rw [← h]; exact List.take_length
  have e2 : v.drop t.length = [] := by rw [← h]; exact List.drop_length
  simp [e1, e2]

example : tupleSwap [(1 : Int), 2] [3, 4] = some ([3, 4], [1, 2]) := tupleSwap_spec _ _ rfl

end Ustl.LinAlg
