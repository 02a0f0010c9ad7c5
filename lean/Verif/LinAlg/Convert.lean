import Verif.LinAlg.Ctor
/-! # Tuples from tuples of another type, from pointers, and operators of an operand with itself (C51) -/
namespace Ustl.LinAlg
variable {α β : Type _} {σ : Type _}

/-! ## Model -/

/-- `tuple (const tuple<N,T2>&)`, `operator= (const tuple<N,T2>&)` and `pconvert (op1, op2, f)`; `f` is what the conversion of an element
gives. Models utuple.h:103-105, 158-161, simd.h:76-84, 94, uarray.h:43-44, 51-52. -/
def pconvert (f : β → α) (op1 : List β) (op2 : List α) : Option (List α) :=
  loop op1.length (fun i r => do let a ← rd op1 i; wr r i (f a)) op2

/-- `tuple (const tuple<N,T>&)` and `operator= (const tuple<N,T>&)`. Models utuple.h:107-109, 163-165. -/
def tupleCopy (src dst : List α) : Option (List α) := passign src dst

/-- `t = t`. Models utuple.h:163-165, simd.h:59-66. -/
def tupleCopySelf (t : List α) : Option (List α) := loop t.length (fun i t => do let a ← rd t i; wr t i a) t

/-- `tuple (const_pointer)`, `array (const_pointer)` with the pointer at `p` of `mem`. Models utuple.h:111-113, simd.h:68-74, uarray.h:46. -/
def ofPointer (mem : List α) (p : Nat) (t : List α) : Option (List α) :=
  loop t.length (fun i t => do let a ← rd mem (p + i); wr t i a) t

/-- `t op= t`, both operands one object. Models utuple.h:185-199, uarray.h:104-118. -/
def opSelf (op : α → α → α) (t : List α) : Option (List α) :=
  loop t.length (fun i t => do let a ← rd t i; let b ← rd t i; wr t i (op a b)) t

/-- `t1 op= t2` of the tuples with packed operations. Models utuple.h:334-342. -/
def packAssign (op : α → α → α) (t1 t2 : List α) : Option (List α) := packop2 op t2 t1

/-- `t1 op t2` of the tuples with packed operations; `mem` is the memory of the result. Models utuple.h:343-350. -/
def packNew (op : α → α → α) (t1 t2 mem : List α) : Option (List α) := do
  let r ← tupleCopy t1 mem
  packop2 op t2 r

/-- `t op= t` of the tuples with packed operations. Models utuple.h:334-342, simd.h:38-47. -/
def packSelf (op : α → α → α) (t : List α) : Option (List α) :=
  loop t.length (fun i t => do let a ← rd t i; let b ← rd t i; wr t i (op b a)) t

/-- `a.fill (a[k])`. Models uarray.h:78, ualgobase.h:132-137. -/
def fillSelf (k : Nat) (t : List α) : Option (List α) := loop t.length (fun i t => do let a ← rd t k; wr t i a) t

/-! ## Theorems -/

/-- A loop that stores the converted elements of another list. -/
theorem loop_map (f : β → α) (src : List β) (dst : List α) (h : src.length = dst.length) : pconvert f src dst = some (src.map f) := by
  rw [pconvert, h]
  refine loop_set _ dst (by simp [h]) ?_
  intro j hj r hr _
  have hj' : j < src.length := by simpa using hj
  simp only [rd, List.getElem?_eq_getElem hj', Option.bind_eq_bind, Option.bind_some]
  rw [wr_lt (by omega)]
  simp

/-- **C51**: a tuple made of or assigned from a tuple of another type has the converted elements, each at its place, whatever it held before. -/
theorem pconvert_spec (f : β → α) (src : List β) (dst : List α) (h : src.length = dst.length) : pconvert f src dst = some (src.map f) :=
  loop_map f src dst h

example : pconvert (fun n : Nat => -(n : Int)) [1, 2, 3] [9, 9, 9] = some [-1, -2, -3] := pconvert_spec _ _ _ rfl

/-- **C51**: a copy of a tuple, made or assigned, is equal to it. -/
theorem tupleCopy_spec (src dst : List α) (h : src.length = dst.length) : tupleCopy src dst = some src := by
  have := loop_map id src dst h
  rw [List.map_id] at this
  exact this

example : tupleCopy [(1 : Int), 2] [7, 8] = some [1, 2] := tupleCopy_spec _ _ rfl

/-- **C51**: assigning a tuple to itself changes nothing. -/
theorem tupleCopySelf_spec (t : List α) : tupleCopySelf t = some t := by
  refine loop_set _ t rfl ?_
  intro j hj r hr hk
  have e : r[j]? = some t[j] := by rw [hk j, if_neg (by omega), List.getElem?_eq_getElem hj]
  simp only [rd, e, Option.bind_eq_bind, Option.bind_some]
  rw [wr_lt (by omega)]

example : tupleCopySelf [(1 : Int), 2] = some [1, 2] := tupleCopySelf_spec _

/-- **C51**: a tuple or array made of a pointer has the `N` elements found there, if there are so many. -/
theorem ofPointer_spec (mem : List α) (p : Nat) (t : List α) (h : p + t.length ≤ mem.length) : ofPointer mem p t = some ((mem.drop p).take t.length) := by
  refine loop_set _ t (by simp; omega) ?_
  intro j hj r hr _
  have hj' : p + j < mem.length := by simp at hj; omega
  simp only [rd, List.getElem?_eq_getElem hj', Option.bind_eq_bind, Option.bind_some]
  rw [wr_lt (by simp at hj; omega)]
  simp

example : ofPointer [(1 : Int), 2, 3, 4] 1 [0, 0] = some [2, 3] := ofPointer_spec _ _ _ (by decide)

/-- **C51**: the pointer is trusted: with fewer than `N` elements there, memory behind them is read. -/
theorem ofPointer_short (mem : List α) (p : Nat) (t : List α) (h0 : t ≠ []) (h : mem.length < p + t.length) : ofPointer mem p t = none := by
  have main : ∀ (n i : Nat) (s : List α), s.length = t.length → i + n = t.length → mem.length < p + i + n → 0 < n →
      loopFrom (fun i t => do let a ← rd mem (p + i); wr t i a) i n s = none := by
    intro n
    induction n with
    | zero => intro i s _ _ _ h0; omega
    | succ n ih =>
      intro i s hs hn hm _
      rw [loopFrom]
      by_cases hc : p + i < mem.length
      · simp only [rd_lt hc, Option.bind_eq_bind, Option.bind_some]
        rw [wr_lt (by omega), Option.bind_some]
        exact ih (i + 1) _ (by rw [List.length_set, hs]) (by omega) (by omega) (by omega)
      · simp only [rd, List.getElem?_eq_none (Nat.le_of_not_lt hc), Option.bind_eq_bind, Option.bind_none]
  have := List.length_pos_iff.mpr h0
  exact main t.length 0 t rfl (by omega) (by omega) this

example : ofPointer [(1 : Int), 2, 3] 2 [0, 0] = none := ofPointer_short _ _ _ (by decide) (by decide)

/-- **C51**: the tuples with packed operations compute what all others do: `t1 op= t2`. -/
theorem packAssign_spec (op : α → α → α) (t1 t2 : List α) (h : t2.length = t1.length) :
    packAssign op t1 t2 = some (List.zipWith op t1 t2) ∧ packAssign op t1 t2 = opAssign op t1 t2 := by
  have e : packAssign op t1 t2 = some (List.zipWith op t1 t2) := packop2_spec op t2 t1 (by omega)
  exact ⟨e, by rw [e, opAssign_spec op t1 t2 h]⟩

/-- **C51**: the tuples with packed operations compute what all others do: `t1 op t2`. -/
theorem packNew_spec (op : α → α → α) (t1 t2 mem : List α) (h : t2.length = t1.length) (hm : mem.length = t1.length) :
    packNew op t1 t2 mem = some (List.zipWith op t1 t2) ∧ packNew op t1 t2 mem = opNew op t1 t2 mem := by
  have e : packNew op t1 t2 mem = some (List.zipWith op t1 t2) := by
    rw [packNew, tupleCopy_spec t1 mem hm.symm]
    exact packop2_spec op t2 t1 (by omega)
  exact ⟨e, by rw [e, opNew_spec op t1 t2 mem h hm]⟩

example : packAssign (· - ·) [(10 : Int), 20] [1, 2] = some [9, 18] ∧ packNew (· - ·) [(10 : Int), 20] [5, 2] [7, 7] = some [5, 18] :=
  ⟨(packAssign_spec _ [(10 : Int), 20] [1, 2] rfl).1, (packNew_spec _ [(10 : Int), 20] [5, 2] [7, 7] rfl rfl).1⟩

/-- **C51**: an operand may be the tuple itself: `t op= t` does the operation on every element and itself, in both implementations. -/
theorem opSelf_spec (op : α → α → α) (t : List α) : opSelf op t = some (t.map fun a => op a a) ∧ packSelf op t = some (t.map fun a => op a a) := by
  constructor
  all_goals
    refine loop_set _ t (by simp) ?_
    intro j hj r hr hk
    have hj' : j < t.length := by simpa using hj
    have e : r[j]? = some t[j] := by rw [hk j, if_neg (by omega), List.getElem?_eq_getElem hj']
    simp only [rd, e, Option.bind_eq_bind, Option.bind_some]
    rw [wr_lt (by omega)]
    simp

example : opSelf (· - ·) [(3 : Int), 4] = some [0, 0] ∧ opSelf (· * ·) [(3 : Int), 4] = some [9, 16] := ⟨(opSelf_spec _ _).1, (opSelf_spec _ _).1⟩

/-- **C51**: `a.fill (a[k])` gives all elements the value that `a[k]` had. -/
theorem fillSelf_spec (k : Nat) (t : List α) (hk : k < t.length) : fillSelf k t = some (List.replicate t.length t[k]) := by
  refine loop_set _ t (by simp) ?_
  intro j hj r hr hrk
  have e : r[k]? = some t[k] := by
    rw [hrk k]
    by_cases hc : k < j
    · rw [if_pos hc, List.getElem?_replicate, if_pos hk]
    · rw [if_neg hc, List.getElem?_eq_getElem hk]
  simp only [rd, e, Option.bind_eq_bind, Option.bind_some]
  rw [wr_lt (by rw [List.length_replicate] at hj; omega)]
  simp

example : fillSelf 1 [(3 : Int), 4, 5] = some [4, 4, 4] := fillSelf_spec 1 _ (by decide)

end Ustl.LinAlg
