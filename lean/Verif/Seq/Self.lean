import Verif.Seq.Props
/-!
# A list merged with itself and spliced into itself: more of C36

The list's block is one memory, the iterators are positions in it. `gap` stands for whatever the inserted cells hold.
-/
namespace Ustl.Seq
open Ustl.Assoc
variable {α : Type _}

/-- `merge (first1, last1, first2, last2, result)` with both ranges and `result` in one block. Models ualgo.h:238-252. -/
def mergeSame (lt : α → α → Bool) (m : List α) (first1 last1 first2 last2 result : Nat) : Option (List α) :=
  if first1 < last1 ∧ first2 < last2 then
    match rd m first1, rd m first2 with
    | some x, some y =>
      if lt x y then
        match wr m result x with
        | none => none
        | some m' => mergeSame lt m' (first1 + 1) last1 first2 last2 (result + 1)
      else
        match wr m result y with
        | none => none
        | some m' => mergeSame lt m' first1 last1 (first2 + 1) last2 (result + 1)
    | _, _ => none
  else if first1 < last1 then copyIn m first1 last1 result
  else copyIn m first2 last2 result
termination_by (last1 - first1) + (last2 - first2)

/-- `l.merge (l)`: once the space is there, `l.size()` is twice what it was. Models ulist.h:59-64. -/
def mergeSelf (lt : α → α → Bool) (gap l : List α) : Option (List α) :=
  match vinsertAll l 0 gap with
  | none => none
  | some m => mergeSame lt m m.length m.length 0 m.length 0

/-- `l.splice (ip, l, first, last)`: the space is made at `ip` first, then what is at the positions `first` to `last` is copied to it, then these positions
are erased. `room`: whether the block had the room; if not, the iterators point into a freed block. Models ulist.h:67-76, uvector.h:292-300. -/
def spliceSelf (room : Bool) (gap l : List α) (ip first last : Nat) : Option (List α) :=
  if room then
    match vinsertAll l ip gap with
    | none => none
    | some m => match copyIn m first last ip with
      | none => none
      | some m' => veraseRange m' first last
  else none

/-- **C36** is false of a list merged with itself: whatever the inserted cells hold stays in front of the elements. -/
theorem list_merge_self_violated (lt : α → α → Bool) (gap l : List α) (hg : gap.length = l.length) (hl : l ≠ []) :
    mergeSelf lt gap l = some (gap ++ l) ∧ gap ++ l ≠ l ∧ ∀ x ∈ l, x ∉ gap → ¬ (gap ++ l).Perm (l ++ l) := by
  have hm : mergeSelf lt gap l = some (gap ++ l) := by
    have h0 : vinsertAll l 0 gap = some (gap ++ l) := by simp [vinsertAll]
    unfold mergeSelf
    rw [h0]
    show mergeSame _ _ _ _ _ _ _ = _
    unfold mergeSame
    rw [if_neg (by omega), if_neg (by omega)]
    have := copyIn_self (gap ++ l) [] [] 0 rfl
    simpa using this
  refine ⟨hm, fun h => ?_, fun x hx hn hp => ?_⟩
  · have := congrArg List.length h
    rw [List.length_append] at this
    cases l with
    | nil => exact hl rfl
    | cons a l => simp at this hg; subst this; simp at hg
  · classical
    have := hp.countP_eq (fun y => decide (y = x))
    rw [List.countP_append, List.countP_append] at this
    have h1 : gap.countP (fun y => decide (y = x)) = 0 := by
      rw [List.countP_eq_zero]
      intro y hy hd
      exact hn (of_decide_eq_true hd ▸ hy)
    have h2 : 0 < l.countP (fun y => decide (y = x)) := List.countP_pos_iff.2 ⟨x, hx, by simp⟩
    omega

example : mergeSelf (fun a b : Nat => decide (a < b)) [0, 0] [1, 2] = some [0, 0, 1, 2] :=
  (list_merge_self_violated _ [0, 0] [1, 2] rfl (by simp)).1

theorem copyIn_move : ∀ (mid pre between : List α) (gap : List α) (post : List α), gap.length = mid.length →
    ∀ f r, f = pre.length → r = pre.length + mid.length + between.length →
    copyIn (pre ++ mid ++ between ++ gap ++ post) f (f + mid.length) r = some (pre ++ mid ++ between ++ mid ++ post)
  | [], pre, between, gap, post, hg, f, r, hf, hr => by
    have : gap = [] := by simpa using hg
    subst this
    unfold copyIn
    simp
  | x :: mid, pre, between, g :: gap, post, hg, f, r, hf, hr => by
    subst hf; subst hr
    unfold copyIn
    rw [if_pos (by simp)]
    have h1 : rd (pre ++ x :: mid ++ between ++ g :: gap ++ post) pre.length = some x := by simp [rd]
    have h2 : wr (pre ++ x :: mid ++ between ++ g :: gap ++ post) (pre.length + (x :: mid).length + between.length) x =
        some (pre ++ [x] ++ mid ++ (between ++ [x]) ++ gap ++ post) := by
      have : pre.length + (x :: mid).length + between.length = (pre ++ x :: mid ++ between).length := by simp; omega
      rw [this]
      unfold wr
      rw [if_pos (by simp), List.append_assoc _ (g :: gap) post, List.set_append_right _ _ (Nat.le_refl _), Nat.sub_self]
      simp
    rw [h1]
    simp only []
    rw [h2]
    simp only []
    have h3 := copyIn_move mid (pre ++ [x]) (between ++ [x]) gap post (by simpa using hg) (pre.length + 1)
      (pre.length + (x :: mid).length + between.length + 1) (by simp) (by simp; omega)
    have e : pre.length + 1 + mid.length = pre.length + (x :: mid).length := by simp; omega
    rw [e] at h3
    rw [h3]
    simp

/-- **C36** a range spliced to a later place of the same list, in a block with room for it, is moved there. Missing: a list whose block is full
(`list_splice_self_full_violated`) and earlier places (`list_splice_self_violated`). -/
theorem list_splice_self_partial (gap pre mid between post : List α) (hg : gap.length = mid.length) :
    spliceSelf true gap (pre ++ mid ++ between ++ post) (pre.length + mid.length + between.length) pre.length (pre.length + mid.length) =
      some (pre ++ between ++ mid ++ post) := by
  have hi : pre.length + mid.length + between.length = (pre ++ mid ++ between).length := by simp; omega
  have h0 : vinsertAll (pre ++ mid ++ between ++ post) (pre.length + mid.length + between.length) gap = some (pre ++ mid ++ between ++ gap ++ post) := by
    rw [hi]
    simp only [vinsertAll]
    rw [if_pos (by simp), List.take_left, List.drop_left]
  unfold spliceSelf
  rw [if_pos rfl, h0]
  simp only []
  rw [copyIn_move mid pre between gap post hg _ _ rfl rfl]
  simp only []
  unfold veraseRange
  rw [if_pos (by omega)]
  have hd : pre.length + mid.length - pre.length = mid.length := by omega
  unfold verase
  rw [hd, if_pos (by simp only [List.length_append, List.length_cons]; omega)]
  have ht : (pre ++ mid ++ between ++ mid ++ post).take pre.length = pre := by simp
  have hdr : (pre ++ mid ++ between ++ mid ++ post).drop (pre.length + mid.length) = between ++ mid ++ post := by
    have : pre.length + mid.length = (pre ++ mid).length := by simp
    rw [this, List.append_assoc (pre ++ mid), List.append_assoc (pre ++ mid), List.drop_left]
  rw [ht, hdr]
  simp

example : spliceSelf true [0] [1, 2, 3, 4] 3 1 2 = some [1, 3, 2, 4] := list_splice_self_partial [0] [1] [2] [3] [4] rfl

/-- **C36** is false if the block is full: the range is read from the freed block. -/
theorem list_splice_self_full_violated (gap l : List α) (ip first last : Nat) : spliceSelf false gap l ip first last = none := rfl

/-- **C36** is false of an earlier place: splicing `y` to a place before `x`, where `x` stands before `y`, moves `x` there. -/
theorem list_splice_self_violated (g x y : α) (pre mid post : List α) (hxy : x ≠ y) :
    spliceSelf true [g] (pre ++ mid ++ [x, y] ++ post) pre.length (pre.length + mid.length + 1) (pre.length + mid.length + 2) =
      some (pre ++ [x] ++ mid ++ [y] ++ post) ∧
    pre ++ [x] ++ mid ++ [y] ++ post ≠ pre ++ [y] ++ mid ++ [x] ++ post := by
  constructor
  · have h0 : vinsertAll (pre ++ mid ++ [x, y] ++ post) pre.length [g] = some (pre ++ g :: (mid ++ x :: y :: post)) := by
      simp only [vinsertAll]
      rw [if_pos (by simp)]
      have : pre ++ mid ++ [x, y] ++ post = pre ++ (mid ++ x :: y :: post) := by simp
      rw [this, List.take_left, List.drop_left]
      simp
    unfold spliceSelf
    rw [if_pos rfl, h0]
    simp only []
    unfold copyIn
    rw [if_pos (by omega)]
    have h1 : rd (pre ++ g :: (mid ++ x :: y :: post)) (pre.length + mid.length + 1) = some x := by
      unfold rd
      rw [Nat.add_assoc, List.getElem?_append_right (by omega)]
      simp
    have h2 : wr (pre ++ g :: (mid ++ x :: y :: post)) pre.length x = some (pre ++ x :: (mid ++ x :: y :: post)) := by
      unfold wr
      rw [if_pos (by simp), List.set_append_right _ _ (Nat.le_refl _), Nat.sub_self]
      rfl
    rw [h1]
    simp only []
    rw [h2]
    simp only []
    unfold copyIn
    rw [if_neg (by omega), if_pos rfl]
    simp only []
    unfold veraseRange
    rw [if_pos (by omega)]
    unfold verase
    have hd : pre.length + mid.length + 2 - (pre.length + mid.length + 1) = 1 := by omega
    rw [hd, if_pos (by simp only [List.length_append, List.length_cons]; omega)]
    have hs : pre ++ x :: (mid ++ x :: y :: post) = (pre ++ [x] ++ mid) ++ x :: y :: post := by simp
    have hl : pre.length + mid.length + 1 = (pre ++ [x] ++ mid).length := by simp; omega
    rw [hs, hl, List.take_left, ← List.drop_drop, List.drop_left]
    simp
  · intro h
    have h := congrArg (fun l => l[pre.length]?) h
    simp at h
    exact hxy h

example : spliceSelf true [0] [1, 2, 3, 4] 0 2 3 = some [2, 1, 3, 4] := (list_splice_self_violated 0 2 3 [] [1] [4] (by decide)).1

end Ustl.Seq
