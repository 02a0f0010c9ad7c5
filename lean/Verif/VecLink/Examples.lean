import Verif.VecLink.Props
import Verif.VecLink.Owning
import Verif.Vector.Props
/-!
# C86: the hypotheses are met
-/
namespace Ustl.VecLink
open Ustl.Memblock

/-- Two-byte elements. -/
def enc2 (t : Nat) : List Nat := [t, 1]

/-- A foreign array of three elements (30, 7, 8) followed by one more byte. -/
def w0 : World Nat := ⟨oneForeign [30, 1, 7, 1, 8, 1, 99], fun _ => Obj.empty⟩

theorem w0_initial : Initial w0 := by
  refine ⟨fun _ => rfl, ?_, ?_⟩
  · intro id h
    have : id ≠ 0 := by have : 1 ≤ id := h; omega
    simp [w0, oneForeign, this]
  · intro id b h
    by_cases hk : id = 0
    · subst hk; cases h; rfl
    · simp [w0, oneForeign, hk] at h

/-- The elements of the foreign array. -/
def arr0 (_ : Nat × Nat) (n : Nat) : List Nat := [30, 7, 8].take n

/-- The state after a call. -/
def next (w : World Nat) (op : Op Nat) (a : Option (Nat → Nat)) : World Nat :=
  match step enc2 2 irot w op a with
  | some (_, w') => w'
  | none => w

theorem next_step {w : World Nat} {op : Op Nat} {a : Option (Nat → Nat)} {ok : Bool}
    (h : (step enc2 2 irot w op a).map (·.1) = some ok) : step enc2 2 irot w op a = some (ok, next w op a) := by
  unfold next
  cases hs : step enc2 2 irot w op a with
  | none => rw [hs] at h; cases h
  | some r => rw [hs] at h; obtain ⟨b, w'⟩ := r; cases h; rfl

/-- Fresh memory is zero. -/
def z : Option (Nat → Nat) := some fun _ => 0

/-- The states of the example program. -/
def w3 : World Nat := next (next (next w0 (.link 0 (0, 0) 3) z) (.link 1 (0, 0) 3) z) (.popBack 0) z
/-- After the copying append. -/
def w4 : World Nat := next w3 (.append 0 [5]) z
/-- After the failed erase. -/
def w5 : World Nat := next w4 (.erase 1 0 1) none
/-- After the second erase. -/
def w6 : World Nat := next w5 (.erase 1 0 1) z
/-- After the store. -/
def w7 : World Nat := next w6 (.set 1 0 10) z
/-- After the shrinking resize. -/
def w8 : World Nat := next w7 (.resize 0 1 0) z
/-- At the end. -/
def w9 : World Nat := next w8 (.destruct 0) z

/-- Two vectors are linked to the same array; the first is popped, appended to (which copies it), the second is
erased from after a failed allocation; then the first is destroyed and the second written to. -/
example : ∃ v, Hist enc2 2 irot arr0 w0 [(.link 0 (0, 0) 3, true), (.link 1 (0, 0) 3, true), (.popBack 0, true),
      (.append 0 [5], true), (.erase 1 0 1, false), (.erase 1 0 1, true), (.set 1 0 10, true),
      (.resize 0 1 0, true), (.destruct 0, true)] w9 v ∧ v 1 = [10, 8] ∧ v 0 = [] ∧
      ¬ linked w9 1 ∧ get 2 w9.heap (w9.obj 1) 0 = some [10, 1] ∧
      (w9.heap.blk 0).map (·.bytes) = some [30, 1, 7, 1, 8, 1, 99] := by
  have p1 : Pre enc2 2 arr0 w0 (.link 0 (0, 0) 3) (fun _ => []) := ⟨⟨_, rfl, rfl, by decide⟩, rfl⟩
  have h1 := Hist.ok (Hist.nil (enc := enc2) (sz := 2) (rot := irot) (arr := arr0) (w := w0)) p1 (a := z)
    (next_step (by decide +kernel))
  have h2 := Hist.ok h1 (op := .link 1 (0, 0) 3) (a := z) ⟨⟨_, rfl, rfl, by decide⟩, rfl⟩ (next_step (by decide +kernel))
  have h3 := Hist.ok h2 (op := .popBack 0) (a := z) (by intro h; cases h) (next_step (by decide +kernel))
  have h4 := Hist.ok h3 (op := .append 0 [5]) (a := z) (by simp [Pre, Op.apply, upd, arr0])
    (next_step (by decide +kernel))
  have h5 := Hist.threw h4 (op := .erase 1 0 1) (a := none) (by simp [Pre, Op.apply, upd, arr0])
    (next_step (by decide +kernel))
  have h6 := Hist.ok h5 (op := .erase 1 0 1) (a := z) (by simp [Pre, Op.apply, upd, arr0])
    (next_step (by decide +kernel))
  have h7 := Hist.ok h6 (op := .set 1 0 10) (a := z) ⟨by simp [Op.apply, upd, arr0], by unfold linked; decide +kernel⟩
    (next_step (by decide +kernel))
  have h8 := Hist.ok h7 (op := .resize 0 1 0) (a := z) (by simp [Pre]) (next_step (by decide +kernel))
  have h9 := Hist.ok h8 (op := .destruct 0) (a := z) trivial (next_step (by decide +kernel))
  exact ⟨_, h9, rfl, rfl, by unfold linked; decide +kernel, by decide +kernel, by decide +kernel⟩

/-- A vector of two elements in a block with room for four: a linked vector can be popped, erased from and copied,
so the hypotheses of the `_violated` theorems are met. -/
example : (∃ r, Vector.popBack 1 (Vector.oneBlock [.live 1, .live 2, .raw, .raw]) (Own.linkTo ⟨some (0, 0), 2, 4⟩) = some r) ∧
    (∃ ok h b, Vector.eraseV 1 (Vector.crot (β := Nat)) (Vector.oneBlock [.live 1, .live 2, .raw, .raw])
      (Own.linkTo ⟨some (0, 0), 2, 4⟩) 0 1 true = some (ok, h, b) ∧ ok = true) ∧
    (∃ h b, reserve 0 (Vector.oneBlock [.live 1, .live 2, .raw, .raw]) (Own.linkTo ⟨some (0, 0), 2, 4⟩) 3 false
      (Vector.allocAns (β := Nat) true) = some (true, h, b)) ∧
    Vector.VRep (fun n : Nat => [n]) 1 (Vector.oneBlock [.live 1, .live 2, .raw, .raw]) ⟨some (0, 0), 2, 4⟩ [1, 2] :=
  ⟨⟨_, rfl⟩, ⟨_, _, _, rfl, rfl⟩, ⟨_, _, rfl⟩, Or.inr ⟨0, rfl, by decide, rfl, by decide, rfl⟩⟩

end Ustl.VecLink
