import Verif.Link.Model
/-! # What links are to do -/
namespace Ustl.Link

/-- The bytes a link shows. -/
def view {α : Type _} (w : World α) (i : Nat) : List α :=
  match (w.obj i).ptr with
  | none => []
  | some (b, o) => ((w.mem b).drop o).take (w.obj i).size

/-- Every link is inside its block, or null and empty. -/
def Fine {α : Type _} (w : World α) : Prop :=
  ∀ i, match (w.obj i).ptr with
    | none => (w.obj i).size = 0
    | some (b, o) => o + (w.obj i).size ≤ (w.mem b).length

/-- The byte at offset `k` of block `b` belongs to link `i`. -/
def Covers {α : Type _} (w : World α) (i b k : Nat) : Prop :=
  ∃ o, (w.obj i).ptr = some (b, o) ∧ o ≤ k ∧ k < o + (w.obj i).size

/-- Memory changed at most where link `i` is, and no block changed its size. -/
def Within {α : Type _} (w w' : World α) (i : Nat) : Prop :=
  (∀ b, (w'.mem b).length = (w.mem b).length) ∧ ∀ b k, ¬ Covers w i b k → (w'.mem b)[k]? = (w.mem b)[k]?

/-- `[o, o + n)` of block `b` and `[o', o' + n')` of block `b'` have no byte in common. -/
def Apart (b o n b' o' n' : Nat) : Prop := b ≠ b' ∨ o + n ≤ o' ∨ o' + n' ≤ o

/-- `pat` repeated. -/
def times {α : Type _} (pat : List α) (c : Nat) : List α := (List.replicate c pat).flatten

/-- What the documentation (and the assertions) ask of the caller: pointers into blocks, places inside the link, a pattern
that is not where it is written to, and no size beyond the block. -/
def Pre {α : Type _} (w : World α) : Op α → Prop
  | .link _ p n => ∀ b o, p = some (b, o) → o + n ≤ (w.mem b).length
  | .unlink _ => True
  | .assign _ _ => True
  | .swap _ _ => True
  | .resize i n => n ≤ (w.obj i).size
  | .fill i start sb s z c => start + z * c ≤ (w.obj i).size ∧ s + z ≤ (w.mem sb).length ∧
      ∀ b o, (w.obj i).ptr = some (b, o) → Apart sb s z b (o + start) (z * c)
  | .insert i start n => start + n ≤ (w.obj i).size
  | .erase i start n => start + n ≤ (w.obj i).size
  | .poke i k _ => k < (w.obj i).size

/-- What each operation does: to the link, to the bytes it shows, and to nothing else. -/
def Eff {α : Type _} (w : World α) (ok : Bool) (w' : World α) : Op α → Prop
  | .link i p n =>
    if p = none ∧ n ≠ 0 then ok = false ∧ w' = w
    else ok = true ∧ w'.mem = w.mem ∧ w'.obj i = ⟨p, n⟩ ∧ ∀ j, j ≠ i → w'.obj j = w.obj j
  | .unlink i => ok = true ∧ w'.mem = w.mem ∧ view w' i = [] ∧ (w'.obj i).ptr = none ∧ ∀ j, j ≠ i → w'.obj j = w.obj j
  | .assign i j => ok = true ∧ w'.mem = w.mem ∧ w'.obj i = w.obj j ∧ ∀ k, k ≠ i → w'.obj k = w.obj k
  | .swap i j => ok = true ∧ w'.mem = w.mem ∧ w'.obj i = w.obj j ∧ w'.obj j = w.obj i ∧ ∀ k, k ≠ i → k ≠ j → w'.obj k = w.obj k
  | .resize i n => ok = true ∧ w'.mem = w.mem ∧ view w' i = (view w i).take n ∧ ∀ j, j ≠ i → w'.obj j = w.obj j
  | .fill i start sb s z c => ok = true ∧ w'.obj = w.obj ∧ Within w w' i ∧
      view w' i = (view w i).take start ++ times (((w.mem sb).drop s).take z) c ++ (view w i).drop (start + z * c)
  | .insert i start n => ok = true ∧ w'.obj = w.obj ∧ Within w w' i ∧
      ∃ gap, gap.length = n ∧ view w' i = (view w i).take start ++ gap ++ ((view w i).take ((w.obj i).size - n)).drop start
  | .erase i start n => ok = true ∧ w'.obj = w.obj ∧ Within w w' i ∧
      ∃ rest, rest.length = n ∧ view w' i = (view w i).take start ++ (view w i).drop (start + n) ++ rest
  | .poke i k x => ok = true ∧ w'.obj = w.obj ∧ Within w w' i ∧ view w' i = (view w i).set k x

end Ustl.Link
