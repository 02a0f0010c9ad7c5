import Verif.VecLink.Model
import Verif.Memblock.Spec
/-!
# What a history over linked vectors means: lists of elements

Each vector is a list; linking makes it the list of the elements found in the foreign array, and every later call
edits the list. Nothing here mentions pointers, blocks or capacities, except that `v[k] = x` is excluded for a
vector that is currently a view of foreign memory (it would, as intended, write there).
-/
namespace Ustl.VecLink
open Ustl.Memblock
variable {α T : Type _} (enc : T → List α) (sz : Nat) (rot : List α → Nat → Nat → Nat → Option (List α))

/-- Replace the list of vector `i`. -/
def upd (v : Nat → List T) (i : Nat) (x : List T) : Nat → List T := fun k => if k = i then x else v k

/-- The effect of a completed call on the lists; `arr p n` are the `n` elements of foreign memory at `p`. -/
def Op.apply (arr : Nat × Nat → Nat → List T) : Op T → (Nat → List T) → (Nat → List T)
  | .link i p n, v => upd v i (arr p n)
  | .manage i xs, v => upd v i xs
  | .unlink i, v => upd v i []
  | .copyLink _, v => v
  | .reserve _ _, v => v
  | .append i xs, v => upd v i (v i ++ xs)
  | .popBack i, v => upd v i (v i).dropLast
  | .resize i n x, v => upd v i ((v i).take n ++ List.replicate (n - (v i).length) x)
  | .insert i ip xs, v => upd v i ((v i).take ip ++ xs ++ (v i).drop ip)
  | .erase i ep n, v => upd v i ((v i).take ep ++ (v i).drop (ep + n))
  | .assign i xs _, v => upd v i xs
  | .clear i, v => upd v i []
  | .set i k x, v => upd v i ((v i).set k x)
  | .swap i j, v => upd (upd v i (v j)) j (v i)
  | .shrinkToFit _, v => v
  | .destruct i, v => upd v i []

/-- `is_linked()`: the vector has no storage of its own. Models uvector.h:96 (memblock.h:43). -/
def linked (w : World α) (i : Nat) : Prop := (w.obj i).cap = 0

/-- The contract: `arr` describes the foreign array a vector is linked to, there is one readable byte after it
(`Memblock.copy_link_overread_violated` shows why), `manage` is not called on a vector that owns memory,
indexes are in range, sizes are limited to `2^31` bytes, and `reserve` on a linked vector asks for at least its
size (`Memblock.reserve_linked_violated`). -/
def Pre (arr : Nat × Nat → Nat → List T) (w : World α) : Op T → (Nat → List T) → Prop
  | .link _ p n, _ => PaddedForeign w.heap p (n * sz) ∧ foreign w.heap p (n * sz) = encs enc (arr p n)
  | .manage i xs, _ => linked w i ∧ xs ≠ []
  | .unlink _, _ => True
  | .copyLink i, v => (v i).length * sz ≤ 2 ^ 31
  | .reserve i n, v => n * sz ≤ 2 ^ 31 ∧ (linked w i → (v i).length ≤ n)
  | .append i xs, v => ((v i).length + xs.length) * sz ≤ 2 ^ 31
  | .popBack i, v => v i ≠ []
  | .resize _ n _, _ => n * sz ≤ 2 ^ 31
  | .insert i ip xs, v => ip ≤ (v i).length ∧ ((v i).length + xs.length) * sz ≤ 2 ^ 31
  | .erase i ep n, v => ep + n ≤ (v i).length ∧ (v i).length * sz ≤ 2 ^ 31
  | .assign _ xs _, _ => xs.length * sz ≤ 2 ^ 31
  | .clear _, _ => True
  | .set i k _, v => k < (v i).length ∧ ¬ linked w i
  | .swap _ _, _ => True
  | .shrinkToFit _, _ => True
  | .destruct _, _ => True

/-- A history of calls, each within its contract, with any pattern of allocation failures; `ok = false` means
`bad_alloc` was thrown. The lists are those a user computes from the calls that returned. -/
inductive Hist (arr : Nat × Nat → Nat → List T) (w : World α) :
    List (Op T × Bool) → World α → (Nat → List T) → Prop where
  | nil : Hist arr w [] w (fun _ => [])
  | ok {w1 w2 ops op a v} : Hist arr w ops w1 v → Pre enc sz arr w1 op v →
      step enc sz rot w1 op a = some (true, w2) → Hist arr w (ops ++ [(op, true)]) w2 (op.apply arr v)
  | threw {w1 w2 ops op a v} : Hist arr w ops w1 v → Pre enc sz arr w1 op v →
      step enc sz rot w1 op a = some (false, w2) → Hist arr w (ops ++ [(op, false)]) w2 v

/-- What a user sees of vector `i`: `size()` and every element through `operator[]`. -/
def Shows (w : World α) (i : Nat) (xs : List T) : Prop :=
  (w.obj i).size / sz = xs.length ∧ ∀ k (h : k < xs.length), get sz w.heap (w.obj i) k = some (enc xs[k])

/-- Foreign memory is the same in both. -/
def SameForeign (h h' : Heap α) : Prop := ∀ id b, b.heap = false → (h'.blk id = some b ↔ h.blk id = some b)

end Ustl.VecLink
