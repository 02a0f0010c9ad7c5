import Verif.Vector.Model
import Verif.Memblock.Spec
/-!
# What a vector history means: lists of elements

`Op.apply` is the effect of a completed operation on the element lists, `Pre` the contract.
-/
namespace Ustl.Vector
open Ustl.Memblock
variable {β T : Type _} (enc : T → List β) (sz : Nat) (rot : List (Cell β) → Nat → Nat → Nat → Option (List (Cell β)))

/-- Replace the list of vector `i`. -/
def upd (v : Nat → List T) (i : Nat) (x : List T) : Nat → List T := fun k => if k = i then x else v k

/-- The effect of a completed operation on the lists. -/
def Op.apply : Op T → (Nat → List T) → (Nat → List T)
  | .reserve _ _, v => v
  | .append i xs, v => upd v i (v i ++ xs)
  | .popBack i, v => upd v i (v i).dropLast
  | .resize i n x, v => upd v i ((v i).take n ++ List.replicate (n - (v i).length) x)
  | .insert i ip xs, v => upd v i ((v i).take ip ++ xs ++ (v i).drop ip)
  | .erase i ep n, v => upd v i ((v i).take ep ++ (v i).drop (ep + n))
  | .assign i xs _, v => upd v i xs
  | .clear i, v => upd v i []
  | .set i k x, v => upd v i ((v i).set k x)
  | .swap i j, v => upd (upd v i (v j)) j (v i)
  | .shrinkToFit _, v => v
  | .destruct i, v => upd v i []

/-- The contract of each call, in terms of the element lists. Allocations are limited to `2^31` bytes
(above that `NextPow2` wraps, see `Ustl.Memblock.reserve_wraps_violated`). -/
def Pre : Op T → (Nat → List T) → Prop
  | .reserve _ n, _ => n * sz ≤ 2 ^ 31
  | .append i xs, v => ((v i).length + xs.length) * sz ≤ 2 ^ 31
  | .popBack i, v => v i ≠ []
  | .resize _ n _, _ => n * sz ≤ 2 ^ 31
  | .insert i ip xs, v => ip ≤ (v i).length ∧ ((v i).length + xs.length) * sz ≤ 2 ^ 31
  | .erase i ep n, v => ep + n ≤ (v i).length ∧ (v i).length * sz ≤ 2 ^ 31
  | .assign _ xs _, _ => xs.length * sz ≤ 2 ^ 31
  | .clear _, _ => True
  | .set i k _, v => k < (v i).length
  | .swap _ _, _ => True
  | .shrinkToFit _, _ => True
  | .destruct _, _ => True

/-- A history of vector operations with the allocator's answers (`a`) and the completion flags (`ok`;
`false` means `bad_alloc` was thrown), together with the lists a user computes from the calls that
returned. Each call is within its contract for those lists. -/
inductive Hist : World (Cell β) → List (Op T × Bool) → World (Cell β) → (Nat → List T) → Prop where
  | nil (w) : Hist w [] w (fun _ => [])
  | ok {w w1 w2 ops op a v} : Hist w ops w1 v → Pre sz op v → step enc sz rot w1 op a = some (true, w2) →
      Hist w (ops ++ [(op, true)]) w2 (op.apply v)
  | threw {w w1 w2 ops op a v} : Hist w ops w1 v → Pre sz op v → step enc sz rot w1 op a = some (false, w2) →
      Hist w (ops ++ [(op, false)]) w2 v

/-- What a user sees of vector `i`: `size()`, every element through `operator[]`, and
`size() <= capacity()`. -/
def Shows (w : World (Cell β)) (i : Nat) (xs : List T) : Prop :=
  (w.obj i).size / sz = xs.length ∧ (w.obj i).size ≤ (w.obj i).cap ∧
  ∀ k (h : k < xs.length), getElem sz w.heap (w.obj i) k = some ((enc xs[k]).map Cell.live)

/-- The start of a program: all vectors empty. -/
def Initial (w : World (Cell β)) : Prop := Memblock.Initial w

end Ustl.Vector
