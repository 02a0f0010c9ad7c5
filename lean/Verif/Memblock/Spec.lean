import Verif.Memblock.Model
/-!
# What a memblock history means: byte strings

`Spec` says, for each operation, how the visible byte strings of the objects change when it returns; it
mentions neither pointers nor capacities. `Pre` is the API's contract (the asserts) plus two further
limits the code needs.
-/
namespace Ustl.Memblock
variable {α : Type _}

/-- `new` is `old` cut or extended (by unspecified bytes) to `n` bytes. -/
def Resized (old new : List α) (n : Nat) : Prop :=
  new.length = n ∧ new.take old.length = old.take n

/-- Object `i` changed to `x`, every other object kept its bytes. -/
def Only (v v' : Nat → List α) (i : Nat) (x : List α) : Prop :=
  v' i = x ∧ ∀ k, k ≠ i → v' k = v k

/-- The effect of a completed operation on the visible byte strings `v`; `fm p n` are the foreign bytes
at `p`. -/
def Spec (fm : Nat × Nat → Nat → List α) (op : Op α) (v v' : Nat → List α) : Prop :=
  match op with
  | .reserve _ _ _ => v' = v
  | .resize i n _ => ∃ x, Resized (v i) x n ∧ Only v v' i x
  | .assignForeign i p n => Only v v' i (fm p n)
  | .assignObj i j => Only v v' i (v j)
  | .insert i ip n => ∃ hole, hole.length = n ∧ Only v v' i ((v i).take ip ++ hole ++ (v i).drop ip)
  | .erase i ep n => Only v v' i ((v i).take ep ++ (v i).drop (ep + n))
  | .clear i => Only v v' i []
  | .linkForeign i p n => Only v v' i (fm p n)
  | .unlink i => Only v v' i []
  | .manage i bytes => Only v v' i bytes
  | .copyLink _ => v' = v
  | .deallocate i => Only v v' i []
  | .shrinkToFit _ => v' = v
  | .swap i j => v' i = v j ∧ v' j = v i ∧ ∀ k, k ≠ i → k ≠ j → v' k = v k
  | .poke i k x => Only v v' i ((v i).set k x)

/-- Foreign memory as seen by the program. -/
def foreign (h : Heap α) (p : Nat × Nat) (n : Nat) : List α :=
  match h.blk p.1 with
  | some b => (b.bytes.drop p.2).take n
  | none => []

/-- The foreign bytes `[p, p + n)` exist and so does the byte after them (a NUL-terminated string, say).
That extra byte is what `reserve` needs, see `copy_link_overread_violated`. -/
def PaddedForeign (h : Heap α) (p : Nat × Nat) (n : Nat) : Prop :=
  ∃ b, h.blk p.1 = some b ∧ b.heap = false ∧ p.2 + n < b.bytes.length

/-- The contract under which the operations are called. Rounding up is done in 32 bits, so requests that
round are limited to `2^31` (see `reserve_wraps_violated`); `reserve` on a linked block must not ask for
less than its size (see `reserve_linked_violated`); self-assignment of a block without its free capacity
(`mf ≠ 0`, after `shrink_to_fit`) is excluded because it would reallocate before copying
(see `self_assign_violated`). -/
def Pre (mf : Nat) (w : World α) (op : Op α) : Prop :=
  match op with
  | .reserve i n e => (e = false → n + mf ≤ 2 ^ 31) ∧ ((w.obj i).cap = 0 → (w.obj i).size ≤ n)
  | .resize _ n e => e = false → n + mf ≤ 2 ^ 31
  | .assignForeign _ p n => PaddedForeign w.heap p n
  | .assignObj i j => i = j → mf = 0 ∨ (w.obj i).cap = 0 ∨ (w.obj i).size + mf ≤ (w.obj i).cap
  | .insert i ip n => ip ≤ (w.obj i).size ∧ (w.obj i).size + n + mf ≤ 2 ^ 31
  | .erase i ep n => ep + n ≤ (w.obj i).size ∧ (w.obj i).size + mf ≤ 2 ^ 31
  | .clear _ => True
  | .linkForeign _ p n => PaddedForeign w.heap p n
  | .unlink _ => True
  | .manage i bytes => (w.obj i).cap = 0 ∧ bytes ≠ []
  | .copyLink i => (w.obj i).size + mf ≤ 2 ^ 31
  | .deallocate _ => True
  | .shrinkToFit _ => True
  | .swap _ _ => True
  | .poke i k _ => (w.obj i).cap ≠ 0 ∧ k < (w.obj i).size

/-- A history: operations with the allocator's answers and the observed completion flags, each called
within its contract. -/
inductive Hist (mf : Nat) (rot : List α → Nat → Nat → Nat → Option (List α)) :
    World α → List (Op α × Bool) → World α → Prop where
  | nil (w) : Hist mf rot w [] w
  | snoc {w w1 w2 ops op a ok} : Hist mf rot w ops w1 → Pre mf w1 op → step mf rot w1 op a = some (ok, w2) →
      Hist mf rot w (ops ++ [(op, ok)]) w2

/-- The byte-string meaning of a history: completed operations act by `Spec`, operations that threw do
nothing. -/
inductive SpecHist (fm : Nat × Nat → Nat → List α) :
    (Nat → List α) → List (Op α × Bool) → (Nat → List α) → Prop where
  | nil (v) : SpecHist fm v [] v
  | ok {v v1 v2 ops op} : SpecHist fm v ops v1 → Spec fm op v1 v2 → SpecHist fm v (ops ++ [(op, true)]) v2
  | threw {v v1 ops op} : SpecHist fm v ops v1 → SpecHist fm v (ops ++ [(op, false)]) v1

/-- The start of a program: some foreign memory, no malloc'ed blocks, all objects empty. -/
def Initial (w : World α) : Prop :=
  (∀ k, w.obj k = Obj.empty) ∧ (∀ id, w.heap.next ≤ id → w.heap.blk id = none) ∧
  (∀ id b, w.heap.blk id = some b → b.heap = false)

/-- A build's `rotate` on bytes is correct: it exchanges two adjacent non-empty ranges of the block. -/
def RotateOK (rot : List α → Nat → Nat → Nat → Option (List α)) : Prop :=
  ∀ pre a b post : List α, rot (pre ++ a ++ b ++ post) pre.length (pre.length + a.length)
    (pre.length + a.length + b.length) = some (pre ++ b ++ a ++ post)

/-- Ownership: an object that owns memory points to the start of a live malloc'ed block of exactly its
capacity, which no other object owns; its size does not exceed the capacity; an object that owns nothing is
empty or points into foreign memory. -/
structure Owns (w : World α) : Prop where
  owned : ∀ i, (w.obj i).cap ≠ 0 → ∃ id b, (w.obj i).ptr = some (id, 0) ∧ w.heap.blk id = some b ∧
    b.heap = true ∧ b.bytes.length = (w.obj i).cap ∧ (w.obj i).size ≤ (w.obj i).cap
  linked : ∀ i, (w.obj i).cap = 0 → ((w.obj i).ptr = none ∧ (w.obj i).size = 0) ∨
    ∃ p, (w.obj i).ptr = some p ∧ PaddedForeign w.heap p (w.obj i).size
  unique : ∀ i j, i ≠ j → (w.obj i).cap ≠ 0 → (w.obj j).cap ≠ 0 → (w.obj i).ptr ≠ (w.obj j).ptr

end Ustl.Memblock
