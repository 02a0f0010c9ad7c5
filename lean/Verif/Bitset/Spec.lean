import Verif.Bitset.Model
/-! # Specification: functions from positions below the size to Booleans -/
namespace Ustl.Bitset

/-- The bit a position of a textual bit string (most significant first) denotes: `'0'` is false, anything else true;
positions beyond the text are false. -/
def ofText (s : List Char) (n : Nat) : Bool := match s.reverse[n]? with
  | some c => decide (c ≠ '0')
  | none => false

/-- The effect of an operation on the bit vectors. `setRange` combines with OR (see `setRange_violated`). -/
def Op.apply : Op → (Nat → Nat → Bool) → (Nat → Nat → Bool)
  | .init i v, c => upd c i fun n => decide (n < 32) && v.toNat.testBit n
  | .ofString i s, c => upd c i (ofText s)
  | .set i n val, c => upd c i fun m => if m = n then val else c i m
  | .flip i n, c => upd c i fun m => if m = n then !c i m else c i m
  | .resetAll i, c => upd c i fun _ => false
  | .setAll i, c => upd c i fun _ => true
  | .flipAll i j, c => upd c j fun n => !c i n
  | .band i j k, c => upd c k fun n => c i n && c j n
  | .bor i j k, c => upd c k fun n => c i n || c j n
  | .bxor i j k, c => upd c k fun n => c i n != c j n
  | .setRange i first last v, c => upd c i fun n => c i n || (decide (first ≤ n ∧ n < last) && v.toNat.testBit (n - first))

/-- Contract of the calls: positions below the size; bit ranges within one word, the value fitting the range. -/
def Op.Pre (size : Nat) : Op → Prop
  | .set _ n _ | .flip _ n => n < size
  | .setRange _ first last v => first < last ∧ last ≤ size ∧ first % 32 + (last - first) ≤ 32 ∧ v.toNat < 2 ^ (last - first)
  | _ => True

/-- The operation leaves the positions from `size` to the end of the last word clear if they were. -/
def Op.Clean (size : Nat) : Op → Prop
  | .init _ v => v.toNat < 2 ^ size
  | .ofString _ s => s.length ≤ size
  | .setAll _ | .flipAll _ _ => size % 32 = 0
  | _ => True

/-- Histories of bitsets of `size` bits; `P` restricts the operations. -/
inductive Hist (size : Nat) (P : Op → Prop) : (Nat → List Word) → (Nat → Nat → Bool) → Prop where
  | nil : Hist size P (fun _ => init size 0#32) (fun _ _ => false)
  | step {w w' c} (op : Op) : Hist size P w c → op.Pre size → P op → Bitset.step size w op = some w' →
      Hist size P w' (op.apply c)

end Ustl.Bitset
