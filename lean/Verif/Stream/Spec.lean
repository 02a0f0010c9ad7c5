import Verif.Stream.Model
import Verif.Utf8.Spec
/-! # Binary streams: specification -/
namespace Ustl.Stream

/-- The number of bytes from position `p` to the next multiple of `g`. -/
def pad (p g : Nat) : Nat := (g - p % g) % g

/-- The bytes of several values one after another; the format of each depends on its position. -/
def encAll {α : Type} (e : α → Nat → List Byte) : List α → Nat → List Byte
  | [], _ => []
  | x :: xs, p => e x p ++ encAll e xs (p + (e x p).length)

/-- A string: the UTF-8 form of its length (`Utf8.table`, C28), then its bytes. -/
def encStr (v : List Byte) : List Byte := Utf8.table v.length ++ v

/-- A memory block at position `p`: its size, its bytes, zeros up to a multiple of 4. -/
def encBlk (v : List Byte) (p : Nat) : List Byte :=
  leBytes 4 v.length ++ (v ++ List.replicate (pad (p + 4 + v.length) 4) 0)

/-- A pair at position `p`: the first member, zeros up to the alignment `gb` of the second, the second member, zeros
up to the alignment `ga` of the first. -/
def encPair {α β : Type} (ga gb : Nat) (ea : α → Nat → List Byte) (eb : β → Nat → List Byte) (v : α × β) (p : Nat) :
    List Byte :=
  let e1 := ea v.1 p
  let p1 := p + e1.length
  let p2 := p1 + pad p1 gb
  let e2 := eb v.2 p2
  let p3 := p2 + e2.length
  e1 ++ (List.replicate (pad p1 gb) 0 ++ (e2 ++ List.replicate (pad p3 ga) 0))

/-- A vector at position `p`: the number of elements, zeros up to the alignment of the elements if that exceeds 4,
the elements, zeros up to a multiple of 4. -/
def encVec {α : Type} (g : Nat) (el : α → Nat → List Byte) (v : List α) (p : Nat) : List Byte :=
  let k := if g > 4 then pad (p + 4) g else 0
  let p2 := p + 4 + k
  let e := encAll el v p2
  leBytes 4 v.length ++ (List.replicate k 0 ++ (e ++ List.replicate (pad (p2 + e.length) 4) 0))

/-- The stream format: the bytes that stand for `v` when they begin at position `p`. -/
def enc : (t : Ty) → Val t → Nat → List Byte
  | .int n, v, _ => leBytes n v
  | .bool, v, _ => let v : Bool := v; [bif v then 1 else 0]
  | .raw _ _, v, _ => v
  | .str, v, _ => encStr v
  | .blk, v, p => encBlk v p
  | .pair a b, v, p => encPair (al a) (al b) (enc a) (enc b) v p
  | .arr _ t, v, p => encAll (enc t) v p
  | .vec t, v, p => encVec (al t) (enc t) v p

/-- A grain the code uses. -/
def Grain (g : Nat) : Prop := g = 1 ∨ g = 2 ∨ g = 4 ∨ g = 8

instance (g : Nat) : Decidable (Grain g) := inferInstanceAs (Decidable (_ ∨ _))

/-- The types of the property: integers of 1, 2, 4 and 8 bytes, other fundamental types of alignment up to 8, and
everything built from them. -/
def WfTy : Ty → Prop
  | .int n => Grain n
  | .bool => True
  | .raw _ a => Grain a
  | .str => True
  | .blk => True
  | .pair a b => WfTy a ∧ WfTy b
  | .arr _ t => WfTy t
  | .vec t => WfTy t

instance decWfTy : (t : Ty) → Decidable (WfTy t)
  | .int n => inferInstanceAs (Decidable (Grain n))
  | .bool => inferInstanceAs (Decidable True)
  | .raw _ a => inferInstanceAs (Decidable (Grain a))
  | .str => inferInstanceAs (Decidable True)
  | .blk => inferInstanceAs (Decidable True)
  | .pair a b => @instDecidableAnd _ _ (decWfTy a) (decWfTy b)
  | .arr _ t => decWfTy t
  | .vec t => decWfTy t

/-- `v` is a value the type can hold and the format can express: integers fit their width, blocks and vectors have
fewer than 2^32 elements, strings fewer than 2^31 bytes, arrays have the declared number of elements. -/
def Okv : (t : Ty) → Val t → Prop
  | .int n, v => let v : Nat := v; v < 256 ^ n
  | .bool, _ => True
  | .raw n _, v => let v : List Byte := v; v.length = n
  | .str, v => let v : List Byte := v; v.length < 2 ^ 31
  | .blk, v => let v : List Byte := v; v.length < 2 ^ 32
  | .pair a b, v => let v : Val a × Val b := v; Okv a v.1 ∧ Okv b v.2
  | .arr n t, v => let v : List (Val t) := v; v.length = n ∧ ∀ x ∈ v, Okv t x
  | .vec t, v => let v : List (Val t) := v; v.length < 2 ^ 32 ∧ ∀ x ∈ v, Okv t x

/-- `Okv` is decidable (used by the examples). -/
def decOkv : (t : Ty) → (v : Val t) → Decidable (Okv t v)
  | .int n, v => Nat.decLt v (256 ^ n)
  | .bool, _ => instDecidableTrue
  | .raw n _, v => Nat.decEq (List.length (α := Byte) v) n
  | .str, v => Nat.decLt (List.length (α := Byte) v) (2 ^ 31)
  | .blk, v => Nat.decLt (List.length (α := Byte) v) (2 ^ 32)
  | .pair a b, v => @instDecidableAnd _ _ (decOkv a (Prod.fst (α := Val a) (β := Val b) v))
      (decOkv b (Prod.snd (α := Val a) (β := Val b) v))
  | .arr n t, v => @instDecidableAnd _ _ (Nat.decEq (List.length (α := Val t) v) n)
      (@List.decidableBAll (Val t) _ (decOkv t) v)
  | .vec t, v => @instDecidableAnd _ _ (Nat.decLt (List.length (α := Val t) v) (2 ^ 32))
      (@List.decidableBAll (Val t) _ (decOkv t) v)

instance (t : Ty) (v : Val t) : Decidable (Okv t v) := decOkv t v

/-- The alignment a value must start at for `stream_size` to be exact. -/
def need : Ty → Nat
  | .int _ => 1
  | .bool => 1
  | .raw _ _ => 1
  | .str => 1
  | .blk => 4
  | .pair a b => max (max (need a) (need b)) (max (al a) (al b))
  | .arr _ t => need t
  | .vec t => max 4 (max (need t) (al t))

/-- A number every stream size of the type is a multiple of. -/
def mult : Ty → Nat
  | .int n => n
  | .bool => 1
  | .raw _ _ => 1
  | .str => 1
  | .blk => 4
  | .pair a b => min (max (mult a) (al b)) (max (mult b) (al a))
  | .arr _ t => mult t
  | .vec _ => 4

/-- Types without hidden padding trouble: inside a container, each element leaves the stream where the next can
begin, and nothing in it asks for an alignment the container does not give. Vectors of integers, of strings, of
vectors of up to 4-byte integers, maps from strings to strings, from strings or integers of up to 4 bytes to
integers of up to 4 bytes are all in. -/
def Good : Ty → Prop
  | .int _ => True
  | .bool => True
  | .raw _ _ => True
  | .str => True
  | .blk => True
  | .pair a b => Good a ∧ Good b ∧ need b ≤ max (mult a) (al b) ∧ al a ≤ max (mult a) (al b)
  | .arr _ t => Good t ∧ need t ≤ mult t
  | .vec t => Good t ∧ need t ≤ mult t ∧ need t ≤ (if al t > 4 then 8 else 4)

instance decGood : (t : Ty) → Decidable (Good t)
  | .int _ => inferInstanceAs (Decidable True)
  | .bool => inferInstanceAs (Decidable True)
  | .raw _ _ => inferInstanceAs (Decidable True)
  | .str => inferInstanceAs (Decidable True)
  | .blk => inferInstanceAs (Decidable True)
  | .pair a b => @instDecidableAnd _ _ (decGood a) (@instDecidableAnd _ _ (decGood b) inferInstance)
  | .arr _ t => @instDecidableAnd _ _ (decGood t) inferInstance
  | .vec t => @instDecidableAnd _ _ (decGood t) inferInstance

/-- Arrays inside `v` have the number of elements their type says (true of every C++ object). -/
def Shape : (t : Ty) → Val t → Prop
  | .pair a b, v => Shape a (Prod.fst (α := Val a) (β := Val b) v) ∧ Shape b (Prod.snd (α := Val a) (β := Val b) v)
  | .arr n t, v => List.length (α := Val t) v = n ∧ ∀ x, List.Mem (α := Val t) x v → Shape t x
  | .vec t, v => ∀ x, List.Mem (α := Val t) x v → Shape t x
  | _, _ => True

/-- The room after a value that makes every size check inside pass, whatever the types: the sum over the
containers in it of the number of elements times the size of a default element. -/
def slack : (t : Ty) → Val t → Nat
  | .int _, _ => 0
  | .bool, _ => 0
  | .raw _ _, _ => 0
  | .str, _ => 0
  | .blk, _ => 0
  | .pair a b, v => let v : Val a × Val b := v; slack a v.1 + slack b v.2
  | .arr _ t, v => let v : List (Val t) := v; (v.map (slack t)).foldr (· + ·) 0
  | .vec t, v => let v : List (Val t) := v; v.length * ss t (dflt t) + (v.map (slack t)).foldr (· + ·) 0

/-- A stream of values of given types: what `os << v1 << v2 << ...` writes. -/
abbrev Item := (t : Ty) × Val t

/-- `os << v1 << v2 << ...`. -/
def writeItems : List Item → M OS Unit
  | [] => pure ()
  | ⟨t, v⟩ :: r => do write t v; writeItems r

/-- `is >> v1 >> v2 >> ...` into variables holding the given values. -/
def readItems (junk : List Byte) : List Item → M IS (List Item)
  | [] => pure []
  | ⟨t, o⟩ :: r => do
    let x ← read junk t o
    let xs ← readItems junk r
    pure (⟨t, x⟩ :: xs)

/-- An `istream` over what an `ostream` has written (`istream is (os)`). Models mistream.cc:26-30. -/
def OS.toIS (s : OS) : IS := { buf := s.buf.take s.pos }

end Ustl.Stream
