import Verif.Basic
/-!
# bitset (ubitset.h, ubitset.cc)

The words `_bits [s_nWords]` are a list of `BitVec 32`. `none` is an access outside the array, or an undefined shift.
`transform`, `equal` and `fill_n` over the whole array are the list functions they are proved to be in
`Verif.Forward` (C12, C11) and `Verif.Bytes` (C53).
-/
namespace Ustl.Bitset

/-- `bitset_value_type`. Models ubitset.h:14. -/
abbrev Word := BitVec 32

/-- `s_nWords`. Models ubitset.h:43-44. -/
def nWords (size : Nat) : Nat := size / 32 + if size % 32 ≠ 0 then 1 else 0

/-- `Mask (n)`. Models ubitset.h:49. -/
def mask (n : Nat) : Word := (1#32) <<< (n % 32)

/-- `bitset (v)`: the first word is `v`, the others zero. Models ubitset.h:52, 54. -/
def init (size : Nat) (v : Word) : List Word := v :: List.replicate (nWords size - 1) 0#32

/-- `test (n)`, `operator[]`, `at (n)`. Models ubitset.h:64-65, 99. -/
def test (ws : List Word) (n : Nat) : Option Bool :=
  match rd ws (n / 32) with
  | none => none
  | some w => some (decide (w &&& mask n ≠ 0#32))

/-- `set (n, val)` and `reset (n)`. Models ubitset.h:75-81, 91. -/
def set (ws : List Word) (n : Nat) (val : Bool) : Option (List Word) :=
  match rd ws (n / 32) with
  | none => none
  | some br => wr ws (n / 32) (if val then br ||| mask n else br &&& ~~~mask n)

/-- `flip (n)`. Models ubitset.h:57. -/
def flip (ws : List Word) (n : Nat) : Option (List Word) :=
  match rd ws (n / 32) with
  | none => none
  | some br => wr ws (n / 32) (br ^^^ mask n)

/-- `reset()`, `clear()`. Models ubitset.h:58-59. -/
def resetAll (size : Nat) : List Word := List.replicate (nWords size) 0#32
/-- `set()`: every word becomes `-1`. Models ubitset.h:60. -/
def setAll (size : Nat) : List Word := List.replicate (nWords size) (BitVec.allOnes 32)
/-- `flip()` and `operator~`. Models ubitset.h:61, 73. -/
def flipAll (ws : List Word) : List Word := ws.map (~~~ ·)
/-- `operator&`, `operator&=`. Models ubitset.h:112-113, 118-119. -/
def band (a b : List Word) : List Word := List.zipWith (· &&& ·) a b
/-- `operator|`, `operator|=`. Models ubitset.h:114-115, 120-121. -/
def bor (a b : List Word) : List Word := List.zipWith (· ||| ·) a b
/-- `operator^`, `operator^=`. Models ubitset.h:116-117, 122-123. -/
def bxor (a b : List Word) : List Word := List.zipWith (· ^^^ ·) a b

/-- `BitMask (value_type, n)`: a shift by `32 - n`, undefined for `n = 0` and wrapping for `n > 32`.
Models uutility.h:24. -/
def bitMask (n : Nat) : Option Word := if 0 < n ∧ n ≤ 32 then some (BitVec.allOnes 32 >>> (32 - n)) else none

/-- `set (first, last, v)`, the assertions being disabled in a release build. Models ubitset.h:83-89. -/
def setRange (ws : List Word) (first : Nat) (v : Word) : Option (List Word) :=
  match rd ws (first / 32) with
  | none => none
  | some br => wr ws (first / 32) (br ||| v <<< (first % 32))

/-- `at (first, last)`. Models ubitset.h:101-106. -/
def atRange (ws : List Word) (first last : Nat) : Option Word :=
  match rd ws (first / 32), bitMask (last - first) with
  | some br, some m => some ((br >>> (first % 32)) &&& m)
  | _, _ => none

/-- `to_value()`. Models ubitset.h:71. -/
def toValue (ws : List Word) : Option Word := rd ws 0

/-- `any()`. Models ubitset.h:107. -/
def any (ws : List Word) : Bool := decide (ws.foldl (· ||| ·) 0#32 ≠ 0#32)
/-- `none()`. Models ubitset.h:108. -/
def none' (ws : List Word) : Bool := !any ws

/-- `popcount`: the compiler's builtin, the number of ones (uutility.h, `__builtin_popcount`). -/
def popcount (w : Word) : Nat := (List.range 32).countP w.getLsbD
/-- `count()`. Models ubitset.h:109. -/
def count (ws : List Word) : Nat := ws.foldl (fun sum w => sum + popcount w) 0
/-- `operator==`. Models ubitset.h:110-111. -/
def eq (a b : List Word) : Bool := decide (a = b)

/-- The inner loop of `convert_to_bitstring` at bit `k` (`b = 1 << k`, zero when `k = 32`), `stri` being an index.
Models ubitset.cc:16-17. -/
def toStrInner (w : Word) (buf : List Char) (stri k : Nat) : Option (List Char × Nat) :=
  if k < 32 ∧ stri > 0 then
    match wr buf (stri - 1) (if w &&& ((1#32) <<< k) ≠ 0#32 then '1' else '0') with
    | none => none
    | some buf' => toStrInner w buf' (stri - 1) (k + 1)
  else some (buf, stri)
termination_by 32 - k

/-- `convert_to_bitstring`. Models ubitset.cc:12-18. -/
def toStr : List Word → List Char → Nat → Option (List Char × Nat)
  | [], buf, stri => some (buf, stri)
  | w :: ws, buf, stri =>
    if stri > 0 then
      match toStrInner w buf stri 0 with
      | none => none
      | some (buf', stri') => toStr ws buf' stri'
    else some (buf, stri)

/-- `to_string()`. Models ubitset.h:93-98. -/
def toString' (size : Nat) (ws : List Word) : Option (List Char) :=
  (toStr ws (List.replicate size '0') size).map (·.1)

/-- The inner loop of `convert_from_bitstring` at bit `k`. Models ubitset.cc:25-30. -/
def fromStrInner (buf : List Char) (w : Word) (stri k : Nat) : Option (Word × Nat) :=
  if k < 32 then
    if stri = 0 then fromStrInner buf (w &&& ~~~((1#32) <<< k)) stri (k + 1)
    else
      match rd buf (stri - 1) with
      | none => none
      | some c =>
        if c = '0' then fromStrInner buf (w &&& ~~~((1#32) <<< k)) (stri - 1) (k + 1)
        else fromStrInner buf (w ||| ((1#32) <<< k)) (stri - 1) (k + 1)
  else some (w, stri)
termination_by 32 - k

/-- `convert_from_bitstring`, over whatever the words held. Models ubitset.cc:21-32. -/
def fromStr (buf : List Char) : List Word → Nat → Option (List Word)
  | [], _ => some []
  | w :: ws, stri =>
    match fromStrInner buf w stri 0 with
    | none => none
    | some (w', stri') => (fromStr buf ws stri').map (w' :: ·)

/-- `bitset (buf)`; `old` is the uninitialised array. Models ubitset.h:56. -/
def ofString (old : List Word) (buf : List Char) : Option (List Word) := fromStr buf old buf.length

/-! ## Histories -/

/-- Operations on a family of bitsets of one size. -/
inductive Op where
  | init (i : Nat) (v : Word)
  | ofString (i : Nat) (s : List Char)
  | set (i n : Nat) (val : Bool)
  | flip (i n : Nat)
  | resetAll (i : Nat)
  | setAll (i : Nat)
  | flipAll (i j : Nat)
  | band (i j k : Nat)
  | bor (i j k : Nat)
  | bxor (i j k : Nat)
  | setRange (i first last : Nat) (v : Word)

/-- Replace one of a family. -/
def upd {β : Type _} (f : Nat → β) (i : Nat) (x : β) : Nat → β := fun k => if k = i then x else f k

/-- One operation: (re)construct, change a bit, or assign the result of an operator (`j = ~i`, `k = i & j`...).
Models ubitset.h:52-123. -/
def step (size : Nat) (w : Nat → List Word) : Op → Option (Nat → List Word)
  | .init i v => some (upd w i (init size v))
  | .ofString i s => (ofString (w i) s).map (upd w i)
  | .set i n val => (set (w i) n val).map (upd w i)
  | .flip i n => (flip (w i) n).map (upd w i)
  | .resetAll i => some (upd w i (resetAll size))
  | .setAll i => some (upd w i (setAll size))
  | .flipAll i j => some (upd w j (flipAll (w i)))
  | .band i j k => some (upd w k (band (w i) (w j)))
  | .bor i j k => some (upd w k (bor (w i) (w j)))
  | .bxor i j k => some (upd w k (bxor (w i) (w j)))
  | .setRange i first _ v => (setRange (w i) first v).map (upd w i)

end Ustl.Bitset
