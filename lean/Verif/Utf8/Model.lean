import Verif.Basic
import Verif.Str.Model
/-!
# utf8.h and the UTF-8 parts of string

`wchar_t` is 32 bits wide; a value is given by its `uint32_t` image, a `Nat` below 2^32. A left shift keeps the
low 32 bits; shifting by 32 or more is undefined (`none`). Bytes are `UInt8`. Iterators are indices into memory
and every dereference is checked by `rd`.
-/
namespace Ustl.Utf8

/-- A byte of encoded text. -/
abbrev Byte := UInt8

/-- `c_Bounds`. Models utf8.h:46. -/
def bounds : List Nat := [0x7F, 0x7FF, 0xFFFF, 0x1FFFFF, 0x3FFFFFF, 0x7FFFFFFF, 0xFFFFFFFF]

/-- `for (n = 0; c_Bounds[n++] < v;) {}`. The last bound is the largest `uint32_t`, so the array is not
overrun. Models utf8.h:47. -/
def boundLoop (v : Nat) : List Nat → Nat → Nat
  | [], n => n
  | b :: bs, n => if b < v then boundLoop v bs (n + 1) else n + 1

/-- `Utf8Bytes (v)`, portable build. Models utf8.h:35-50. -/
def utf8Bytes (v : Nat) : Nat := if v < 128 then 1 else boundLoop v bounds 0

/-- `Utf8Bytes (v)`, x86 build: `bsr`, add 4, divide by 5. Models utf8.h:37-44. -/
def utf8BytesX86 (v : Nat) : Nat := if v < 128 then 1 else (Nat.log2 v + 4) / 5

/-- `Utf8Bytes (first, last)`. Models utf8.h:53-59. -/
def utf8BytesRange (vs : List Nat) : Nat := vs.foldl (fun bc v => bc + utf8Bytes v) 0

/-- The loop counting the leading one bits, from the bit of weight `2^(k-1)` down (`mask = 0` at `k = 0`).
Models utf8.h:71-74. -/
def leadOnes (c : Nat) : Nat → Nat
  | 0 => 0
  | k + 1 => if c &&& 2 ^ k ≠ 0 then leadOnes c k + 1 else 0

/-- `Utf8SequenceBytes (c)`. Models utf8.h:62-76. -/
def seqBytes (c : Nat) : Nat := if leadOnes c 8 ≠ 0 then leadOnes c 8 else 1

/-- `v >> s` for a 32 bit `v`. -/
def shr (v s : Nat) : Option Nat := if s < 32 then some (v >>> s) else none

/-- `while (shift) *_i++ = ((v >> (shift -= 6)) & 0x3F) | 0x80` with `shift = 6 k`. Models utf8.h:188-189. -/
def outCont (v : Nat) : Nat → Option (List Byte)
  | 0 => some []
  | k + 1 =>
    match shr v (6 * k), outCont v k with
    | some x, some r => some (UInt8.ofNat ((x &&& 0x3F) ||| 0x80) :: r)
    | _, _ => none

/-- The bytes `utf8out_iterator::operator= (v)` writes through its iterator. Models utf8.h:180-193. -/
def out (v : Nat) : Option (List Byte) :=
  let n := utf8Bytes v
  if n > 1 then
    match shr v (6 * (n - 1)), outCont v (n - 1) with
    | some x, some r => some (UInt8.ofNat ((x &&& 0x3F) ||| (0xFF <<< (8 - n))) :: r)
    | _, _ => none
  else some [UInt8.ofNat v]

/-- Writing several values one after another, as `copy` to `utf8out` does. -/
def outAll : List Nat → Option (List Byte)
  | [] => some []
  | v :: vs =>
    match out v, outAll vs with
    | some a, some b => some (a ++ b)
    | _, _ => none

/-- `utf8in_iterator`: the position `_i` of the last byte consumed, and the value `_v`. Models utf8.h:122-123. -/
structure It where
  /-- position -/
  i : Nat
  /-- value -/
  v : Nat
deriving DecidableEq, Repr

/-- `while (--nBytes && *++_i) _v = (_v << 6) | (*_i & 0x3F)` with `k = nBytes - 1`. Models utf8.h:133-134. -/
def readLoop (m : List Byte) : Nat → Nat → Nat → Option It
  | 0, i, v => some ⟨i, v⟩
  | k + 1, i, v =>
    match rd m (i + 1) with
    | none => none
    | some b => if b = 0 then some ⟨i + 1, v⟩ else readLoop m k (i + 1) (((v <<< 6) % 2 ^ 32) ||| (b.toNat &&& 0x3F))

/-- `utf8in_iterator::Read`, also the constructor from a position. Models utf8.h:106, 128-135. -/
def read (m : List Byte) (i : Nat) : Option It :=
  match rd m i with
  | none => none
  | some c => readLoop m (seqBytes c.toNat - 1) i (c.toNat &&& (0xFF >>> seqBytes c.toNat))

/-- `operator++`. Models utf8.h:112. -/
def next (m : List Byte) (p : It) : Option It := read m (p.i + 1)

/-- `operator+= (n)`. Models utf8.h:114. -/
def plus (m : List Byte) (p : It) : Nat → Option It
  | 0 => some p
  | n + 1 => match next m p with
    | none => none
    | some q => plus m q n

/-- `base ()`; `none` if the pointer would leave the block. Models utf8.h:109. -/
def base (p : It) : Option Nat := if utf8Bytes p.v - 1 ≤ p.i then some (p.i - (utf8Bytes p.v - 1)) else none

theorem seqBytes_pos (c : Nat) : 0 < seqBytes c := by
  unfold seqBytes; split <;> omega

theorem readLoop_ge {m : List Byte} : ∀ (k i v : Nat) {q : It}, readLoop m k i v = some q → i ≤ q.i
  | 0, i, v, q, h => by cases h; exact Nat.le_refl _
  | k + 1, i, v, q, h => by
    unfold readLoop at h
    split at h
    · cases h
    · split at h
      · cases h; exact Nat.le_succ _
      · have := readLoop_ge k _ _ h; omega

theorem read_ge {m : List Byte} {i : Nat} {q : It} (h : read m i = some q) : i ≤ q.i := by
  unfold read at h
  split at h
  · cases h
  · exact readLoop_ge _ _ _ h

/-- The loop of `operator-`: characters from `first` to `last`. Models utf8.h:143-145. -/
def diffLoop (m : List Byte) (first last : Nat) : Option Nat :=
  if first < last then
    match rd m first with
    | none => none
    | some c => (diffLoop m (first + seqBytes c.toNat) last).map (· + 1)
  else some 0
termination_by last - first
decreasing_by have := seqBytes_pos c.toNat; omega

/-- `a - b`, also `distance (b, a)`. Models utf8.h:140-146. -/
def diff (m : List Byte) (a b : It) : Option Nat := diffLoop m b.i a.i

/-- `for (; p != end; ++p) collect (*p)`: what `copy (p, end, out)` transfers. Should `p` step over the end, the
loop would run away: `none`. Models utf8.h:111-117, ualgobase.h:77-83. -/
def collect (m : List Byte) (p : It) (e : Nat) : Option (List Nat) :=
  if p.i = e then some []
  else if e < p.i then none
  else
    match h : next m p with
    | none => none
    | some q => (collect m q e).map (p.v :: ·)
termination_by e - p.i
decreasing_by have := read_ge (show read m (p.i + 1) = some q from h); omega

/-- `string::length ()`: `distance (utf8_begin(), utf8_end())`. Models ustring.h:88-89, 100. -/
def length (m : List Byte) (b e : Nat) : Option Nat :=
  match read m b, read m e with
  | some p, some q => diff m q p
  | _, _ => none

/-- Iterating from `utf8_begin()` to `utf8_end()`. Models ustring.h:88-89. -/
def chars (m : List Byte) (b e : Nat) : Option (List Nat) :=
  match read m b, read m e with
  | some p, some q => collect m p q.i
  | _, _ => none

/-- `string::wiat (k)` of a string starting at `b`. Models ustring.cc:130-135. -/
def wiat (m : List Byte) (b k : Nat) : Option Nat :=
  match read m b with
  | none => none
  | some p =>
    match plus m p k with
    | none => none
    | some q => base q

/-- `string::insert (pos, n, wchar_t c)`: a hole of `n * Utf8Bytes (c)` bytes is filled through `utf8out`.
Models ustring.cc:144-151. -/
def insertWide (rot : List Byte → Nat → Nat → Nat → Option (List Byte)) (h : Memblock.Heap Byte) (o : Memblock.Obj)
    (pos n c : Nat) (a : Option (Nat → Byte)) : Str.Res :=
  match outAll (List.replicate n c) with
  | none => none
  | some bs => Str.thenStore (Str.thenStore (Memblock.insert 1 rot h o (Str.iat o pos) (n * utf8Bytes c) a)
      (fun _ => Str.iat o pos) bs) (fun o1 => o1.size) [0]

/-- `string::insert (pos, first, last, n)` for a range of wide characters. Models ustring.cc:154-167. -/
def insertWides (rot : List Byte → Nat → Nat → Nat → Option (List Byte)) (h : Memblock.Heap Byte) (o : Memblock.Obj)
    (pos : Nat) (vs : List Nat) (n : Nat) (a : Option (Nat → Byte)) : Str.Res :=
  match outAll (List.replicate n vs).flatten with
  | none => none
  | some bs => Str.thenStore (Str.thenStore (Memblock.insert 1 rot h o (Str.iat o pos)
      (n * (vs.map utf8Bytes).sum) a) (fun _ => Str.iat o pos) bs) (fun o1 => o1.size) [0]

end Ustl.Utf8
