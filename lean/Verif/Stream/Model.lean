import Verif.Basic
import Verif.Utf8.Model
/-!
# Binary streams (mistream.h, mistream.cc, mostream.h, uios.h, uctrstrm.h, strmsize.h and the `read`/`write`
members that use them)

A stream operation takes the stream to one of three outcomes: it returns, it throws `stream_bounds_exception`
(leaving the stream in a state the caller can catch and look at), or it touches memory outside the linked block
(`oob`, undefined behaviour). `streamsize`, `uoff_t` and `size_t` are 64 bits wide and their arithmetic wraps.
`WANT_STREAM_BOUNDS_CHECKING` is on (the default build). `assert`s are compiled out, as in a release build. The
machine is little-endian. Allocation inside `resize` is taken to succeed.
-/
namespace Ustl.Stream

/-- A byte. -/
abbrev Byte := UInt8

/-- 2^64: `size_t` arithmetic is modulo this. -/
abbrev W : Nat := 2 ^ 64

/-- The outcome of an operation on a stream `σ`. -/
inductive Out (σ α : Type) where
  /-- returned -/
  | ret (a : α) (s : σ)
  /-- threw `stream_bounds_exception` -/
  | exn (s : σ)
  /-- accessed memory outside the linked block -/
  | oob
deriving DecidableEq, Repr

/-- An operation on a stream. -/
def M (σ α : Type) := σ → Out σ α

instance {σ : Type} : Monad (M σ) where
  pure a := fun s => .ret a s
  bind m f := fun s => match m s with
    | .ret a s' => f a s'
    | .exn s' => .exn s'
    | .oob => .oob

/-- `ios_base`: the state bits and the bits that make an operation throw. Models uios.h:59-97
(`goodbit = 0`, `badbit = 1`, `eofbit = 2`, `failbit = 4`). -/
structure Ios where
  /-- `_state` -/
  state : Nat := 0
  /-- `_exceptions`, `allbadbits` by default (uios.h:79) -/
  exc : Nat := 7
deriving DecidableEq, Repr

/-- `ios_base::overrun`: set `failbit`, and `eofbit` when nothing remained; then throw if `exceptions()` has one
of the bits. Models mistream.cc:17-21, uios.h:88 (`setstate`), 92 (`set_and_throw`). The result says whether it
throws. The parameter `rem` is a `uint32_t`. -/
def Ios.overrun (i : Ios) (rem : Nat) : Ios × Bool :=
  let v := if rem % 2 ^ 32 ≠ 0 then 4 else 6
  (⟨i.state ||| v, i.exc⟩, i.exc &&& v ≠ 0)

/-- `fail()`. Models uios.h:83. -/
def Ios.fail (i : Ios) : Bool := i.state &&& 5 ≠ 0

/-- `eof()`. Models uios.h:84. -/
def Ios.eof (i : Ios) : Bool := i.state &&& 2 ≠ 0

/-- `AlignDown (n, grain)`. Models uutility.h:65-67. -/
def alignDown (n g : Nat) : Nat := n - n % g

/-- `Align (n, grain)` on `size_t`. Models uutility.h:70-72. -/
def align (n g : Nat) : Nat := alignDown ((n + (g - 1)) % W) g

/-- `n` bytes from position `p` of the block; `none` if they are not all inside. -/
def slice (b : List Byte) (p n : Nat) : Option (List Byte) :=
  if p + n ≤ b.length then some ((b.drop p).take n) else none

/-- Store `d` at position `p` of the block; `none` if it does not fit inside. -/
def store (b : List Byte) (p : Nat) (d : List Byte) : Option (List Byte) :=
  if p + d.length ≤ b.length then some (b.take p ++ d ++ b.drop (p + d.length)) else none

/-! ## istream -/

/-- `istream`: the linked bytes, the position, and `ios_base`. Models mistream.h:63-106. -/
structure IS where
  /-- the linked block -/
  buf : List Byte
  /-- `_pos` -/
  pos : Nat := 0
  /-- state and exception bits -/
  ios : Ios := {}
deriving DecidableEq, Repr

/-- `remaining()`. Models mistream.h:79. -/
def IS.remaining (s : IS) : Nat := (s.buf.length + W - s.pos) % W

/-- Call `overrun` and, if it does not throw, return `a`. -/
def IS.over {α : Type} (a : α) (rem : Nat) : M IS α := fun s =>
  match s.ios.overrun rem with
  | (i, true) => .exn { s with ios := i }
  | (i, false) => .ret a { s with ios := i }

/-- `verify_remaining (n)`. Models mistream.h:172-178. -/
def IS.verify (n : Nat) : M IS Bool := fun s =>
  if n ≤ s.remaining then .ret true s else IS.over false s.remaining s

/-- `seek (newPos)`. Models mistream.h:181-190. -/
def IS.seek (p : Nat) : M IS Unit := fun s =>
  if p > s.buf.length then IS.over () s.buf.length s else .ret () { s with pos := p }

/-- `skip (n)`. Models mistream.h:209-212. -/
def IS.skip (n : Nat) : M IS Unit := fun s => IS.seek ((s.pos + n) % W) s

/-- `align (grain)`: on the position. A grain of 0 divides by zero. Models mistream.h:215-218. -/
def IS.align (g : Nat) : M IS Unit := fun s => if g = 0 then .oob else IS.seek (Stream.align s.pos g) s

/-- `seekdir`. Models uios.h:53-57. -/
inductive Dir where
  /-- from the beginning -/
  | beg
  /-- from the current position -/
  | cur
  /-- from the end, backwards -/
  | fin
deriving DecidableEq, Repr

/-- An `off_t` converted to `uoff_t`. -/
def u64 (i : Int) : Nat := (i % (W : Int)).toNat

/-- `seekg (p, d)`. Models mistream.h:199-206. -/
def IS.seekg (p : Int) (d : Dir) : M IS Unit := fun s =>
  match d with
  | .beg => IS.seek (u64 p) s
  | .cur => IS.seek (u64 (s.pos + p)) s
  | .fin => IS.seek (u64 (s.buf.length - p)) s

/-- `pos() - 1`, as unsigned arithmetic. Models mistream.h:101. -/
def IS.back (s : IS) : Nat := (s.pos + (W - 1)) % W

/-- `ungetc ()`. Models mistream.h:101. -/
def IS.ungetc : M IS Unit := fun s => IS.seek s.back s

/-- Copy `n` bytes out and advance, without any check: the `memcpy` or the pointer cast behind `read` and `iread`.
Models mistream.h:231-232, 244-245. -/
def IS.take (n : Nat) : M IS (List Byte) := fun s =>
  match slice s.buf s.pos n with
  | none => .oob
  | some d => .ret d { s with pos := (s.pos + n) % W }

/-- `read (buffer, n)` into a buffer that held `old`: the new contents of the buffer. When it fails without
throwing, the buffer is untouched. Models mistream.h:236-246. -/
def IS.read (old : List Byte) (n : Nat) : M IS (List Byte) := do
  if ← IS.verify n then IS.take n else pure old

/-- The value of `n` little-endian bytes. -/
def leVal : List Byte → Nat
  | [] => 0
  | b :: bs => b.toNat + 256 * leVal bs

/-- The `n` little-endian bytes of `v`. -/
def leBytes : Nat → Nat → List Byte
  | 0, _ => []
  | n + 1, v => UInt8.ofNat v :: leBytes n (v / 256)

/-- `iread (v)` of an object of `n` bytes that held `old`: its new memory image. Models mistream.h:221-233. -/
def IS.iread (old : List Byte) (n : Nat) : M IS (List Byte) := do
  if ← IS.verify n then IS.take n else pure old

/-- `is >> v` for an unsigned integer of `n` bytes that held `old`. Models mistream.h:250-262. -/
def IS.readInt (n old : Nat) : M IS Nat := do
  if ← IS.verify n then
    let d ← IS.take n
    pure (leVal d)
  else pure old

/-- `underflow (n)`. Models mistream.cc:68-72. -/
def IS.underflow (n : Nat) : M IS Nat := do
  let _ ← IS.verify n
  fun s => .ret s.remaining s

/-- `readsome (s, n)`: the bytes it stored (the return value is their number). Models mistream.cc:59-66. -/
def IS.readsome (n : Nat) : M IS (List Byte) := do
  let r ← fun s => .ret s.remaining s
  if r < n then let _ ← IS.underflow n
  let r ← fun s => .ret s.remaining s
  IS.read [] (min n r)

/-- The number of bytes before the first NUL, or all of them if there is none. `find (ipos(), end(), '\0')` runs `while (first != last && !(*first == 0)) ++first`.
Models mistream.cc:50, ualgo.h:28-34. -/
def findNul : List Byte → Nat
  | [] => 0
  | b :: bs => if b = 0 then 0 else findNul bs + 1

/-- `read_strz (str)`: the string read. If there is no NUL, `zp = ipos()`, so the string is empty and the position
moves by one. Models mistream.cc:48-56. The loop of `find` stops only at the end or at a NUL, so a position beyond
the end makes it leave the block. -/
def IS.readStrz : M IS (List Byte) := fun s =>
  if s.pos ≤ s.buf.length then
    let k := findNul (s.buf.drop s.pos)
    let strl := if s.pos + k = s.buf.length then 0 else k
    .ret ((s.buf.drop s.pos).take strl) { s with pos := (s.pos + (strl + 1)) % W }
  else .oob

/-! ## ostream -/

/-- `ostream`: the linked bytes, the address of the first, the position, and `ios_base`.
Models mostream.h:51-97. -/
structure OS where
  /-- the linked block -/
  buf : List Byte
  /-- the address of `begin()` -/
  base : Nat := 0
  /-- `_pos` -/
  pos : Nat := 0
  /-- state and exception bits -/
  ios : Ios := {}
deriving DecidableEq, Repr

/-- `remaining()`. Models mostream.h:64. -/
def OS.remaining (s : OS) : Nat := (s.buf.length + W - s.pos) % W

/-- Call `overrun` and, if it does not throw, return `a`. -/
def OS.over {α : Type} (a : α) (rem : Nat) : M OS α := fun s =>
  match s.ios.overrun rem with
  | (i, true) => .exn { s with ios := i }
  | (i, false) => .ret a { s with ios := i }

/-- `verify_remaining (n)`. Models mostream.h:150-156. -/
def OS.verify (n : Nat) : M OS Bool := fun s =>
  if n ≤ s.remaining then .ret true s else OS.over false s.remaining s

/-- `seek (newPos)`. Models mostream.h:159-168. -/
def OS.seek (p : Nat) : M OS Unit := fun s =>
  if p > s.buf.length then OS.over () s.buf.length s else .ret () { s with pos := p }

/-- `skip (n)`. Models mostream.h:187-190. -/
def OS.skip (n : Nat) : M OS Unit := fun s => OS.seek ((s.pos + n) % W) s

/-- `seekp (p, d)`. Models mostream.h:177-184. -/
def OS.seekp (p : Int) (d : Dir) : M OS Unit := fun s =>
  match d with
  | .beg => OS.seek (u64 p) s
  | .cur => OS.seek (u64 (s.pos + p)) s
  | .fin => OS.seek (u64 (s.buf.length - p)) s

/-- Copy bytes in and advance, without any check. Models mostream.h:201-202, 222-223, mistream.cc:89-90. -/
def OS.put (d : List Byte) : M OS Unit := fun s =>
  match store s.buf s.pos d with
  | none => .oob
  | some b => .ret () { s with buf := b, pos := (s.pos + d.length) % W }

/-- `write (buffer, n)`, and `iwrite (v)` with `d` the memory image of `v`. Models mostream.h:193-203, 212-224. -/
def OS.write (d : List Byte) : M OS Unit := do
  if ← OS.verify d.length then OS.put d else pure ()

/-- `nb` in `ostream::align`: the distance from the address of the write position to the next multiple of `g`.
Models mistream.cc:80-82. -/
def OS.padding (s : OS) (g : Nat) : Nat := (s.base + s.pos + (g - 1)) / g * g - (s.base + s.pos)

/-- `align (grain)`: on the address of the write position; the skipped bytes are zeroed. Models mistream.cc:77-91;
the `& ~(grain-1)` of the code is rounding down because the grain is a power of two (line 79), and the address does
not wrap because the block is inside the address space. -/
def OS.align (g : Nat) : M OS Unit := fun s => OS.write (List.replicate (s.padding g) 0) s

/-- `write_strz (str)`. Models mistream.cc:94-97. -/
def OS.writeStrz (str : List Byte) : M OS Unit := OS.write (str ++ [0])

/-- `insert (start, n)`: first the position moves, then `memlink::insert` moves the bytes from `start` on up by
`n`, inside the block. Models mistream.cc:113-117, memlink.h:75-82 (`rotate (start, end() - n,
end())`). A request for more bytes than there are after `start` leaves the block. -/
def OS.insert (start n : Nat) : M OS Unit := fun s =>
  if start + n ≤ s.buf.length then
    let tail := s.buf.drop start
    .ret () { s with
      buf := s.buf.take start ++ tail.drop (tail.length - n) ++ tail.take (tail.length - n)
      pos := (s.pos + n) % W }
  else .oob

/-- `erase (start, n)`: the position moves back, the bytes after the erased ones move down.
Models mistream.cc:120-124, memlink.h:86-93 (`rotate (start, start + n, end())`). -/
def OS.erase (start n : Nat) : M OS Unit := fun s =>
  if start + n ≤ s.buf.length then
    let tail := s.buf.drop start
    .ret () { s with buf := s.buf.take start ++ tail.drop n ++ tail.take n, pos := (s.pos + W - n) % W }
  else .oob

/-! ## Values -/

/-- The streamable types. -/
inductive Ty where
  /-- an unsigned integer of `n` bytes; `__alignof__` equals its size -/
  | int (n : Nat)
  /-- `bool`, cast to `uint8_t` -/
  | bool
  /-- any other fundamental or `INTEGRAL_STREAMABLE` type: `n` bytes, alignment `a` (float, tuple of integers) -/
  | raw (n a : Nat)
  /-- `string` -/
  | str
  /-- `memblock` -/
  | blk
  /-- `pair<A,B>` -/
  | pair (a b : Ty)
  /-- `array<T,N>`, `bitset` (an array of words): fixed-size container -/
  | arr (n : Nat) (t : Ty)
  /-- `vector<T>`, `set<T>`, `map<K,V>` (a vector of pairs) -/
  | vec (t : Ty)
deriving DecidableEq, Repr

/-- The values of a type. -/
def Val : Ty → Type
  | .int _ => Nat
  | .bool => Bool
  | .raw _ _ => List Byte
  | .str => List Byte
  | .blk => List Byte
  | .pair a b => Val a × Val b
  | .arr _ t => List (Val t)
  | .vec t => List (Val t)

/-- Values compare decidably (used by the examples). -/
def Val.decEq : (t : Ty) → DecidableEq (Val t)
  | .int _ => inferInstanceAs (DecidableEq Nat)
  | .bool => inferInstanceAs (DecidableEq Bool)
  | .raw _ _ => inferInstanceAs (DecidableEq (List Byte))
  | .str => inferInstanceAs (DecidableEq (List Byte))
  | .blk => inferInstanceAs (DecidableEq (List Byte))
  | .pair a b => @instDecidableEqProd _ _ (Val.decEq a) (Val.decEq b)
  | .arr _ t => @instDecidableEqList _ (Val.decEq t)
  | .vec t => @instDecidableEqList _ (Val.decEq t)

instance {t : Ty} : DecidableEq (Val t) := Val.decEq t

/-- `T()`: the default-constructed value. -/
def dflt : (t : Ty) → Val t
  | .int _ => (0 : Nat)
  | .bool => false
  | .raw n _ => List.replicate n (0 : Byte)
  | .str => ([] : List Byte)
  | .blk => ([] : List Byte)
  | .pair a b => (dflt a, dflt b)
  | .arr n t => List.replicate n (dflt t)
  | .vec _ => []

/-- `stream_align_of`: the alignment of a fundamental type, 1 for `string` and `bool`, otherwise 4.
Models strmsize.h:32-38, uspecial.h:107-112, 236-238. -/
def al : Ty → Nat
  | .int n => n
  | .bool => 1
  | .raw _ a => a
  | .str => 1
  | .blk => 4
  | .pair _ _ => 4
  | .arr _ _ => 4
  | .vec _ => 4

/-- `nr_container_stream_size`, given the sizes of the elements: the sum; if the compiler knows the size of one
element to be a constant (`cp`), the first size times their number. Models uctrstrm.h:44-59. -/
def nrSize (cp : Bool) (sizes : List Nat) : Nat :=
  match sizes with
  | [] => 0
  | s :: _ => if cp then s * sizes.length else sizes.foldl (· + ·) 0

/-- `__builtin_constant_p (stream_size_of (element))`: taken to hold exactly for the fundamental types.
Models uctrstrm.h:55-57. -/
def constSize : Ty → Bool
  | .int _ => true
  | .bool => true
  | .raw _ _ => true
  | _ => false

/-- `cmemlink::stream_size`. Models cmemlink.cc:43-47. -/
def ssBlk (v : List Byte) : Nat := align (4 + v.length % 2 ^ 32) 4

/-- `container_stream_size`, with `g` the alignment of the elements and `k` the sum of their sizes.
Models uctrstrm.h:100-110. -/
def ssVec (g k : Nat) : Nat := align ((if g > 4 then align 4 g else 4) + k) 4

/-- `pair::stream_size`. Models uspecial.h:64-69. -/
def ssPair (ga gb ka kb : Nat) : Nat := align ka gb + align kb ga

/-- `stream_size_of (v)`. Models strmsize.h:16-28 (fundamental types), uspecial.h:239 (`bool`), ustring.cc:350-353,
uarray.h:69, uvector.h:108. Sizes are taken not to exceed the address space, so the sums do not wrap. -/
def ss : (t : Ty) → Val t → Nat
  | .int n, _ => n
  | .bool, _ => 1
  | .raw n _, _ => n
  | .str, v => Utf8.utf8Bytes (List.length (α := Byte) v) + List.length (α := Byte) v
  | .blk, v => ssBlk v
  | .pair a b, v => ssPair (al a) (al b) (ss a (Prod.fst (α := Val a) (β := Val b) v))
      (ss b (Prod.snd (α := Val a) (β := Val b) v))
  | .arr _ t, v => nrSize (constSize t) (List.map (α := Val t) (ss t) v)
  | .vec t, v => ssVec (al t) (nrSize (constSize t) (List.map (α := Val t) (ss t) v))

/-- The element loop of `nr_container_write`. Models uctrstrm.h:35-41. -/
def writeAll {α : Type} (w : α → M OS Unit) : List α → M OS Unit
  | [] => pure ()
  | x :: xs => do w x; writeAll w xs

/-- The element loop of `nr_container_read`, over the elements the container holds. Models uctrstrm.h:26-32. -/
def readAll {α : Type} (r : α → M IS α) : List α → M IS (List α)
  | [] => pure []
  | x :: xs => do
    let y ← r x
    let ys ← readAll r xs
    pure (y :: ys)

/-- A `size_t` converted to `written_size_type`, a `uint32_t` (cmemlink.h:45). -/
def u32 (n : Nat) : Nat := n % 2 ^ 32

/-- `string::write`. Models ustring.cc:370-382. `out` is `none` for lengths from 2^31 on (undefined shift). -/
def writeStr (v : List Byte) : M OS Unit := do
  match Utf8.out (u32 v.length) with
  | none => fun _ => .oob
  | some szbuf =>
    if ← OS.verify (szbuf.length + u32 v.length) then
      OS.write szbuf
      OS.write (v.take (u32 v.length))
    else pure ()

/-- `cmemlink::write`, which `memblock` inherits. Models cmemlink.cc:27-34. -/
def writeBlk (v : List Byte) : M OS Unit := do
  OS.write (leBytes 4 (u32 v.length))
  OS.write (v.take (u32 v.length))
  OS.align 4

/-- `pair::write`, with `ga` and `gb` the alignments of the members. Models uspecial.h:54-61. -/
def writePair {α β : Type} (ga gb : Nat) (wa : α → M OS Unit) (wb : β → M OS Unit) (v : α × β) : M OS Unit := do
  wa v.1
  OS.align gb
  wb v.2
  OS.align ga

/-- `container_write`, with `g` the alignment of the elements. Models uctrstrm.h:85-97. -/
def writeVec {α : Type} (g : Nat) (w : α → M OS Unit) (v : List α) : M OS Unit := do
  OS.write (leBytes 4 (u32 v.length))
  if g > 4 then OS.align g
  writeAll w v
  OS.align 4

/-- `os << v`. Models mostream.h:228-240 (fundamental types through `iwrite`, others through their `write`),
uspecial.h:239 with strmsize.h:70-75 (`bool`), uarray.h:67 (`array`), uvector.h:106. -/
def write : (t : Ty) → Val t → M OS Unit
  | .int n, v => OS.write (leBytes n v)
  | .bool, v => let v : Bool := v; OS.write [bif v then 1 else 0]
  | .raw _ _, v => OS.write v
  | .str, v => writeStr v
  | .blk, v => writeBlk v
  | .pair a b, v => writePair (al a) (al b) (write a) (write b) v
  | .arr _ t, v => writeAll (write t) v
  | .vec t, v => writeVec (al t) (write t) v

/-- `wchar_t` to `size_t`: sign extension of 32 bits. -/
def sext (v : Nat) : Nat := if v < 2 ^ 31 then v else v + (W - 2 ^ 32)

/-- The end of `string::read` into a string holding `old`, when the length `n` is decoded. Models ustring.cc:364-366. -/
def strBody (old : List Byte) (n : Nat) : M IS (List Byte) := do
  if ← IS.verify n then IS.read ((old ++ List.replicate (n - old.length) 0).take n) n else pure old

/-- `n = *utf8in (szbuf)` and the rest; `szbuf` holds `b0`, the bytes `bs` just read, and what was there before.
Models ustring.cc:363-366. -/
def strDecode (junk old b0 : List Byte) (z : Nat) (bs : List Byte) : M IS (List Byte) :=
  match Utf8.read (b0 ++ bs ++ junk.drop (1 + z)) 0 with
  | none => fun _ => .oob
  | some it => strBody old (sext it.v)

/-- `string::read` after the first byte, with `z` more bytes of length to read. Models ustring.cc:361-366. -/
def strTail (junk old b0 : List Byte) (z : Nat) : M IS (List Byte) := do
  if ← IS.verify z then
    let bs ← IS.read ((junk.drop 1).take z) z
    strDecode junk old b0 z bs
  else pure old

/-- `Utf8SequenceBytes (szbuf[0]) - 1`. Models ustring.cc:360. -/
def lenMore (b0 : List Byte) : Nat := match b0 with | [] => 0 | b :: _ => Utf8.seqBytes b.toNat - 1

/-- `string::read` into a string holding `old`; `junk` is what the uninitialised `szbuf [8]` holds. The length is
decoded from `szbuf` alone. A failed first read leaves `szbuf[0]` as it was. Models ustring.cc:356-367. -/
def readStr (junk : List Byte) (old : List Byte) : M IS (List Byte) := do
  let b0 ← IS.iread (junk.take 1) 1
  strTail junk old b0 (lenMore b0)

/-- `resize (n)` of a vector: elements are dropped from the end, or default ones are added. -/
def resize {α : Type} (d : α) (v : List α) (n : Nat) : List α := v.take n ++ List.replicate (n - v.length) d

/-- `memblock::read` after the length `n`. Models memblock.cc:138-141. -/
def blkBody (old : List Byte) (n : Nat) : M IS (List Byte) := do
  if ← IS.verify n then
    let d ← IS.read (resize 0 old n) n
    IS.align 4
    pure d
  else pure old

/-- `memblock::read`. Models memblock.cc:132-141. -/
def readBlk (old : List Byte) : M IS (List Byte) := do
  let n ← IS.readInt 4 0
  blkBody old n

/-- `pair::read`. Models uspecial.h:44-51. -/
def readPair {α β : Type} (ga gb : Nat) (ra : α → M IS α) (rb : β → M IS β) (old : α × β) : M IS (α × β) := do
  let x ← ra old.1
  IS.align gb
  let y ← rb old.2
  IS.align ga
  pure (x, y)

/-- `size_t` multiplication. -/
def mul64 (n k : Nat) : Nat := n * k % W

/-- `container_read` after the element count `n` was read; `c` is `n * expectedSize`. Models uctrstrm.h:72-82. -/
def vecRest {α : Type} (g c n : Nat) (d : α) (r : α → M IS α) (old : List α) : M IS (List α) := do
  if ← IS.verify c then
    if g > 4 then IS.align g
    let v ← readAll r (resize d old n)
    IS.align 4
    pure v
  else pure old

/-- `container_read`, with `g` the alignment of the elements, `d` their default and `k` its stream size.
Models uctrstrm.h:66-82. -/
def readVec {α : Type} (g k : Nat) (d : α) (r : α → M IS α) (old : List α) : M IS (List α) := do
  let n ← IS.readInt 4 0
  vecRest g (mul64 n k) n d r old

/-- `bool (sv)` for a `uint8_t`. -/
def toBool (b : Nat) : Bool := b != 0

/-- `CAST_STREAMABLE (bool, uint8_t)`: read a byte into an uninitialised local, then convert.
Models strmsize.h:70-75, uspecial.h:239. -/
def readBool (junk : List Byte) : M IS Bool := do
  let b ← IS.readInt 1 (junk.headD 0).toNat
  pure (toBool b)

/-- `is >> v` into a variable holding `old`: the new value of the variable; `junk` is what uninitialised locals
hold (`szbuf` of `string::read`, `sv` of the cast to `uint8_t`). Models mistream.h:250-262, uarray.h:66,
uvector.h:105. -/
def read (junk : List Byte) : (t : Ty) → Val t → M IS (Val t)
  | .int n, old => IS.readInt n old
  | .bool, _ => readBool junk
  | .raw n _, old => IS.iread old n
  | .str, old => readStr junk old
  | .blk, old => readBlk old
  | .pair a b, old => readPair (al a) (al b) (read junk a) (read junk b) old
  | .arr _ t, old => readAll (read junk t) old
  | .vec t, old => readVec (al t) (ss t (dflt t)) (dflt t) (read junk t) old

end Ustl.Stream
