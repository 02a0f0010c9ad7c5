import Verif.Text.Libc
import Verif.Memblock.Model
/-!
# Text streams: istringstream (sistream.h, sistream.cc) and ostringstream (sostream.h, sostream.cc)

The streams are the binary streams of `Verif.Stream` (sistream.h:19, sostream.h:19) with a few more members. Outcomes are
as there: return, throw, or access memory outside the block. Floating point conversions are not modelled. Loops carry a
number of rounds that is larger than they can take; running out of it would be `oob`, which the theorems exclude.
-/
namespace Ustl.Text
open Ustl.Stream

/-- `istringstream`. `after` is the memory that follows the block: the functions of the C library do not know where the
block ends. Models sistream.h:20-82. -/
structure TIS where
  /-- the base class -/
  is : IS
  /-- `_flags` -/
  flags : Nat := 0
  /-- `_gcount`, a `uint32_t` -/
  gcount : Nat := 0
  /-- `_delimiters` -/
  delims : List Byte
  /-- the memory after the block -/
  after : List Byte := [0]
deriving DecidableEq, Repr

/-- An operation of the base class. -/
def lift {α : Type} (m : M IS α) : M TIS α := fun s =>
  match m s.is with
  | .ret a i => .ret a { s with is := i }
  | .exn i => .exn { s with is := i }
  | .oob => .oob

/-- Look at the state. -/
def look {σ α : Type} (f : σ → α) : M σ α := fun s => .ret (f s) s

/-- Undefined behaviour. -/
def ub {σ α : Type} : M σ α := fun _ => .oob

/-- `ios_base::oct`. Models uios.h:26. -/
def octFlag : Nat := 256

/-- `ios_base::hex`. Models uios.h:27. -/
def hexFlag : Nat := 512

/-- Is a flag set? -/
def has (flags f : Nat) : Bool := flags &&& f ≠ 0

/-- `set_delimiters (d)`: at most 15 characters, the rest of the 16 is zero. Models sistream.h:95-104. -/
def delimArray (d : List Byte) : List Byte := d.take 15 ++ List.replicate (16 - (d.take 15).length) 0

/-- `DEFAULT_DELIMITERS`: space, tab, newline, return and `;:,.?`. Models sistream.cc:12. -/
def defaultDelims : List Byte := [32, 9, 10, 13, 59, 58, 44, 46, 63]

/-- A stream on `text`, followed in memory by `after`. Models sistream.cc:16-53. -/
def TIS.mk' (text : List Byte) (after : List Byte := [0]) : TIS :=
  { is := { buf := text, ios := { exc := 0 } }, delims := delimArray defaultDelims, after := after }

/-- `is_delimiter (c)`: looks at the first 15 characters of the array. Models sistream.cc:55-58. -/
def TIS.isDelim (s : TIS) (c : Byte) : Bool := (s.delims.take 15).contains c

/-- `remaining() || underflow()`. Models sistream.cc:64, 131, 146 and others, mistream.cc:68-72. -/
def more : M TIS Bool := do
  if (← look (fun s : TIS => s.is.remaining)) ≠ 0 then pure true
  else
    let u ← lift (IS.underflow 1)
    pure (u ≠ 0)

/-- `istream::iread (c)` of a `char` that held `c`. Models mistream.h:221-233. -/
def getc (c : Byte) : M TIS Byte := do
  let d ← lift (IS.iread [c] 1)
  pure (d.headD c)

/-- One round of the loop of `skip_delimiters`; `k` is the rest of the loop. Models sistream.cc:63-70. -/
def skipRound (k : Byte → M TIS Byte) (c : Byte) : M TIS Byte := do
  if ← look (fun s : TIS => s.isDelim c) then
    if ← more then
      let c ← getc c
      k c
    else
      let _ ← lift (IS.verify 1)
      pure 0
  else pure c

/-- The loop of `skip_delimiters`. Models sistream.cc:63-70. -/
def skipLoop : Nat → Byte → M TIS Byte
  | 0 => fun _ => ub
  | f + 1 => skipRound (skipLoop f)

/-- `skip_delimiters ()`, which is also `iread (char&)`. Models sistream.cc:60-71, sistream.h:33. -/
def skipDelims : M TIS Byte := fun s => skipLoop (s.is.remaining + 2) (s.delims.headD 0) s

/-- An integer type: its width and whether it is signed. -/
structure ITy where
  /-- width in bits: 16, 32, 64 -/
  bits : Nat
  /-- signed -/
  sgn : Bool
deriving DecidableEq, Repr

/-- Conversion of an integer to the type: modulo 2^bits. -/
def ITy.conv (t : ITy) (v : Int) : Int := if t.sgn then toS t.bits v else toU t.bits v

/-- The base given to `strtol`: 16, 8, or 0, which means that the text decides. Models sistream.cc:98. -/
def readBase (flags : Nat) : Nat := if has flags hexFlag then 16 else if has flags octFlag then 8 else 0

/-- `read_number` of an `int` (`bits = 32`) or `long` (64). `strtol` is given the rest of the block and whatever follows in
memory. The loop repeats only if the number ends at the end of the block and `underflow` brings more, which it does not
here. Models sistream.cc:89-101, 78-79. -/
def readNumber (bits : Nat) : M TIS Int := do
  let c ← skipDelims
  if c = 0 then pure 0
  else
    lift IS.ungetc
    let r ← look (fun s : TIS => strtol (s.is.buf.drop s.is.pos ++ s.after) (readBase s.flags))
    match r with
    | none => ub
    | some (v, k) =>
      let p0 ← look (fun s : TIS => s.is.pos)
      lift (IS.skip k)
      if ← look (fun s : TIS => decide (p0 + k = s.is.buf.length)) then
        let _ ← lift (IS.underflow 1)
        pure (toS bits v)
      else pure (toS bits v)

/-- `iread` of an integer: through `int`, and through `long` for the 64-bit types. Models sistream.h:35-47,
sistream.cc:103-108. -/
def readInt (t : ITy) : M TIS Int := do
  let v ← readNumber (if t.bits = 64 then 64 else 32)
  pure (t.conv v)

/-- The UTF-8 character at the position, `*utf8in (ipos())`: it reads as many bytes as the first one says.
Models sistream.cc:119, utf8.h:127-135. -/
def wcharAt (s : TIS) : Option Nat := (Utf8.read s.is.buf s.is.pos).map (·.v)

/-- A `char` converted to `wchar_t`: sign-extended to 32 bits. -/
def sext (c : Byte) : Nat := if c.toNat < 128 then c.toNat else c.toNat + 4294967040

/-- `iread (wchar_t&)`. Models sistream.cc:110-122. -/
def readWchar : M TIS Nat := do
  let c ← skipDelims
  if c = 0 then pure 0
  else
    lift IS.ungetc
    let cs := Utf8.seqBytes c.toNat
    let r ← look (fun s : TIS => s.is.remaining)
    let short ← if r < cs then (do let u ← lift (IS.underflow cs); pure (decide (u < cs))) else pure false
    if short then
      let _ ← lift (IS.verify cs)
      pure (sext c)
    else
      match ← look wcharAt with
      | none => ub
      | some v =>
        lift (IS.skip cs)
        pure v

/-- `tf`: the two names, 8 bytes each. Models sistream.cc:126. -/
def tf : List Byte := [102, 97, 108, 115, 101, 0, 0, 0, 116, 114, 117, 101, 0, 0, 0, 0]

/-- One round of the loop of `iread (bool&)`, at `tf + i`. Models sistream.cc:131-132. -/
def boolRound (k : Nat → Byte → M TIS Unit) (i : Nat) (c : Byte) : M TIS Unit :=
  match tf[i]? with
  | none => ub
  | some t => do
    if c = t then
      if ← more then
        let c ← getc c
        k (i + 1) c
      else pure ()
    else pure ()

/-- The loop of `iread (bool&)`. Models sistream.cc:131-132. -/
def boolLoop : Nat → Nat → Byte → M TIS Unit
  | 0 => fun _ _ => ub
  | f + 1 => boolRound (boolLoop f)

/-- `iread (bool&)`. Models sistream.cc:124-134. -/
def readBool : M TIS Bool := do
  let c ← skipDelims
  let v := decide (c = 116 ∨ c = 49)
  if c ≠ (if v then 116 else 102) then pure v
  else
    boolLoop 20 (if v then 8 else 0) c
    lift IS.ungetc
    pure v

/-- What an escaped character stands for. Models sistream.cc:152-161. -/
def escape (c : Byte) : Byte :=
  if c = 116 then 9 else if c = 110 then 10 else if c = 114 then 13 else if c = 98 then 8 else if c = 69 then 27 else c

/-- One round of the loop of `iread (string&)`: `q` is the quote or 0, `c` the last character, `v` the string so far.
Models sistream.cc:146-168. -/
def strRound (k : Byte → Byte → List Byte → M TIS (List Byte)) (q c : Byte) (v : List Byte) : M TIS (List Byte) := do
  if ← more then
    let c' ← getc c
    let d ← look (fun s : TIS => s.isDelim c')
    if q = 0 ∧ d then pure v
    else if c = 92 then
      if v = [] then ub else k q (escape c') (v.dropLast ++ [escape c'])
    else if c' = q then pure v
    else k q c' (v ++ [c'])
  else pure v

/-- The loop of `iread (string&)`. Models sistream.cc:146-168. -/
def strLoop : Nat → Byte → Byte → List Byte → M TIS (List Byte)
  | 0 => fun _ _ _ => ub
  | f + 1 => strRound (strLoop f)

/-- `iread (string&)`. Models sistream.cc:136-169. -/
def readString : M TIS (List Byte) := do
  let c ← skipDelims
  if c = 0 then pure []
  else
    let r ← look (fun s : TIS => s.is.remaining)
    if c = 34 ∨ c = 39 then strLoop (r + 2) c c []
    else strLoop (r + 2) 0 c [c]

/-- Set `_gcount`. -/
def setCount (n : Nat) : M TIS Unit := fun s => .ret () { s with gcount := n % 2 ^ 32 }

/-- One round of the loop of `get (p, n, delim)`. Models sistream.cc:184-191. -/
def getRound (delim : Byte) (k : Byte → List Byte → M TIS (List Byte)) (c : Byte) (acc : List Byte) : M TIS (List Byte) := do
  if ← more then
    let c ← getc c
    if c = delim then
      lift IS.ungetc
      pure acc
    else
      setCount ((← look (fun s : TIS => s.gcount)) + 1)
      k c (acc ++ [c])
  else pure acc

/-- The loop of `get (p, n, delim)` with room for some more characters. Models sistream.cc:184-191. -/
def getLoop (delim : Byte) : Nat → Byte → List Byte → M TIS (List Byte)
  | 0 => fun _ acc => pure acc
  | k + 1 => getRound delim (getLoop delim k)

/-- `get (p, n, delim)`: the bytes stored at `p`, with the terminating zero. For `n = 0` the zero does not fit.
Models sistream.cc:181-194. -/
def getBuf (n : Nat) (delim : Byte) : M TIS (List Byte) := do
  if n = 0 then ub
  else
    setCount 0
    let l ← getLoop delim (n - 1) 0 []
    pure (l ++ [0])

/-- One round of the loop of `get (string&, delim)`. Models sistream.cc:201-207. -/
def getStrRound (delim : Byte) (k : List Byte → M TIS (List Byte)) (v : List Byte) : M TIS (List Byte) := do
  if ← more then
    match ← look (fun s : TIS => s.is.buf[s.is.pos]?) with
    | none => ub
    | some c =>
      if c = delim then pure v
      else
        let d ← look (fun s : TIS => (s.is.buf.drop s.is.pos).takeWhile (· ≠ delim))
        lift (IS.skip d.length)
        setCount ((← look (fun s : TIS => s.gcount)) + d.length)
        k (v ++ d)
  else pure v

/-- The loop of `get (string&, delim)`. Models sistream.cc:201-207. -/
def getStrLoop (delim : Byte) : Nat → List Byte → M TIS (List Byte)
  | 0 => fun _ => ub
  | f + 1 => getStrRound delim (getStrLoop delim f)

/-- `get (string&, delim)`. Models sistream.cc:197-209. -/
def getStr (delim : Byte) : M TIS (List Byte) := do
  setCount 0
  getStrLoop delim ((← look (fun s : TIS => s.is.remaining)) + 2) []

/-- The end of `getline`: `if (remaining() && ipos()[0] == delim) { skip (1); ++_gcount; }`.
Models sistream.cc:215-218, 226-229. -/
def eatDelim (delim : Byte) : M TIS Unit := do
  if (← look (fun s : TIS => s.is.remaining)) ≠ 0 then
    match ← look (fun s : TIS => s.is.buf[s.is.pos]?) with
    | none => ub
    | some c =>
      if c = delim then
        lift (IS.skip 1)
        setCount ((← look (fun s : TIS => s.gcount)) + 1)
      else pure ()
  else pure ()

/-- `getline (string&, delim)`. Models sistream.cc:212-220. -/
def getlineStr (delim : Byte) : M TIS (List Byte) := do
  let v ← getStr delim
  eatDelim delim
  pure v

/-- `getline (p, n, delim)`. Models sistream.cc:223-231. -/
def getlineBuf (n : Nat) (delim : Byte) : M TIS (List Byte) := do
  let v ← getBuf n delim
  eatDelim delim
  pure v

/-- `read (buffer, sz)` into a buffer that held `old`: the bytes stored from its beginning. If there are not enough, it does
`get (buffer, sz, 0)`. The argument of `istream::read` is the value of `_gcount = sz`. Models sistream.cc:171-178. -/
def read (old : List Byte) (sz : Nat) : M TIS (List Byte) := do
  let r ← look (fun s : TIS => s.is.remaining)
  let short ← if r < sz then (do let u ← lift (IS.underflow sz); pure (decide (u < sz))) else pure false
  if short then getBuf sz 0
  else
    setCount sz
    lift (IS.read old (sz % 2 ^ 32))

/-- `get ()`: `char c = EOF; get (c); return c`. Models sistream.h:57-58. -/
def get : M TIS Byte := do
  let l ← read [255] 1
  pure (l.headD 255)

/-- `peek ()`. Models sistream.h:64. -/
def peek : M TIS Byte := do
  let c ← get
  lift IS.ungetc
  pure c

/-- One round of the loop of `ignore`; the result is what it leaves in `n`, which wraps. Models sistream.cc:237. -/
def ignoreRound (delim : Byte) (left : Nat) (k : M TIS Nat) : M TIS Nat := do
  if ← more then
    let c ← get
    if c = delim then pure left else k
  else pure left

/-- The loop of `ignore`. Models sistream.cc:237. -/
def ignoreLoop (delim : Byte) : Nat → M TIS Nat
  | 0 => pure (W - 1)
  | n + 1 => ignoreRound delim n (ignoreLoop delim n)

/-- `ignore (n, delim)`. Models sistream.cc:234-240. -/
def ignore (n : Nat) (delim : Byte) : M TIS Unit := do
  setCount n
  let k ← ignoreLoop delim n
  setCount ((← look (fun s : TIS => s.gcount)) + W - k)

/-- `sync ()`. Models sistream.h:71. -/
def sync : M TIS Unit := do lift (IS.skip (← look (fun s : TIS => s.is.remaining)))

/-! ## ostringstream -/

/-- `ostringstream`: the base class, linked to the memory of `_buffer`; whether `_buffer` owns its memory and its capacity;
and, after `str ()` on a stream that writes to the caller's memory, the memory of `_buffer`, which is then another.
`slack`: a byte after the caller's memory may be read (it is a string). `junk` is what new memory contains.
Models sostream.h:19-88. -/
structure TOS where
  /-- the base class and the memory it is linked to -/
  os : OS
  /-- `_buffer` owns its memory -/
  own : Bool := true
  /-- `memblock::_capacity` of `_buffer`; `string::capacity()` is one less, unless it is 0 -/
  cap : Nat := 1
  /-- the memory of `_buffer` if it is not that of `os` -/
  copy : Option (List Byte) := none
  /-- one byte after the caller's memory may be read -/
  slack : Bool := false
  /-- contents of fresh memory -/
  junk : Nat → Byte := fun _ => 0
  /-- `_flags` -/
  flags : Nat := 0
  /-- `_width`, a `uint16_t` -/
  width : Nat := 0
  /-- `_fill` -/
  fill : Byte := 0

/-- An operation of the base class. -/
def olift {α : Type} (m : M OS α) : M TOS α := fun s =>
  match m s.os with
  | .ret a o => .ret a { s with os := o }
  | .exn o => .exn { s with os := o }
  | .oob => .oob

/-- Make the block `n` bytes long; bytes that were not there before hold what the memory held. -/
def growTo (junk : Nat → Byte) (b : List Byte) (n : Nat) : List Byte :=
  b.take n ++ (List.range' b.length (n - b.length)).map junk

/-- `ostringstream (v)`: the buffer holds `v`, and the position is 0. The capacity is that of a copy of a string.
Models sostream.cc:28-38. -/
def TOS.ofString (v : List Byte) (junk : Nat → Byte := fun _ => 0) : TOS :=
  { os := { buf := v, ios := { exc := 0 } }, cap := v.length + 1, junk := junk }

/-- `ostringstream (p, n)`. Models sostream.cc:15-25, 152-157. -/
def TOS.ofMemory (m : List Byte) (slack : Bool) (junk : Nat → Byte := fun _ => 0) : TOS :=
  { os := { buf := m, ios := { exc := 0 } }, own := false, cap := 0, slack := slack, junk := junk }

/-- `_buffer.reserve (n, false)`: the new capacity. Models memblock.cc:80-95, ustring.h (`minimumFreeCapacity` is 1). -/
def newCap (cap n : Nat) : Nat := if n + 1 ≤ cap then cap else Memblock.nextPow2 (n + 1)

/-- The first half of `overflow (n)`: `_buffer` is made to reach `pos() + n`. If `_buffer` does not own its memory, `reserve`
copies one byte more than its size. Allocation is taken to succeed, and `pos() + n` not to wrap.
Models sostream.cc:162-168, memblock.cc:80-95. -/
def grow (n : Nat) : M TOS Unit := fun s =>
  if n > s.os.remaining ∧ (s.os.ios.state = 0 ∨ n ≤ (s.cap - 1 + W - s.os.pos) % W) then
    if s.own = false ∧ s.slack = false then .oob
    else .ret () { s with os := { s.os with buf := growTo s.junk (s.copy.getD s.os.buf) (s.os.pos + n) },
                          own := true, cap := newCap s.cap (s.os.pos + n), copy := none }
  else .ret () s

/-- `overflow (n)`. Models sostream.cc:160-171. -/
def overflow (n : Nat) : M TOS Nat := do
  grow n
  let _ ← olift (OS.verify n)
  look (fun s : TOS => s.os.remaining)

/-- `remaining() >= 1 || overflow() >= 1`. Models sostream.cc:51. -/
def roomOne : M TOS Bool := do
  if (← look (fun s : TOS => s.os.remaining)) ≥ 1 then pure true
  else
    let u ← overflow 1
    pure (decide (u ≥ 1))

/-- `iwrite (unsigned char)`, `put (c)`. Models sostream.cc:49-53, sostream.h:30, 53. -/
def putc (c : Byte) : M TOS Unit := do
  if ← roomOne then olift (OS.write [c]) else pure ()

/-- `remaining() ? remaining() : overflow (sz)`. Models sostream.cc:59. -/
def room (n : Nat) : M TOS Nat := do
  let r ← look (fun s : TOS => s.os.remaining)
  if r ≠ 0 then pure r else overflow n

/-- One round of the loop of `write`. Models sostream.cc:59-60. -/
def writeRound (k : List Byte → M TOS Unit) (d : List Byte) : M TOS Unit := do
  let r ← room d.length
  if min d.length r = 0 then pure ()
  else
    olift (OS.write (d.take (min d.length r)))
    k (d.drop (min d.length r))

/-- The loop of `write`. Models sostream.cc:59-60. -/
def writeLoop : Nat → List Byte → M TOS Unit
  | 0 => fun _ => ub
  | f + 1 => writeRound (writeLoop f)

/-- `write (buffer, sz)`; also `iwrite` of a string. Models sostream.cc:56-62, sostream.h:41-43. -/
def write (d : List Byte) : M TOS Unit := writeLoop (d.length + 2) d

/-- `iwrite (bool)`. Models sostream.cc:114-118. -/
def writeBool (v : Bool) : M TOS Unit := write (if v then [116, 114, 117, 101] else [102, 97, 108, 115, 101])

/-- `iwrite (wchar_t)`. Models sostream.cc:106-111. -/
def writeWchar (v : Nat) : M TOS Unit :=
  match Utf8.out v with
  | none => ub
  | some d => if d.length ≤ 8 then write (d.take (Utf8.utf8Bytes v)) else ub

/-- `encode_dec`: the digits come out least significant first. Models sostream.cc:65-71. -/
def encodeDec (n : Nat) : List Byte :=
  if _h : n < 10 then [UInt8.ofNat (48 + n)] else UInt8.ofNat (48 + n % 10) :: encodeDec (n / 10)
termination_by n
decreasing_by omega

/-- `printf_typestring`. Models sostream.h:94-108; `ll` and `l` are both 64 bits. -/
def typeString (t : ITy) : List Byte :=
  (if t.bits = 16 then [104] else if t.bits = 64 then [108] else []) ++ [if t.sgn then 100 else 117]

/-- `fmtstring` for an integer type. Models sostream.cc:74-103. -/
def fmtString (flags width : Nat) (fill : Byte) (t : ITy) : List Byte :=
  [37]
  ++ (if width ≠ 0 then (if fill = 48 then [48] else []) ++ encodeDec width else [])
  ++ (if has flags 4096 then [45] else [])
  ++ (if has flags 8 then [43] else [])
  ++ (if has flags 2 then [35] else [])
  ++ (typeString t).dropLast
  ++ [if has flags hexFlag then (if has flags 64 then 88 else 120) else if has flags octFlag then 111
      else (typeString t).getLastD 0]

/-- `vsnprintf (ipos(), space)`: stores `d`, the text and the zero, if there is any space. Models sostream.cc:134. -/
def printAt (d : List Byte) (space : Nat) : M TOS Unit := fun s =>
  if space = 0 then .ret () s
  else match store s.os.buf s.os.pos d with
    | none => .oob
    | some b => .ret () { s with os := { s.os with buf := b } }

/-- One round of the loop of `vformat` for the text `t`, of which at most `space - 1` characters fit.
The result is the last `space`. Models sostream.cc:131-136. -/
def fmtRound (t : List Byte) (k : M TOS Nat) : M TOS Nat := do
  let space ← look (fun s : TOS => s.os.remaining)
  printAt (t.take (space - 1) ++ [0]) space
  if t.length ≥ space then
    let u ← overflow (t.length + 1)
    if t.length < u then k else pure space
  else pure space

/-- The loop of `vformat`. Models sostream.cc:131-136. -/
def fmtLoop (t : List Byte) : Nat → M TOS Nat
  | 0 => ub
  | f + 1 => fmtRound t (fmtLoop t f)

/-- `SetPos (pos() + n)`. Models sostream.cc:137. -/
def setPos (n : Nat) : M TOS Unit := fun s => .ret () { s with os := { s.os with pos := s.os.pos + n } }

/-- `vformat` when the formatted text is `t`. `space` is an `int`: the theorems are about buffers smaller than 2^31.
Models sostream.cc:121-139. -/
def vformat (t : List Byte) : M TOS Unit := do
  let space ← fmtLoop t 3
  setPos (min t.length space)

/-- `iformat (v)`, `os << v` for an integer. Models sostream.h:111-117, sostream.cc:142-149. -/
def writeInt (t : ITy) (v : Int) : M TOS Unit := do
  match parseConv (← look (fun s : TOS => fmtString s.flags s.width s.fill t)) with
  | none => ub
  | some k => vformat (convPrint k v)

/-- `str ()`: `flush` resizes `_buffer` to the position. A `_buffer` that does not own its memory (`resize` needs a
capacity) gets its own, or is linked to an empty string literal if the position is 0. `string::resize` stores the terminating zero. Models sostream.h:66, 71, ustring.cc:50-56, memblock.cc:28-33, 80-95. -/
def str : M TOS (List Byte) := fun s =>
  let p := s.os.pos
  if s.own then
    let m := growTo s.junk (s.copy.getD s.os.buf) p
    match s.copy with
    | none => .ret m { s with os := { s.os with buf := s.os.buf.set p 0 }, cap := max s.cap (p + 1) }
    | some _ => .ret m { s with cap := max s.cap (p + 1), copy := some m }
  else if p = 0 then .ret [] { s with copy := some [], slack := true }
  else if p ≥ s.os.buf.length ∧ ¬ s.slack then .oob
  else
    let m := growTo s.junk s.os.buf p
    .ret m { s with own := true, cap := p + 1, copy := some m }

/-- `str (s)`. Models sostream.cc:41-46. -/
def setStr (v : List Byte) : M TOS Unit := fun s =>
  .ret () { s with os := { s.os with buf := v, pos := v.length }, own := true, cap := max s.cap (v.length + 1), copy := none }

end Ustl.Text
