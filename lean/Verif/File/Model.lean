import Verif.Text.Libc
import Verif.Text.Model
/-!
# File streams: fstream (fstream.h, fstream.cc), ofstream and ifstream (ofstream.h, ofstream.cc)

The system is not known: it is the list of its answers to the system calls, in order. Nothing is assumed about them except
that a transfer is not longer than asked for (and, for `read`, than what there is). When the answers run out, the
operation is still running (`run`): it waits for the system. Loops that may go on for ever are watched for a number of
rounds, and are `run` after that. A theorem about all answers and all numbers of rounds is thus about every execution,
also those that do not end.

Sizes are numbers without a bound: the arithmetic of `size_t` and `off_t` is taken not to wrap. Allocation is taken to
succeed. Seeking is in SeekModel.lean, control calls are in Ctl.lean. The flush of `cout` before reading from `cin`, constructors and destructors are in LifeModel.lean.
-/
namespace Ustl.File
open Ustl.Stream

/-- The outcome of an operation. -/
inductive Res (σ α : Type) where
  /-- returned -/
  | ret (a : α) (s : σ)
  /-- threw an exception -/
  | exn (s : σ)
  /-- accessed memory outside its block -/
  | oob
  /-- has not returned yet -/
  | run (s : σ)
deriving DecidableEq, Repr

/-- An operation. -/
def P (σ α : Type) := σ → Res σ α

instance {σ : Type} : Monad (P σ) where
  pure a := fun s => .ret a s
  bind m f := fun s => match m s with
    | .ret a s' => f a s'
    | .exn s' => .exn s'
    | .oob => .oob
    | .run s' => .run s'

/-- Look at the state. -/
def look {σ α : Type} (f : σ → α) : P σ α := fun s => .ret (f s) s

/-- Change the state. -/
def modify {σ : Type} (f : σ → σ) : P σ Unit := fun s => .ret () (f s)

/-- The system's answer to `read`, `write` or `close`. -/
inductive Sys where
  /-- success; so many bytes (0 is the end of the file) -/
  | did (k : Nat)
  /-- -1, `EINTR` -/
  | eintr
  /-- -1, `EAGAIN` -/
  | eagain
  /-- -1, some other error -/
  | err
deriving DecidableEq, Repr

/-- `fstream`, with the world it talks to. Models fstream.h:23-67. -/
structure File where
  /-- `ios_base`; the constructors switch exceptions off (fstream.cc:24, 33, 43) -/
  ios : Ios := { exc := 0 }
  /-- `_fd` -/
  fd : Int := 3
  /-- `_filename` -/
  name : List Byte := []
  /-- the answers the system will give -/
  sys : List Sys := []
  /-- what was written to the file, all of it -/
  out : List Byte := []
  /-- what has not been read from the file yet -/
  src : List Byte := []
  /-- what `read` stored in the caller's memory -/
  mem : List Byte := []
  /-- the descriptors given to `::close` -/
  closed : List Int := []
deriving DecidableEq, Repr

/-- `good()`. Models uios.h:82. -/
def File.good (f : File) : Bool := f.ios.state = 0

/-- `set_and_throw (v)`. Models fstream.cc:57-61, uios.h:92. -/
def raise (v : Nat) : P File Unit := fun f =>
  if f.ios.exc &&& v ≠ 0 then .exn { f with ios := { f.ios with state := f.ios.state ||| v } }
  else .ret () { f with ios := { f.ios with state := f.ios.state ||| v } }

/-- The loop of `write`: the data and the answers; the result is what was not written. Models fstream.cc:172-186. -/
def writeLoop : List Sys → List Byte → P File (List Byte)
  | [], d => fun f => if d = [] then .ret [] { f with sys := [] } else .run { f with sys := [] }
  | a :: as, d => fun f =>
    if d = [] then .ret [] { f with sys := a :: as }
    else match a with
    | .did k =>
      if 0 < min k d.length then
        writeLoop as (d.drop (min k d.length)) { f with out := f.out ++ d.take (min k d.length) }
      else (do raise 6; pure d : P File (List Byte)) { f with sys := as }
    | .eintr => writeLoop as d f
    | .eagain => .ret d { f with sys := as }
    | .err => (do raise 4; pure d : P File (List Byte)) { f with sys := as }

/-- `write (p, n)`; the result is the number of bytes written. Models fstream.cc:169-188. -/
def write (d : List Byte) : P File Nat := fun f =>
  (do let l ← writeLoop f.sys d; pure (d.length - l.length) : P File Nat) f

/-- `readsome (p, n)`: the bytes that it stored at `p`. Models fstream.cc:155-166. -/
def readsomeLoop (n : Nat) : List Sys → P File (List Byte)
  | [] => fun f => .run { f with sys := [] }
  | a :: as => fun f =>
    match a with
    | .did k =>
      if 0 < min k (min n f.src.length) then
        .ret (f.src.take (min k (min n f.src.length))) { f with sys := as, src := f.src.drop (min k (min n f.src.length)) }
      else (do raise 6; pure [] : P File (List Byte)) { f with sys := as }
    | .eintr => readsomeLoop n as f
    | .eagain => .ret [] { f with sys := as }
    | .err => (do raise 4; pure [] : P File (List Byte)) { f with sys := as }

/-- `readsome (p, n)`. Models fstream.cc:155-166. -/
def readsome (n : Nat) : P File (List Byte) := fun f => readsomeLoop n f.sys f

/-- `read (p, n)` when `br` bytes have been read, watched for some rounds: the result is the number of bytes read.
Models fstream.cc:146-152. -/
def readLoop : Nat → Nat → Nat → P File Nat
  | 0, _, _ => fun f => .run f
  | k + 1, n, br => fun f =>
    if br < n ∧ f.good then
      (do let d ← readsome (n - br)
          modify (fun f => { f with mem := f.mem ++ d })
          readLoop k n (br + d.length) : P File Nat) f
    else .ret br f

/-- `read (p, n)`. Every round but the last takes an answer of the system. Models fstream.cc:146-152. -/
def read (n : Nat) : P File Nat := fun f => readLoop (f.sys.length + 1) n 0 f

/-- `detach ()`. Models fstream.cc:76-80. -/
def detach : P File Unit := modify fun f => { f with fd := -1, name := [] }

/-- The loop of `close`. Models fstream.cc:121-126. -/
def closeLoop : List Sys → P File Unit
  | [] => fun f => .run { f with sys := [] }
  | a :: as => fun f =>
    match a with
    | .did _ => .ret () { f with sys := as, closed := f.closed ++ [f.fd] }
    | .eintr => closeLoop as { f with closed := f.closed ++ [f.fd] }
    | _ => raise 5 { f with sys := as, closed := f.closed ++ [f.fd] }

/-- `close ()`. Models fstream.cc:117-128. -/
def close : P File Unit := fun f =>
  if f.fd < 0 then .ret () f else (do closeLoop f.sys; detach : P File Unit) f

/-- `if (nfd < 0) set_and_throw (badbit, "open")`. Models fstream.cc:69-70. -/
def checkFd (nfd : Int) : P File Unit := if nfd < 0 then raise 1 else pure ()

/-- `attach (nfd, filename)`. Models fstream.cc:64-73. -/
def attach (nfd : Int) (name : List Byte) : P File Unit := do
  modify fun f => { f with name := name, ios := { f.ios with state := 0 } }
  checkFd nfd
  close
  modify fun f => { f with fd := nfd }

/-- `~fstream ()`. Models fstream.cc:48-54. -/
def destroy : P File Unit := do
  modify fun f => { f with ios := { state := 0, exc := 0 } }
  close

/-- The constants of `open (2)` on Linux, in hexadecimal: `O_CREAT` 40, `O_EXCL` 80, `O_NOCTTY` 100, `O_TRUNC` 200,
`O_APPEND` 400, `O_NONBLOCK` 800. The table of `om_to_flags`. Models fstream.cc:85-95. -/
def omFlags : List Nat := [0, 0x40, 0x400, 0x400, 0, 0x200, 0x800, 0, 0x100]

/-- The flags of the modes that are set, from bit `i` on. Models fstream.cc:101-102. -/
def omLoop (m : Nat) : Nat → List Nat → Nat → Nat
  | _, [], fl => fl
  | i, b :: bs, fl => omLoop m (i + 1) bs (fl ||| (if m.testBit i then b else 0))

/-- `om_to_flags (m)`, for the 9 modes there are. The first alternative of line 96 is the one taken on Linux. The
`m - 1` is of an unsigned number of 32 bits. Models fstream.cc:83-106. -/
def omToFlags (m : Nat) : Nat :=
  let fl := omLoop m 0 omFlags (((m + 0xFFFFFFFF) % 0x100000000) &&& 3)
  if m.testBit 7 then fl &&& 0xFFFFFFBF else fl

/-! ## ofstream -/

/-- `ofstream`: the memory of the buffer it is linked to, the position, `memblock::_capacity`, its own state and the file.
`junk` is what new memory contains. Models ofstream.h:16-40, sostream.h:83-87. -/
structure OFS where
  /-- the memory the stream is linked to -/
  buf : List Byte := []
  /-- `_pos` -/
  pos : Nat := 0
  /-- `memblock::_capacity` of `_buffer` -/
  cap : Nat := 1
  /-- the state of the stream -/
  ios : Ios := { exc := 0 }
  /-- `_file` -/
  file : File := {}
  /-- contents of fresh memory -/
  junk : Nat → Byte := fun _ => 0

/-- `capacity()`. Models sostream.h:75, ustring.h:72. -/
def OFS.capacity (o : OFS) : Nat := o.cap - 1

/-- `remaining()`. Models mostream.h:64. -/
def OFS.remaining (o : OFS) : Nat := o.buf.length - o.pos

/-- An operation on the file of an `ofstream`. -/
def ofile {α : Type} (m : P File α) : P OFS α := fun o =>
  match m o.file with
  | .ret a f => .ret a { o with file := f }
  | .exn f => .exn { o with file := f }
  | .oob => .oob
  | .run f => .run { o with file := f }

/-- `ofstream (fd)`: room for 4095 bytes and a zero. Models ofstream.cc:30-36. -/
def OFS.ofFd (f : File) (junk : Nat → Byte := fun _ => 0) : OFS :=
  { cap := 4096, ios := { state := f.ios.state, exc := 0 }, file := f, junk := junk }

/-- `erase (begin(), n)`: the position moves back, the bytes after the erased ones move down. Models mistream.cc:120-124,
memlink.h:86-93. -/
def erase (n : Nat) : P OFS Unit := fun o =>
  if n ≤ o.buf.length ∧ n ≤ o.pos then .ret () { o with buf := o.buf.drop n ++ o.buf.take n, pos := o.pos - n } else .oob

/-- `_buffer.reserve (n, false)`: the new `_capacity`. This is `NextPow2` for sizes below 2^31, where the code's computes
with 32 bits (see `Verif.Memblock`); here sizes have no bound. Models memblock.cc:80-95, uutility.h:279-287. -/
def newCap (cap n : Nat) : Nat := if n + 1 ≤ cap then cap else 2 ^ (1 + Nat.log2 n)

/-- The first half of `ostringstream::overflow (n)`. Models sostream.cc:162-168. -/
def grow (n : Nat) : P OFS Unit := modify fun o =>
  if n > o.remaining ∧ (o.ios.state = 0 ∨ n ≤ o.capacity - o.pos) then
    { o with buf := Text.growTo o.junk o.buf (o.pos + n), cap := newCap o.cap (o.pos + n) }
  else o

/-- `verify_remaining (n)`. Models mostream.h:150-156, mistream.cc:17-21. -/
def overify (n : Nat) : P OFS Unit := fun o =>
  if n ≤ o.remaining then .ret () o
  else match o.ios.overrun o.remaining with
    | (i, true) => .exn { o with ios := i }
    | (i, false) => .ret () { o with ios := i }

/-- What `ofstream::overflow` does before it calls `ostringstream::overflow`. Models ofstream.cc:81-84. -/
def spill (n : Nat) : P OFS Unit := fun o =>
  if o.file.good ∧ n > o.capacity - o.pos then
    (do let bw ← ofile (write (o.buf.take o.pos))
        erase bw : P OFS Unit) o
  else .ret () o

/-- `overflow (n)`. Models ofstream.cc:79-86, sostream.cc:160-171. -/
def overflow (n : Nat) : P OFS Nat := do
  spill n
  grow n
  overify n
  look OFS.remaining

/-- Store bytes at the position and move it. Models mostream.h:201-202, 222-223. -/
def oput (d : List Byte) : P OFS Unit := fun o =>
  match store o.buf o.pos d with
  | none => .oob
  | some b => .ret () { o with buf := b, pos := o.pos + d.length }

/-- `remaining() ? remaining() : overflow (n)`. Models sostream.cc:51, 59. -/
def oroom (n : Nat) : P OFS Nat := do
  let r ← look OFS.remaining
  if r ≠ 0 then pure r else overflow n

/-- `iwrite (unsigned char)`, `put (c)`. Models sostream.cc:49-53. -/
def putc (c : Byte) : P OFS Unit := do
  if (← oroom 1) ≥ 1 then oput [c] else pure ()

/-- `write (buffer, sz)`, watched for some rounds. Models sostream.cc:56-62. -/
def owriteLoop : Nat → List Byte → P OFS Unit
  | 0, _ => fun o => .run o
  | k + 1, d => do
    let r ← oroom d.length
    if min d.length r = 0 then pure ()
    else
      oput (d.take (min d.length r))
      owriteLoop k (d.drop (min d.length r))

/-- `vsnprintf (ipos(), space)` of the text `d`. Models sostream.cc:134. -/
def oprintAt (d : List Byte) (space : Nat) : P OFS Unit := fun o =>
  if space = 0 then .ret () o
  else match store o.buf o.pos (d.take (space - 1) ++ [0]) with
    | none => .oob
    | some b => .ret () { o with buf := b }

/-- `vformat` when the text is `t`, watched for some rounds. Models sostream.cc:121-139. -/
def oformatLoop : Nat → List Byte → P OFS Unit
  | 0, _ => fun o => .run o
  | k + 1, t => do
    let space ← look OFS.remaining
    oprintAt t space
    if t.length ≥ space then
      let u ← overflow (t.length + 1)
      if t.length < u then oformatLoop k t
      else modify fun o => { o with pos := o.pos + min t.length space }
    else modify fun o => { o with pos := o.pos + min t.length space }

/-- `flush ()`, watched for some rounds. Models ofstream.cc:63-67. -/
def flushLoop : Nat → P OFS Unit
  | 0 => fun o => .run o
  | k + 1 => fun o =>
    if o.ios.state = 0 ∧ o.pos ≠ 0 then
      (do let u ← overflow o.capacity
          if u ≠ 0 then flushLoop k else pure () : P OFS Unit) o
    else .ret () o

/-- `clear (v)`: both states. Models ofstream.h:27. -/
def oclear (v : Nat) : P OFS Unit := modify fun o =>
  { o with ios := { o.ios with state := v }, file := { o.file with ios := { o.file.ios with state := v } } }

/-- `close ()`, the flush watched for some rounds. Models ofstream.cc:55-60. -/
def oclose (k : Nat) : P OFS Unit := do
  oclear (← look fun o : OFS => o.file.ios.state)
  flushLoop k
  ofile close

/-! ## ifstream -/

/-- `ifstream`: `_buffer`, how much of it the stream is linked to, the position, the state, the file.
Models ofstream.h:45-71. -/
structure IFS where
  /-- `_buffer` -/
  buf : List Byte := List.replicate 4095 0
  /-- `size()` of the stream: the part of the buffer that was read -/
  lim : Nat := 0
  /-- `_pos` -/
  pos : Nat := 0
  /-- the state of the stream -/
  ios : Ios := { exc := 0 }
  /-- `_file` -/
  file : File := {}
  /-- `_gcount`, a `uint32_t` -/
  gcount : Nat := 0
  /-- `_delimiters` -/
  delims : List Byte := Text.delimArray Text.defaultDelims
  /-- contents of fresh memory -/
  junk : Nat → Byte := fun _ => 0

/-- `remaining()`. Models mistream.h:79. -/
def IFS.remaining (s : IFS) : Nat := s.lim - s.pos

/-- `verify_remaining (n)`. Models mistream.h:172-178. -/
def iverify (n : Nat) : P IFS Unit := fun s =>
  if n ≤ s.remaining then .ret () s
  else match s.ios.overrun s.remaining with
    | (i, true) => .exn { s with ios := i }
    | (i, false) => .ret () { s with ios := i }

/-- An operation on the file of an `ifstream`. -/
def ifile {α : Type} (m : P File α) : P IFS α := fun s =>
  match m s.file with
  | .ret a f => .ret a { s with file := f }
  | .exn f => .exn { s with file := f }
  | .oob => .oob
  | .run f => .run { s with file := f }

/-- The loop of `underflow (n)`, from `br` to at least `upto`, watched for some rounds; the result is `br`.
Models ofstream.cc:147-149. -/
def fillLoop : Nat → Nat → Nat → P IFS Nat
  | 0, _, _ => fun s => .run s
  | k + 1, upto, br => fun s =>
    if br < upto ∧ s.file.good then
      (do let d ← ifile (readsome (s.buf.length - br))
          match store s.buf br d with
          | none => fun _ => .oob
          | some b =>
            modify (fun s => { s with buf := b })
            if d = [] then pure br else fillLoop k upto (br + d.length) : P IFS Nat) s
    else .ret br s

/-- `oughtToErase`: `Align` of what is missing. Models ofstream.cc:132-134. -/
def ought (n size pos : Nat) : Nat :=
  let x := max n (size / 2) - (size - pos)
  (x + 7) / 8 * 8

/-- `nToErase`. Models ofstream.cc:135. -/
def toErase (n : Nat) (s : IFS) : Nat := min s.pos (ought n s.buf.length s.pos)

/-- Make room: what was read is moved down, and the buffer is resized if that was not enough. After that the position is
`pos - toErase`. `resize` links the stream to nothing. Models ofstream.cc:132-143. -/
def makeRoom (n : Nat) : P IFS Unit := modify fun s =>
  let e := toErase n s
  let b := s.buf.drop e ++ s.buf.take e
  if b.length - (s.pos - e) < n then
    { s with buf := Text.growTo s.junk b (s.pos - e + max n (s.buf.length / 2)), lim := 0, pos := 0 }
  else { s with buf := b }

/-- `clear (_file.rdstate())`, `_buffer[br] = 0`, `link (_buffer.data(), br)`, `seek (oldPos)`. The byte after the buffer is
there for the terminating zero. Models ofstream.cc:150-154. -/
def relink (br oldPos : Nat) : P IFS Unit := fun s =>
  if br ≤ s.buf.length ∧ oldPos ≤ br then
    .ret () { s with ios := { s.ios with state := s.file.ios.state }, buf := s.buf.set br 0, lim := br, pos := oldPos }
  else .oob

/-- Read more, if the end of the file was not reached; the loop is watched for as many rounds as the system has answers.
Models ofstream.cc:131-155. -/
def refill (n : Nat) : P IFS Unit := fun s =>
  if s.file.ios.eof then .ret () s
  else
    (do makeRoom n
        let br ← fillLoop (s.file.sys.length + 1) (s.pos - toErase n s + n) (s.pos - toErase n s)
        relink br (s.pos - toErase n s) : P IFS Unit) s

/-- `if (_file.eof()) verify_remaining ("read", _file.name(), n)`. Models ofstream.cc:156-157. -/
def eofCheck (n : Nat) : P IFS Unit := fun s => if s.file.ios.eof then iverify n s else .ret () s

/-- `underflow (n)`. Models ofstream.cc:129-159. -/
def underflow (n : Nat) : P IFS Nat := do
  refill n
  eofCheck n
  look IFS.remaining

/-! ## Reading text from an ifstream: the functions of istringstream, with the `underflow` above -/

/-- `is_delimiter (c)`. Models sistream.cc:55-58. -/
def IFS.isDelim (s : IFS) (c : Byte) : Bool := (s.delims.take 15).contains c

/-- `remaining() || underflow()`. Models sistream.cc:64, 131, 146, 184, 201, 237. -/
def imore : P IFS Bool := do
  if (← look IFS.remaining) ≠ 0 then pure true
  else
    let u ← underflow 1
    pure (decide (u ≠ 0))

/-- Take the next byte, without a check. Models mistream.h:244-245. -/
def itake : P IFS Byte := fun s =>
  match s.buf[s.pos]? with
  | none => .oob
  | some b => .ret b { s with pos := s.pos + 1 }

/-- `istream::iread (c)` of a `char` that held `c`. Models mistream.h:221-233. -/
def igetc (c : Byte) : P IFS Byte := do
  if 1 ≤ (← look IFS.remaining) then itake
  else
    iverify 1
    pure c

/-- `seek (p)` of the base class. Models mistream.h:181-190. -/
def iseek (p : Nat) : P IFS Unit := fun s =>
  if p ≤ s.lim then .ret () { s with pos := p }
  else match s.ios.overrun s.lim with
    | (i, true) => .exn { s with ios := i }
    | (i, false) => .ret () { s with ios := i }

/-- `ungetc ()`: `pos () - 1` wraps, and is then beyond the end. Models mistream.h:101. -/
def iungetc : P IFS Unit := fun s => if s.pos = 0 then iseek (s.lim + 1) s else iseek (s.pos - 1) s

/-- `skip (n)`. Models mistream.h:209-212. -/
def iskip (n : Nat) : P IFS Unit := fun s => iseek (s.pos + n) s

/-- Set `_gcount`. -/
def isetCount (n : Nat) : P IFS Unit := modify fun s => { s with gcount := n % 2 ^ 32 }

/-- Undefined behaviour. -/
def iub {α : Type} : P IFS α := fun _ => .oob

/-- One round of the loop of `skip_delimiters`; `k` is the rest of the loop. Models sistream.cc:63-70. -/
def iskipRound (k : Byte → P IFS Byte) (c : Byte) : P IFS Byte := do
  if ← look (fun s : IFS => s.isDelim c) then
    if ← imore then
      let c ← igetc c
      k c
    else
      iverify 1
      pure 0
  else pure c

/-- The loop of `skip_delimiters`. Models sistream.cc:63-70. -/
def iskipLoop : Nat → Byte → P IFS Byte
  | 0 => fun _ => iub
  | f + 1 => iskipRound (iskipLoop f)

/-- How many bytes there are to read, in the buffer and in the file: an upper bound for the rounds of a loop. -/
def IFS.left (s : IFS) : Nat := s.remaining + s.file.src.length

/-- `skip_delimiters ()`, which is also `iread (char&)`. Models sistream.cc:60-71, sistream.h:33. -/
def iskipDelims : P IFS Byte := fun s => iskipLoop (s.left + 2) (s.delims.headD 0) s

/-- One round of the loop of `iread (string&)`. Models sistream.cc:146-168. -/
def istrRound (k : Byte → Byte → List Byte → P IFS (List Byte)) (q c : Byte) (v : List Byte) : P IFS (List Byte) := do
  if ← imore then
    let c' ← igetc c
    let d ← look (fun s : IFS => s.isDelim c')
    if q = 0 ∧ d then pure v
    else if c = 92 then
      if v = [] then iub else k q (Text.escape c') (v.dropLast ++ [Text.escape c'])
    else if c' = q then pure v
    else k q c' (v ++ [c'])
  else pure v

/-- The loop of `iread (string&)`. Models sistream.cc:146-168. -/
def istrLoop : Nat → Byte → Byte → List Byte → P IFS (List Byte)
  | 0 => fun _ _ _ => iub
  | f + 1 => istrRound (istrLoop f)

/-- `iread (string&)`. Models sistream.cc:136-169. -/
def ireadString : P IFS (List Byte) := do
  let c ← iskipDelims
  if c = 0 then pure []
  else
    let r ← look IFS.left
    if c = 34 ∨ c = 39 then istrLoop (r + 2) c c []
    else istrLoop (r + 2) 0 c [c]

/-- One round of the loop of `get (p, n, delim)`. Models sistream.cc:184-191. -/
def igetRound (delim : Byte) (k : Byte → List Byte → P IFS (List Byte)) (c : Byte) (acc : List Byte) : P IFS (List Byte) := do
  if ← imore then
    let c ← igetc c
    if c = delim then
      iungetc
      pure acc
    else
      isetCount ((← look IFS.gcount) + 1)
      k c (acc ++ [c])
  else pure acc

/-- The loop of `get (p, n, delim)` with room for some more characters. Models sistream.cc:184-191. -/
def igetLoop (delim : Byte) : Nat → Byte → List Byte → P IFS (List Byte)
  | 0 => fun _ acc => pure acc
  | k + 1 => igetRound delim (igetLoop delim k)

/-- `get (p, n, delim)`. Models sistream.cc:181-194. -/
def igetBuf (n : Nat) (delim : Byte) : P IFS (List Byte) := do
  if n = 0 then iub
  else
    isetCount 0
    let l ← igetLoop delim (n - 1) 0 []
    pure (l ++ [0])

/-- The bytes in the buffer that have not been read. -/
def IFS.unread (s : IFS) : List Byte := (s.buf.take s.lim).drop s.pos

/-- One round of the loop of `get (string&, delim)`. Models sistream.cc:201-207. -/
def igetStrRound (delim : Byte) (k : List Byte → P IFS (List Byte)) (v : List Byte) : P IFS (List Byte) := do
  if ← imore then
    match ← look (fun s : IFS => s.buf[s.pos]?) with
    | none => iub
    | some c =>
      if c = delim then pure v
      else
        let d ← look (fun s : IFS => s.unread.takeWhile (· ≠ delim))
        iskip d.length
        isetCount ((← look IFS.gcount) + d.length)
        k (v ++ d)
  else pure v

/-- The loop of `get (string&, delim)`. Models sistream.cc:201-207. -/
def igetStrLoop (delim : Byte) : Nat → List Byte → P IFS (List Byte)
  | 0 => fun _ => iub
  | f + 1 => igetStrRound delim (igetStrLoop delim f)

/-- `get (string&, delim)`. Models sistream.cc:197-209. -/
def igetStr (delim : Byte) : P IFS (List Byte) := do
  isetCount 0
  igetStrLoop delim ((← look IFS.left) + 2) []

/-- The end of `getline`. Models sistream.cc:215-218, 226-229. -/
def ieatDelim (delim : Byte) : P IFS Unit := do
  if (← look IFS.remaining) ≠ 0 then
    match ← look (fun s : IFS => s.buf[s.pos]?) with
    | none => iub
    | some c =>
      if c = delim then
        iskip 1
        isetCount ((← look IFS.gcount) + 1)
      else pure ()
  else pure ()

/-- `getline (string&, delim)`. Models sistream.cc:212-220. -/
def igetlineStr (delim : Byte) : P IFS (List Byte) := do
  let v ← igetStr delim
  ieatDelim delim
  pure v

/-- `getline (p, n, delim)`. Models sistream.cc:223-231. -/
def igetlineBuf (n : Nat) (delim : Byte) : P IFS (List Byte) := do
  let v ← igetBuf n delim
  ieatDelim delim
  pure v

/-- `remaining() < sz && underflow(sz) < sz`. Models sistream.cc:173. -/
def ishort (sz : Nat) : P IFS Bool := do
  if (← look IFS.remaining) < sz then
    let u ← underflow sz
    pure (decide (u < sz))
  else pure false

/-- `istream::read (buffer, n)` of `n` bytes that are there. Models mistream.h:236-246. -/
def itakeN (n : Nat) : P IFS (List Byte) := fun s =>
  if n ≤ s.remaining then
    match slice s.buf s.pos n with
    | none => .oob
    | some d => .ret d { s with pos := s.pos + n }
  else (do iverify n; pure [] : P IFS (List Byte)) s

/-- `read (buffer, sz)`: the bytes stored. Models sistream.cc:171-178. -/
def iread (sz : Nat) : P IFS (List Byte) := do
  if ← ishort sz then igetBuf sz 0
  else
    isetCount sz
    itakeN (sz % 2 ^ 32)

/-- `get ()`. Models sistream.h:57-58. -/
def iget : P IFS Byte := do
  let l ← iread 1
  pure (l.headD 255)

/-- One round of the loop of `ignore`. Models sistream.cc:237. -/
def iignoreRound (delim : Byte) (left : Nat) (k : P IFS Nat) : P IFS Nat := do
  if ← imore then
    let c ← iget
    if c = delim then pure left else k
  else pure left

/-- The loop of `ignore`. Models sistream.cc:237. -/
def iignoreLoop (delim : Byte) : Nat → P IFS Nat
  | 0 => pure (W - 1)
  | n + 1 => iignoreRound delim n (iignoreLoop delim n)

/-- `ignore (n, delim)`. Models sistream.cc:234-240. -/
def iignore (n : Nat) (delim : Byte) : P IFS Unit := do
  isetCount n
  let k ← iignoreLoop delim n
  isetCount ((← look IFS.gcount) + W - k)

/-- One round of the loop of `read_number`: what was read last, and the rest of the loop. The byte after what was read is 0
(see `relink`), so that is where `strtol` stops. Models sistream.cc:96-100. -/
def inumRound (k : P IFS Int) (bits base : Nat) : P IFS Int := do
  match ← look (fun s : IFS => Text.strtol (s.unread ++ [0]) base) with
  | none => iub
  | some (v, n) =>
    iskip n
    if (← look IFS.remaining) = 0 then
      let u ← underflow 1
      if u ≠ 0 then k else pure (Text.toS bits v)
    else pure (Text.toS bits v)

/-- The loop of `read_number`, watched for some rounds. Models sistream.cc:96-100. -/
def inumLoop (bits base : Nat) : Nat → P IFS Int
  | 0 => fun s => .run s
  | f + 1 => inumRound (inumLoop bits base f) bits base

/-- `read_number` in base 10 or as the text decides (`base = 0`). Models sistream.cc:89-101. -/
def ireadNumber (bits base rounds : Nat) : P IFS Int := do
  let c ← iskipDelims
  if c = 0 then pure 0
  else
    iungetc
    inumLoop bits base rounds

end Ustl.File
