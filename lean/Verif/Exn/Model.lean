import Verif.Stream.Model
/-!
# Exceptions and backtraces (bktrace.cc, bktrace.h, uexception.cc, uexception.h, ustdxept.cc, ustdxept.h, uiosfunc.h)

The binary form of `CBacktrace` and of the exception classes, over the stream model of `Verif.Stream.Model`; the
extraction of function names from `backtrace_symbols`, the symbol table, the text form, and copying. Pointers are 8
bytes wide, so `c_DefaultAlignment` is 8. `Out.oob` also stands for leaving the memory of the object itself.
-/
namespace Ustl.Exn
open Ustl.Stream

/-- `CBacktrace`: the memory image of `_addresses [64]` (512 bytes), the block `_symbols` points to without its
final NUL (`none` for the null pointer), `_nFrames` and `_symbolsSize`. Models bktrace.h:36-41. -/
structure Bt where
  /-- `_addresses` -/
  addrs : List Byte
  /-- `_symbols` -/
  syms : Option (List Byte)
  /-- `_nFrames` -/
  nFrames : Nat
  /-- `_symbolsSize` -/
  symsSize : Nat
deriving DecidableEq, Repr

/-- Memory outside the object is accessed: undefined behaviour. -/
def fault {σ α : Type} : M σ α := fun _ => .oob

/-- `os.write (p, n)` where `p` points to memory holding `m`. Reading more than there is leaves the memory. The null
pointer has no memory. Models mostream.h:193-203. -/
def writeMem (m : List Byte) (n : Nat) : M OS Unit :=
  if n ≤ m.length then OS.write (m.take n) else fault

/-- `CBacktrace::write`. Models bktrace.cc:123-130. -/
def Bt.write (b : Bt) : M OS Unit := do
  OS.write (leBytes 4 b.nFrames)
  OS.write (leBytes 4 b.symsSize)
  writeMem (b.syms.getD []) b.symsSize
  OS.align 8
  writeMem b.addrs (b.nFrames * 8)

/-- `CBacktrace::stream_size`. Models bktrace.cc:133-139. -/
def Bt.ss (b : Bt) : Nat := align (4 + 4 + b.nFrames * 8 + b.symsSize) 8

/-- `malloc (_symbolsSize + 1)`, `is.read (_symbols, _symbolsSize)`, `_symbols [_symbolsSize] = 0`: the bytes read.
The sum is 32 bits wide. `junk` is what the new block holds. Models bktrace.cc:115-117. -/
def btSyms (junk : List Byte) (z : Nat) : M IS (List Byte) := do
  let d ← IS.read (resize 0 junk z) z
  if z < u32 (z + 1) then pure d else fault

/-- `is.read (_addresses, _nFrames * sizeof(void*))` into the array of 64 pointers. Models bktrace.cc:119. -/
def btAddrs (old : List Byte) (n : Nat) : M IS (List Byte) := do
  if ← IS.verify n then
    let d ← IS.take n
    if n ≤ old.length then pure (d ++ old.drop n) else fault
  else pure old

/-- The rest of `CBacktrace::read` once the two numbers are known. Models bktrace.cc:115-119. -/
def btRest (junk : List Byte) (old : Bt) (n z : Nat) : M IS Bt := do
  let y ← btSyms junk z
  IS.align 8
  let a ← btAddrs old.addrs (n * 8)
  pure ⟨a, some y, n, z⟩

/-- `CBacktrace::read` into an object that held `old`. Models bktrace.cc:110-120. -/
def Bt.read (junk : List Byte) (old : Bt) : M IS Bt := do
  let n ← IS.readInt 4 old.nFrames
  let z ← IS.readInt 4 old.symsSize
  btRest junk old n z

/-! ## Exceptions -/

/-- `exception`: `_format` and `_backtrace`. Models uexception.h:50-73. -/
structure Base where
  /-- `_format` -/
  fmt : Nat
  /-- `_backtrace` -/
  bt : Bt
deriving DecidableEq, Repr

/-- The exception classes with data of their own. A class without (`bad_cast`, `logic_error` and the classes derived
from it, `runtime_error` and the classes derived from it) is written as its base. Models uexception.h:50-73, 80-90, 107-118,
ustdxept.h:27-138 (`error_message` and the classes derived from it), 147-171, 182-193, 203-220. -/
inductive Ex where
  /-- `exception`, `bad_cast`, `bad_typeid` -/
  | base (b : Base)
  /-- `bad_alloc`: `_bytesRequested` -/
  | badAlloc (b : Base) (bytes : Nat)
  /-- `error_message`, `logic_error`, `runtime_error`, ...: `_arg` -/
  | msg (b : Base) (arg : List Byte)
  /-- `system_error`: `_arg`, `_operation`, `_errno` (as 32 bits) -/
  | sys (b : Base) (arg op : List Byte) (errno : Nat)
  /-- `file_exception`: and `_filename [PATH_MAX]` -/
  | file (b : Base) (arg op : List Byte) (errno : Nat) (filename : List Byte)
  /-- `stream_bounds_exception`: and the pointer `_typeName`, `_offset`, `_expected`, `_remaining` -/
  | bounds (b : Base) (arg op : List Byte) (errno typeName offset expected remaining : Nat)
deriving DecidableEq, Repr

/-- The `exception` part. -/
def Ex.toBase : Ex → Base
  | .base b => b
  | .badAlloc b _ => b
  | .msg b _ => b
  | .sys b _ _ _ => b
  | .file b _ _ _ _ => b
  | .bounds b _ _ _ _ _ _ _ => b

/-- The characters of a C string before its NUL. -/
def cstr (m : List Byte) : List Byte := m.takeWhile (· ≠ 0)

/-- `exception::stream_size`. Models uexception.h:62. -/
def ssBase (b : Base) : Nat := 4 + 4 + b.bt.ss

/-- `stream_size_of (string)`. Models ustring.cc:350-353. -/
def ssStr (v : List Byte) : Nat := Utf8.utf8Bytes v.length + v.length

/-- `error_message::stream_size`. Models ustdxept.cc:53-56. -/
def ssMsg (b : Base) (arg : List Byte) : Nat := ssBase b + align (ssStr arg) 8

/-- `system_error::stream_size`. Models ustdxept.cc:88-93. -/
def ssSys (b : Base) (arg op : List Byte) : Nat := ssMsg b arg + align 4 8 + align (ssStr op) 8

/-- The virtual function `stream_size ()`. Models uexception.cc:125-128, ustdxept.cc:53-56, 88-93, 136-140,
180-187. -/
def Ex.ss : Ex → Nat
  | .base b => ssBase b
  | .badAlloc b _ => ssBase b + 8
  | .msg b arg => ssMsg b arg
  | .sys b arg op _ => ssSys b arg op
  | .file b arg op _ f => ssSys b arg op + align (ssStr (cstr f)) 8
  | .bounds b arg op _ _ _ _ _ => ssSys b arg op + 8 + 8 + 8 + 8

/-- `exception::write`, with `total` what the virtual `stream_size ()` returns. Models uexception.cc:43-46. -/
def writeBase (total : Nat) (b : Base) : M OS Unit := do
  OS.write (leBytes 4 b.fmt)
  OS.write (leBytes 4 (u32 (total + W - 8)))
  b.bt.write

/-- `os << s << ios::align()`. Models ustdxept.cc:49, 84, 131-132, uiosfunc.h:19-29. -/
def writeStrA (v : List Byte) : M OS Unit := do
  writeStr v
  OS.align 8

/-- `error_message::write`. Models ustdxept.cc:46-50. -/
def writeMsg (total : Nat) (b : Base) (arg : List Byte) : M OS Unit := do
  writeBase total b
  writeStrA arg

/-- The part of `system_error::write` after the base class. Models ustdxept.cc:84. -/
def writeOp (op : List Byte) (errno : Nat) : M OS Unit := do
  writeStrA op
  OS.write (leBytes 4 errno)
  OS.align 8

/-- `system_error::write`. Models ustdxept.cc:81-85. -/
def writeSys (total : Nat) (b : Base) (arg op : List Byte) (errno : Nat) : M OS Unit := do
  writeMsg total b arg
  writeOp op errno

/-- The part of `stream_bounds_exception::write` after the base class; the pointer is written as a number.
Models ustdxept.cc:176. -/
def writeBounds (t o e r : Nat) : M OS Unit := do
  OS.write (leBytes 8 t)
  OS.write (leBytes 8 o)
  OS.write (leBytes 8 e)
  OS.write (leBytes 8 r)

/-- The virtual function `write (os)`. Models uexception.cc:43-46, 118-122, ustdxept.cc:46-50, 81-85, 128-133,
173-177. -/
def Ex.write (x : Ex) : M OS Unit :=
  match x with
  | .base b => writeBase x.ss b
  | .badAlloc b n => do writeBase x.ss b; OS.write (leBytes 8 n)
  | .msg b arg => writeMsg x.ss b arg
  | .sys b arg op e => writeSys x.ss b arg op e
  | .file b arg op e f => do writeSys x.ss b arg op e; writeStrA (cstr f)
  | .bounds b arg op e t o n r => do writeSys x.ss b arg op e; writeBounds t o n r

/-- `exception::read`; the locals begin as `stmSize = 0`, `fmt = xfmt_Exception` (0). Models uexception.cc:32-40. -/
def readBase (junk : List Byte) (old : Base) : M IS Base := do
  let f ← IS.readInt 4 0
  let _ ← IS.readInt 4 0
  let b ← Bt.read junk old.bt
  pure ⟨f, b⟩

/-- `is >> s >> ios::align()`. Models ustdxept.cc:42, 77, 121-122. -/
def readStrA (junk old : List Byte) : M IS (List Byte) := do
  let s ← readStr junk old
  IS.align 8
  pure s

/-- `error_message::read`. Models ustdxept.cc:39-43. -/
def readMsg (junk : List Byte) (b : Base) (arg : List Byte) : M IS (Base × List Byte) := do
  let b' ← readBase junk b
  let a ← readStrA junk arg
  pure (b', a)

/-- `system_error::read`. Models ustdxept.cc:74-78. -/
def readSys (junk : List Byte) (b : Base) (arg op : List Byte) (errno : Nat) :
    M IS ((Base × List Byte) × List Byte × Nat) := do
  let x ← readMsg junk b arg
  let o ← readStrA junk op
  let e ← IS.readInt 4 errno
  IS.align 8
  pure (x, o, e)

/-- `strncpy (_filename, s, PATH_MAX); _filename [PATH_MAX-1] = 0` for a C string `s`, with `n` for `PATH_MAX`.
Models ustdxept.cc:104-105, 123-124. -/
def setName (n : Nat) (s : List Byte) : List Byte :=
  ((cstr s ++ List.replicate n 0).take n).set (n - 1) 0

/-- `PATH_MAX` of Linux (limits.h, outside the repository). Used by ustdxept.h:192. -/
def pathMax : Nat := 4096

/-- The part of `stream_bounds_exception::read` after the base class. Models ustdxept.cc:169. -/
def readBounds (t o e r : Nat) : M IS (Nat × Nat × Nat × Nat) := do
  let t ← IS.readInt 8 t
  let o ← IS.readInt 8 o
  let e ← IS.readInt 8 e
  let r ← IS.readInt 8 r
  pure (t, o, e, r)

/-- The virtual function `read (is)`, into an object that held `old`. Models uexception.cc:32-40, 111-115,
ustdxept.cc:39-43, 74-78, 117-125, 166-170. -/
def Ex.read (junk : List Byte) (old : Ex) : M IS Ex :=
  match old with
  | .base b => do
    let b ← readBase junk b
    pure (.base b)
  | .badAlloc b n => do
    let b ← readBase junk b
    let n ← IS.readInt 8 n
    pure (.badAlloc b n)
  | .msg b arg => do
    let x ← readMsg junk b arg
    pure (.msg x.1 x.2)
  | .sys b arg op e => do
    let x ← readSys junk b arg op e
    pure (.sys x.1.1 x.1.2 x.2.1 x.2.2)
  | .file b arg op e _ => do
    let x ← readSys junk b arg op e
    let f ← readStrA junk []
    pure (.file x.1.1 x.1.2 x.2.1 x.2.2 (setName pathMax f))
  | .bounds b arg op e t o n r => do
    let x ← readSys junk b arg op e
    let y ← readBounds t o n r
    pure (.bounds x.1.1 x.1.2 x.2.1 x.2.2 y.1 y.2.1 y.2.2.1 y.2.2.2)

/-- The constructor `file_exception (operation, filename)` fills the array. Models ustdxept.cc:98-107. -/
def fileName (f : Option (List Byte)) : List Byte :=
  match f with
  | none => List.replicate pathMax 0
  | some s => setName pathMax s

/-! ## Names and text -/

/-- What `__cxa_demangle` does with a name: `none` if it is not a mangled name, else the demangled one. A name that
does not fit into the 256 bytes of `dmname` makes it call `realloc` on that array, which lies on the stack. -/
abbrev Demangler := List Byte → Option (List Byte)

/-- `demangle_type_name (buf, bufSize)` on a buffer holding the C string `nm`: the new contents; `none` if it
reallocates stack memory. Models uexception.cc:69-88. -/
def demangle (dm : Demangler) (bufSize : Nat) (nm : List Byte) : Option (List Byte) :=
  match dm nm with
  | none => some nm
  | some d => if d.length < 256 then some (d.take (min d.length (bufSize - 1))) else none

/-- `strchr (s, c)` on a C string: the index of the first `c`. -/
def strchr (s : List Byte) (c : Byte) : Option Nat := s.findIdx? (· == c)

/-- `mnStart`: behind the first `(`, or the beginning. Models bktrace.cc:55-57. -/
def mnStart (s : List Byte) : Nat :=
  match strchr s 40 with
  | some i => i + 1
  | none => 0

/-- `ExtractAbiName (isym, nmbuf)` on a string of `backtrace_symbols`, or on the null pointer: the name; `none` if it
reads beyond the end of the string. `40` is `(`, `43` is `+`. The copy may include the final NUL of `isym`, where
`nmbuf` then ends. Models bktrace.cc:48-68. -/
def extractAbiName (dm : Demangler) (isym : Option (List Byte)) : Option (List Byte) :=
  match isym with
  | none => demangle dm 255 []
  | some s =>
    let mnEnd := (strchr s 43).getD s.length
    let nmSize := min ((mnEnd + W - mnStart s) % W) 255
    if mnStart s + nmSize ≤ s.length + 1 then
      demangle dm 255 (cstr (((s ++ [0]).drop (mnStart s)).take nmSize))
    else none

/-- The first loop of `GetSymbols`, which adds up the sizes; `nm` is `ExtractAbiName`. Models bktrace.cc:77-79. -/
def symTotal (nm : List Byte → Option (List Byte)) : List (List Byte) → Option Nat
  | [] => some 1
  | s :: r => match nm s, symTotal nm r with
    | some n, some t => some (t + (n.length + 1))
    | _, _ => none

/-- The second loop of `GetSymbols`, run while `_symbolsSize < symSize - 1`: it appends the name of frame `i` and a
newline. Frames beyond the last are outside the array of symbols. Models bktrace.cc:81-86. -/
def symLoop (nm : List Byte → Option (List Byte)) (symSize : Nat) : List (List Byte) → List Byte → Option (List Byte)
  | frames, acc =>
    if acc.length < symSize - 1 then
      match frames with
      | [] => none
      | s :: r => match nm s with
        | none => none
        | some n => symLoop nm symSize r (acc ++ n ++ [10])
    else some acc

/-- `CBacktrace::GetSymbols` given what `backtrace_symbols` returned, when `calloc` succeeds: the symbol table.
Models bktrace.cc:71-89. -/
def getSymbols (dm : Demangler) (frames : List (List Byte)) : Option (List Byte) :=
  match symTotal (fun s => extractAbiName dm (some s)) frames with
  | none => none
  | some n => symLoop (fun s => extractAbiName dm (some s)) n frames []

/-- `CBacktrace ()`: the addresses from `backtrace`, which returns at most 64 of them, and the symbols
(`none` if `backtrace_symbols` returned null). `addrs` is the memory image of the array. Models bktrace.cc:19-26,
71-75. The outer `none` is undefined behaviour. -/
def Bt.capture (dm : Demangler) (addrs : List Byte) (nFrames : Nat) (frames : Option (List (List Byte))) : Option Bt :=
  match frames with
  | none => some ⟨addrs, none, nFrames, 0⟩
  | some f => match getSymbols dm f with
    | none => none
    | some t => some ⟨addrs, some t, nFrames, t.length⟩

/-- The loop of `CBacktrace::text_write`: for each frame the address, printed by `fmt` (`"%16p  "`), and the line of
the symbol table; `rest` is what is left of the table. With no newline left `strchr` returns null and the pointers
are meaningless. Models bktrace.cc:98-107. -/
def textLoop (fmt : List Byte → List Byte) (addrs : List Byte) : Nat → List Byte → List Byte → Option (List Byte)
  | 0, _, out => some out
  | k + 1, rest, out =>
    match strchr (cstr rest) 10 with
    | none => none
    | some i => textLoop fmt (addrs.drop 8) k (rest.drop (i + 1)) (out ++ fmt (addrs.take 8) ++ rest.take (i + 1))

/-- `CBacktrace::text_write`. Models bktrace.cc:98-107. Searching the null pointer is undefined. -/
def Bt.text (fmt : List Byte → List Byte) (b : Bt) : Option (List Byte) :=
  match b.nFrames, b.syms with
  | 0, _ => some []
  | _ + 1, none => none
  | n + 1, some t => textLoop fmt b.addrs (n + 1) t []

/-- `CBacktrace::operator=`, and the copy constructor: the new value, and whether a block was leaked. `strdup` of the
null pointer is undefined; it copies up to the first NUL. Models bktrace.cc:29-45. -/
def Bt.assign (self : Bt) (v : Bt) : Option (Bt × Bool) :=
  match v.syms with
  | none => none
  | some t => some (⟨v.addrs, some (cstr t), v.nFrames, v.symsSize⟩, self.syms.isSome)

end Ustl.Exn
