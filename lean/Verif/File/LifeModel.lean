import Verif.File.OfsClose
import Verif.File.Ifs
/-! # File streams from construction to destruction (C79): definitions -/
namespace Ustl.File
open Ustl.Stream

/-- A stream that is being constructed, on a system that will answer `sys`: `_file` has no descriptor, exceptions are off, and
the buffer is that of an empty string. Models fstream.cc:18-25, sostream.cc:28-38, ofstream.cc:22-24. -/
def OFS.blank (sys : List Sys) : OFS := { file := { fd := -1, sys := sys } }

/-- `reserve (default_stream_buffer_size)`. Models ofstream.cc:26, 35, sostream.h:74, uios.h:70. -/
def oreserve : P OFS Unit := modify fun o => { o with cap := newCap o.cap 4095 }

/-- `clear (_file.rdstate())`. Models ofstream.cc:34, 43, ofstream.h:22, 27. -/
def osync : P OFS Unit := do oclear (← look fun o : OFS => o.file.ios.state)

/-- The three constructors; `n` is the descriptor given, or the one the system answered to `open`.
Models ofstream.cc:22-44. -/
inductive OCtor
  | none
  | fd (n : Int)
  | file (n : Int) (name : List Byte)

/-- Construct. Models ofstream.cc:22-44, fstream.cc:28-45, 109-114. -/
def OCtor.run : OCtor → P OFS Unit
  | .none => oreserve
  | .fd n => do
    ofile (attach n [])
    osync
    oreserve
  | .file n name => do
    ofile (attach n name)
    osync

/-- `open (filename, mode)` when the system answers `n`. Models ofstream.h:22, fstream.cc:110-114. -/
def oopen (n : Int) (name : List Byte) : P OFS Unit := do
  ofile (attach n name)
  osync

/-- `try { … } catch (...) {}`. Models ofstream.cc:49. -/
def otry (m : P OFS Unit) : P OFS Unit := fun o => match m o with
  | .exn o' => .ret () o'
  | r => r

/-- `if (_file.fd() <= STDERR_FILENO) _file.detach()`. Models ofstream.cc:50-51. -/
def oletGo : P OFS Unit := do
  let n ← look fun o : OFS => o.file.fd
  if n ≤ 2 then ofile detach else pure ()

/-- `~ofstream ()`, the flush watched for some rounds; then the destructor of the member `_file`. The memory of the buffer is
that of C18. Models ofstream.cc:47-52, fstream.cc:48-54. -/
def odestroy (k : Nat) : P OFS Unit := do
  otry (flushLoop k)
  oletGo
  ofile destroy

/-- Everything that happens to one stream. -/
def olife (c : OCtor) (ops : List WOp) (k : Nat) : P OFS Unit := do
  c.run
  runAll ops
  odestroy k

/-- One file written through a stream: it is opened, written and closed. The result is the descriptor the stream had before
closing, and what the system was given meanwhile. -/
structure Session where
  /-- what the system answered to `open` -/
  fd : Int
  /-- the name -/
  name : List Byte
  /-- what is written -/
  ops : List WOp
  /-- the rounds `close` is watched for -/
  rounds : Nat

/-- Write one file. -/
def Session.run (s : Session) : P OFS (Int × List Byte) := do
  let before ← look fun o : OFS => o.file.out.length
  oopen s.fd s.name
  runAll s.ops
  let n ← look fun o : OFS => o.file.fd
  oclose s.rounds
  let out ← look fun o : OFS => o.file.out
  pure (n, out.drop before)

/-- Write several files through one stream, one after the other. -/
def sessions : List Session → P OFS (List (Int × List Byte))
  | [] => pure []
  | s :: ss => do
    let r ← s.run
    let rs ← sessions ss
    pure (r :: rs)

/-! ## ifstream -/

/-- `ifstream (fd)`: the state of `_file` is not taken over. Models ofstream.cc:100-106. -/
def IFS.ofFd (n : Int) (f : File) : Res File IFS := match attach n [] f with
  | .ret _ f' => .ret (IFS.ofFile f') f'
  | .exn f' => .exn f'
  | .oob => .oob
  | .run f' => .run f'

/-- `ifstream (filename, mode)`: the state of `_file` is taken over. Models ofstream.cc:109-116. -/
def IFS.ofName (n : Int) (name : List Byte) (f : File) : Res File IFS := match attach n name f with
  | .ret _ f' => .ret { IFS.ofFile f' with ios := { state := f'.ios.state, exc := 0 } } f'
  | .exn f' => .exn f'
  | .oob => .oob
  | .run f' => .run f'

/-! ## cin and cout -/

/-- An operation on the first stream. -/
def onIn {α : Type} (m : P IFS α) : P (IFS × OFS) α := fun s => match m s.1 with
  | .ret a i => .ret a (i, s.2)
  | .exn i => .exn (i, s.2)
  | .oob => .oob
  | .run i => .run (i, s.2)

/-- An operation on the second stream. -/
def onOut {α : Type} (m : P OFS α) : P (IFS × OFS) α := fun s => match m s.2 with
  | .ret a o => .ret a (s.1, o)
  | .exn o => .exn (s.1, o)
  | .oob => .oob
  | .run o => .run (s.1, o)

/-- `if (_file.fd() == STDIN_FILENO) cout.flush()`, the flush watched for some rounds. Models ofstream.cc:144-145. -/
def tie (k : Nat) : P (IFS × OFS) Unit := fun s =>
  if s.1.file.fd = 0 then onOut (flushLoop k) s else .ret () s

/-- Read more, with `cout` beside it. Models ofstream.cc:131-155. -/
def refill2 (k n : Nat) : P (IFS × OFS) Unit := fun s =>
  if s.1.file.ios.eof then .ret () s
  else
    (do onIn (makeRoom n)
        tie k
        let br ← onIn (fillLoop (s.1.file.sys.length + 1) (s.1.pos - toErase n s.1 + n) (s.1.pos - toErase n s.1))
        onIn (relink br (s.1.pos - toErase n s.1)) : P (IFS × OFS) Unit) s

/-- `underflow (n)`, with `cout` beside it. Models ofstream.cc:129-159. -/
def underflow2 (k n : Nat) : P (IFS × OFS) Nat := do
  refill2 k n
  onIn (eofCheck n)
  onIn (look IFS.remaining)

end Ustl.File
