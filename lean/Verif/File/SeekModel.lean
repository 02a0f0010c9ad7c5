import Verif.File.Ofs
import Verif.File.Ifs
/-! # Seeking in files: fstream::seek, pos (fstream.cc), seekp, tellp, seekg, tellg and sync (ofstream.h, ofstream.cc)

`File` (Model.lean) has what was read and written, but no disk. Here the disk is added around the streams: the contents of the
file and the offset at the last `lseek`. Since then the offset has moved by what was read or written. `off_t` is a number
without a bound; a file that has no positions (a pipe) answers every `lseek` with an error. -/
namespace Ustl.File
open Ustl.Stream

/-- `seekdir`: the values are those of `SEEK_SET`, `SEEK_CUR` and `SEEK_END`. Models uios.h:53-57. -/
inductive Dir
  | beg | cur | fin
deriving DecidableEq, Repr

/-- Where `lseek (fd, n, d)` goes, for a file of `size` bytes at offset `off`. Models fstream.cc:132-133. -/
def target (size off n : Int) : Dir → Int
  | .beg => n
  | .cur => off + n
  | .fin => size + n

/-- An `ifstream` and the file it reads. Models ofstream.h:45-71. -/
structure Rd where
  /-- the stream; `s.file.src` is what follows in the file -/
  s : IFS
  /-- the contents of the file -/
  data : List Byte
  /-- the offset at the last `lseek` -/
  base : Nat := 0
  /-- whether the file has positions -/
  seekable : Bool := true

/-- The offset of the file: what was read since the last `lseek` is what is no longer ahead. Models fstream.cc:139-142. -/
def Rd.off (r : Rd) : Int := r.base + (r.data.drop r.base).length - r.s.file.src.length

/-- `pos ()`. Models fstream.cc:139-142. -/
def Rd.fpos (r : Rd) : Int := if r.seekable then r.off else -1

/-- An operation of the stream. -/
def onS {α : Type} (m : P IFS α) : P Rd α := fun r =>
  match m r.s with
  | .ret a s => .ret a { r with s := s }
  | .exn s => .exn { r with s := s }
  | .oob => .oob
  | .run s => .run { r with s := s }

/-- `_file.seek (n, d)`. Models fstream.cc:130-136. -/
def rseek (n : Int) (d : Dir) : P Rd Unit := fun r =>
  if r.seekable ∧ 0 ≤ target r.data.length r.off n d then
    .ret () { r with base := (target r.data.length r.off n d).toNat
                     s := { r.s with file := { r.s.file with src := r.data.drop (target r.data.length r.off n d).toNat } } }
  else onS (ifile (raise 4)) r

/-- `_buffer.clear (); link (_buffer)`. Models ofstream.cc:173-174. -/
def Rd.dropBuf (r : Rd) : Rd := { r with s := { r.s with buf := [], lim := 0, pos := 0 } }

/-- `clear (_file.rdstate())`. Models ofstream.cc:166, 176, ofstream.h:55. -/
def Rd.copyState (r : Rd) : Rd := { r with s := { r.s with ios := { r.s.ios with state := r.s.file.ios.state } } }

/-- `seekg (n, d)`. Models ofstream.cc:171-178. -/
def seekg (n : Int) (d : Dir) : P Rd Unit := do
  modify Rd.dropBuf
  rseek n d
  modify Rd.copyState

/-- `tellg ()`. Models ofstream.h:56. -/
def Rd.tellg (r : Rd) : Int := r.fpos - r.s.remaining

/-- `clear ()`: both states. Models ofstream.h:55. -/
def rclear : P Rd Unit := modify fun r =>
  { r with s := { r.s with ios := { r.s.ios with state := 0 }, file := { r.s.file with ios := { r.s.file.ios with state := 0 } } } }

/-- `sync ()`: the result is `- good ()`. Models ofstream.cc:162-168, sistream.h:71. -/
def isync : P Rd Int := do
  onS (do iskip (← look IFS.remaining))
  let _ ← onS (underflow 0)
  modify Rd.copyState
  look fun r => if r.s.ios.state = 0 then -1 else 0

/-! ## Writing -/

/-- The disk's way of writing `d` at offset `p`: over what is there, with zeros before it if the file is shorter. (write (2),
called in fstream.cc:174.) -/
def overwrite (data : List Byte) (p : Nat) (d : List Byte) : List Byte :=
  if d = [] then data else (data ++ List.replicate (p - data.length) 0).take p ++ d ++ data.drop (p + d.length)

/-- An `ofstream` and the file it writes. Models ofstream.h:16-40. -/
structure Wr where
  /-- the stream; `o.file.out` is what was written since the last `lseek` -/
  o : OFS
  /-- the contents of the file at the last `lseek` -/
  data : List Byte := []
  /-- the offset at the last `lseek` -/
  base : Nat := 0
  /-- whether the file was opened with `O_APPEND`, that is with `app` or `ate` (fstream.cc:87-88) -/
  app : Bool := false
  /-- whether the file has positions -/
  seekable : Bool := true

/-- What the file contains: every write went to the offset after the write before it, or to the end. Models fstream.cc:169-188. -/
def Wr.content (w : Wr) : List Byte := if w.app then w.data ++ w.o.file.out else overwrite w.data w.base w.o.file.out

/-- The offset of the file. Models fstream.cc:139-142. -/
def Wr.off (w : Wr) : Int := if w.app ∧ w.o.file.out ≠ [] then w.content.length else w.base + w.o.file.out.length

/-- `pos ()`. Models fstream.cc:139-142. -/
def Wr.fpos (w : Wr) : Int := if w.seekable then w.off else -1

/-- An operation of the stream. -/
def onO {α : Type} (m : P OFS α) : P Wr α := fun w =>
  match m w.o with
  | .ret a o => .ret a { w with o := o }
  | .exn o => .exn { w with o := o }
  | .oob => .oob
  | .run o => .run { w with o := o }

/-- `_file.seek (n, d)`. Models fstream.cc:130-136. -/
def wseek (n : Int) (d : Dir) : P Wr Unit := fun w =>
  if w.seekable ∧ 0 ≤ target w.content.length w.off n d then
    .ret () { w with data := w.content, base := (target w.content.length w.off n d).toNat
                     o := { w.o with file := { w.o.file with out := [] } } }
  else onO (ofile (raise 4)) w

/-- `seekp (n, d)`, the flush watched for some rounds. Models ofstream.cc:70-76. -/
def seekp (k : Nat) (n : Int) (d : Dir) : P Wr Unit := do
  onO (flushLoop k)
  wseek n d
  onO (do oclear (← look fun o : OFS => o.file.ios.state))

/-- `tellp ()`. Models ofstream.h:28. -/
def Wr.tellp (w : Wr) : Int := w.fpos + w.o.pos

end Ustl.File
