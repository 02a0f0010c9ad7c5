import Verif.File.Model
/-!
# Whole files: `cmemlink::write_file`, `memblock::read_file`, `fstream::size`

The stream is a local variable: it is constructed without a file, exceptions are switched on for every error, and its
destructor runs when the function is left, by return or by exception. The system is asked to open the file: `nfd` is its
answer, negative if it fails. A file opened with `trunc` is empty at first: `out` is all that is in it. A file opened for
reading holds `src`; its size is whatever `fstat` says.
-/
namespace Ustl.File
open Ustl.Stream

/-- The life of a local stream: the body, and the destructor, which does not change how the body ended.
Models cmemlink.cc:52, 57, memblock.cc:146, 154. -/
def inScope {α : Type} (m : P File α) : P File α := fun f =>
  match m f with
  | .ret a f' => (do destroy; pure a : P File α) f'
  | .exn f' =>
    match destroy f' with
    | .ret _ f'' => .exn f''
    | .exn f'' => .exn f''
    | .oob => .oob
    | .run f'' => .run f''
  | .oob => .oob
  | .run f' => .run f'

/-- `exceptions (allbadbits)`. Models cmemlink.cc:53, memblock.cc:147, uios.h:66, 90. -/
def exceptions (v : Nat) : P File Unit := modify fun f => { f with ios := { f.ios with exc := v } }

/-- The body of `write_file`. Models cmemlink.cc:53-56. -/
def writeFileBody (nfd : Int) (name d : List Byte) : P File Unit := do
  exceptions 7
  attach nfd name
  let _ ← write d
  close

/-- `cmemlink::write_file (filename, mode)` of a block that shows `d`. Models cmemlink.cc:50-57. -/
def writeFile (nfd : Int) (name d : List Byte) : P File Unit := inScope (writeFileBody nfd name d)

/-- A memory block: what is allocated, and how much of it is in use. Models memblock.h:59, cmemlink.h:80-81. -/
structure Blk where
  /-- all of the allocated bytes -/
  buf : List Byte := []
  /-- `size()` -/
  size : Nat := 0
deriving DecidableEq, Repr

/-- What the block shows. -/
def Blk.bytes (b : Blk) : List Byte := b.buf.take b.size

/-- `reserve (n)`: the bytes there are stay; the new ones are not initialised. `free` is `minimumFreeCapacity()`: 1 for a string,
0 otherwise. The real block may be larger than asked for. Models memblock.cc:80-95, ustring.cc:395. -/
def Blk.reserve (b : Blk) (free n : Nat) (junk : Nat → Byte) : Blk :=
  { b with buf := b.buf ++ (List.range (n + free - b.buf.length)).map junk }

/-- Bytes stored at `data()`. -/
def Blk.store (b : Blk) (d : List Byte) : Blk := { b with buf := d ++ b.buf.drop d.length }

/-- The stream and the block. -/
structure Ld where
  /-- the stream -/
  f : File
  /-- the block -/
  b : Blk
deriving DecidableEq, Repr

/-- Something done with the stream: what it stores at `data()`, if anything, is in the block, however it ends; storing more
than is allocated is an access outside. -/
def onFile {α : Type} (m : P File α) : P Ld α := fun s =>
  match m { s.f with mem := [] } with
  | .ret a f => if f.mem.length ≤ s.b.buf.length then .ret a ⟨f, s.b.store f.mem⟩ else .oob
  | .exn f => if f.mem.length ≤ s.b.buf.length then .exn ⟨f, s.b.store f.mem⟩ else .oob
  | .oob => .oob
  | .run f => if f.mem.length ≤ s.b.buf.length then .run ⟨f, s.b.store f.mem⟩ else .oob

/-- `size ()` where `fstat` answers `st`; an error is thrown whatever `exceptions()` are. Models fstream.cc:191-197, 207-211. -/
def fsize (st : Option Nat) : P File Nat := fun f =>
  match st with
  | none => .exn f
  | some n => .ret n f

/-- The body of `read_file`. Models memblock.cc:147-153. -/
def readFileBody (nfd : Int) (name : List Byte) (st : Option Nat) (free : Nat) (junk : Nat → Byte) : P Ld Unit := do
  onFile (exceptions 7)
  onFile (attach nfd name)
  let n ← onFile (fsize st)
  modify fun s => { s with b := s.b.reserve free n junk }
  let _ ← onFile (read n)
  onFile close
  modify fun s => { s with b := { s.b with size := n } }

/-- `memblock::read_file (filename)`, and the destructor of its stream. Models memblock.cc:144-154. -/
def readFile (nfd : Int) (name : List Byte) (st : Option Nat) (free : Nat) (junk : Nat → Byte) : P Ld Unit := fun s =>
  match readFileBody nfd name st free junk s with
  | .ret _ s' => onFile destroy s'
  | .exn s' =>
    match onFile destroy s' with
    | .ret _ s'' => .exn s''
    | .exn s'' => .exn s''
    | .oob => .oob
    | .run s'' => .run s''
  | .oob => .oob
  | .run s' => .run s'

end Ustl.File
