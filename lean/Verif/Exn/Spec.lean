import Verif.Exn.Model
import Verif.Stream.Spec
/-! # Exceptions and backtraces: specification -/
namespace Ustl.Exn
open Ustl.Stream

/-- One piece after another; a piece is the bytes it has when it begins at a given position. -/
def cat (d e : Nat → List Byte) (p : Nat) : List Byte := d p ++ e (p + (d p).length)

/-- A piece that does not depend on its position. -/
def raw (d : List Byte) (_ : Nat) : List Byte := d

/-- Zeros up to a multiple of 8. -/
def fill8 (p : Nat) : List Byte := List.replicate (pad p 8) 0

/-- A string, then zeros up to a multiple of 8. -/
def encStrA (v : List Byte) : Nat → List Byte := cat (raw (encStr v)) fill8

/-- The binary form of a backtrace: the number of frames, the size of the symbol table, the table, zeros up to a
multiple of 8, and 8 bytes for each frame. -/
def encBt (b : Bt) : Nat → List Byte :=
  cat (raw (leBytes 4 b.nFrames)) (cat (raw (leBytes 4 b.symsSize)) (cat (raw (b.syms.getD []))
    (cat fill8 (raw (b.addrs.take (b.nFrames * 8))))))

/-- What every exception begins with: its format, the number of bytes behind these 8 (so that a reader may skip an
exception it does not know), the backtrace. -/
def encBase (total : Nat) (b : Base) : Nat → List Byte :=
  cat (raw (leBytes 4 b.fmt)) (cat (raw (leBytes 4 (total - 8))) (encBt b.bt))

/-- The data of an error message, of a system error. -/
def encSys (total : Nat) (b : Base) (arg op : List Byte) (errno : Nat) : Nat → List Byte :=
  cat (cat (encBase total b) (encStrA arg)) (cat (encStrA op) (cat (raw (leBytes 4 errno)) fill8))

/-- The binary form of an exception of `total` bytes. -/
def encEx (total : Nat) : Ex → Nat → List Byte
  | .base b => encBase total b
  | .badAlloc b n => cat (encBase total b) (raw (leBytes 8 n))
  | .msg b arg => cat (encBase total b) (encStrA arg)
  | .sys b arg op e => encSys total b arg op e
  | .file b arg op e f => cat (encSys total b arg op e) (encStrA (cstr f))
  | .bounds b arg op e t o n r => cat (encSys total b arg op e)
      (cat (raw (leBytes 8 t)) (cat (raw (leBytes 8 o)) (cat (raw (leBytes 8 n)) (raw (leBytes 8 r)))))

/-- A backtrace as the constructor makes it: 64 slots for addresses, at most 64 frames, a symbol table of the size
noted and representable, or none. -/
structure Bt.Ok (b : Bt) : Prop where
  /-- 64 pointers -/
  slots : b.addrs.length = 512
  /-- of which `_nFrames` are used -/
  frames : b.nFrames ≤ 64
  /-- the table has the size noted -/
  table : (b.syms.getD []).length = b.symsSize
  /-- which is representable with its NUL -/
  small : b.symsSize < 2 ^ 32 - 1

/-- What a user sees of a backtrace: the addresses in use and the symbols. -/
def Bt.view (b : Bt) : List Byte × List Byte × Nat := (b.addrs.take (b.nFrames * 8), b.syms.getD [], b.nFrames)

/-- What a user sees of the `exception` part. -/
def Base.view (b : Base) : Nat × List Byte × List Byte × Nat := (b.fmt, b.bt.view)

/-- The same exception as far as a user can see. -/
def Same : Ex → Ex → Prop
  | .base b, .base b' => b.view = b'.view
  | .badAlloc b n, .badAlloc b' n' => b.view = b'.view ∧ n = n'
  | .msg b a, .msg b' a' => b.view = b'.view ∧ a = a'
  | .sys b a o e, .sys b' a' o' e' => b.view = b'.view ∧ a = a' ∧ o = o' ∧ e = e'
  | .file b a o e f, .file b' a' o' e' f' => b.view = b'.view ∧ a = a' ∧ o = o' ∧ e = e' ∧ f = f'
  | .bounds b a o e t p n r, .bounds b' a' o' e' t' p' n' r' =>
    b.view = b'.view ∧ a = a' ∧ o = o' ∧ e = e' ∧ t = t' ∧ p = p' ∧ n = n' ∧ r = r'
  | _, _ => False

/-- Two objects of the same class. -/
def SameClass : Ex → Ex → Prop
  | .base _, .base _ => True
  | .badAlloc .., .badAlloc .. => True
  | .msg .., .msg .. => True
  | .sys .., .sys .. => True
  | .file .., .file .. => True
  | .bounds .., .bounds .. => True
  | _, _ => False

/-- The numbers fit their types, strings are shorter than 2^31, the file name is one the constructor makes. -/
def FieldsOk : Ex → Prop
  | .base _ => True
  | .badAlloc _ n => n < 2 ^ 64
  | .msg _ a => a.length < 2 ^ 31
  | .sys _ a o e => a.length < 2 ^ 31 ∧ o.length < 2 ^ 31 ∧ e < 2 ^ 32
  | .file _ a o e f => a.length < 2 ^ 31 ∧ o.length < 2 ^ 31 ∧ e < 2 ^ 32 ∧ ∃ n, f = fileName n
  | .bounds _ a o e t p n r => a.length < 2 ^ 31 ∧ o.length < 2 ^ 31 ∧ e < 2 ^ 32 ∧ t < 2 ^ 64 ∧ p < 2 ^ 64 ∧
      n < 2 ^ 64 ∧ r < 2 ^ 64

/-- An exception object a program can have: a format in 32 bits, a proper backtrace, proper fields, and a size that
the 32 bits of the header can express. -/
structure Ex.Ok (x : Ex) : Prop where
  /-- the format is a `uint32_t` -/
  fmt : x.toBase.fmt < 2 ^ 32
  /-- the backtrace is proper -/
  bt : x.toBase.bt.Ok
  /-- so are the fields -/
  fields : FieldsOk x
  /-- and the size -/
  size : x.ss < 2 ^ 32

end Ustl.Exn
