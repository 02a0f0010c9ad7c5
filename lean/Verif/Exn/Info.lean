import Verif.Exn.Model
import Verif.Text.Libc
import Verif.Str.Model
/-!
# What exceptions say: `what`, `name`, `info` and the constructors (uexception.cc, uexception.h, ustdxept.cc, ustdxept.h)

The part of `vsnprintf` the formats of the library use is defined here; the result is put into the string by
`string::format` (`Ustl.Str.vformat`). The memory behind the strings is the heap of `Verif.Memblock.Model`.
-/
namespace Ustl.Exn
open Ustl.Stream

/-- The characters of an ASCII text. Notation for the string literals of the source. -/
def asc (s : String) : List Byte := s.toList.map fun c => UInt8.ofNat c.toNat

/-! ## `vsnprintf` -/

/-- An argument after the format: a C string, or an integer in its 64-bit argument slot. -/
inductive Arg where
  | str (s : List Byte)
  | num (v : Nat)
deriving DecidableEq, Repr

/-- One conversion without flags and width; `bits` is the width of the type the conversion names, whatever the type of
the argument was. An argument that is no number where one is needed, or the other way round, is undefined (`none`). -/
def convArg (bits : Nat) (c : Byte) : Arg → Option (List Byte)
  | .str s => if c = 115 then some s else none
  | .num v => if c = 100 ∨ c = 117 ∨ c = 120 ∨ c = 88 then some (Text.convPrint { conv := c, bits := bits } v) else none

/-- `vsnprintf`, the whole text: `%s`, `%d`, `%u`, `%x`, `%X`, the same with `z` or `l`, and `%%`. Other conversions, and
a conversion without an argument, are not modelled (`none`). The C library, outside the repository; called from
ustring.cc:333. -/
def printf : List Byte → List Arg → Option (List Byte)
  | [], _ => some []
  | 37 :: 37 :: f, as => (printf f as).map (37 :: ·)
  | 37 :: 122 :: c :: f, a :: as => (convArg 64 c a).bind fun t => (printf f as).map (t ++ ·)
  | 37 :: 108 :: c :: f, a :: as => (convArg 64 c a).bind fun t => (printf f as).map (t ++ ·)
  | 37 :: c :: f, a :: as => (convArg 32 c a).bind fun t => (printf f as).map (t ++ ·)
  | [37], _ => none
  | 37 :: _ :: _, [] => none
  | c :: f, as => (printf f as).map (c :: ·)

/-! ## The classes -/

/-- The classes without data. Models uexception.h:50-73 (`exception`), 80-90 (`bad_cast`, `bad_typeid`). -/
inductive Plain | exception | badCast | badTypeid
deriving DecidableEq, Repr

/-- `what ()` of these. Models uexception.h:57, 83, 89. -/
def Plain.what : Plain → List Byte
  | .exception => asc "error"
  | .badCast => asc "bad cast"
  | .badTypeid => asc "bad typeid"

/-- The classes that hold a message only. Models ustdxept.h:27-138. -/
inductive Msg
  | errorMessage | logicError | domainError | invalidArgument | lengthError | outOfRange | runtimeError | rangeError
  | overflowError | underflowError
deriving DecidableEq, Repr

/-- `name ()` of these. Models ustdxept.h:32, 49, 60, 71, 82, 93, 104, 115, 126, 137. -/
def Msg.name : Msg → List Byte
  | .errorMessage => asc "error"
  | .logicError => asc "logic error"
  | .domainError => asc "domain error"
  | .invalidArgument => asc "invalid argument"
  | .lengthError => asc "length error"
  | .outOfRange => asc "out of range"
  | .runtimeError => asc "runtime error"
  | .rangeError => asc "range error"
  | .overflowError => asc "overflow error"
  | .underflowError => asc "underflow error"

/-- A constructor call; `none` is the null pointer. `sysCode` is `system_error (error_code, operation)`; `sys`, `file` and
`bounds` take the code from `errno`, given first. A type name is the pointer and the C string it points to. -/
inductive New where
  | plain (k : Plain)
  | alloc (bytes : Nat)
  | msg (k : Msg) (arg : Option (List Byte))
  | sys (errno : Nat) (op : Option (List Byte))
  | sysCode (code : Nat) (op : Option (List Byte))
  | file (errno : Nat) (op filename : Option (List Byte))
  | bounds (errno : Nat) (op : Option (List Byte)) (type : Nat × List Byte) (offset expected remaining : Nat)
deriving DecidableEq, Repr

/-- `_arg = arg` on the new string, and `_operation (operation)`: the null pointer is the empty string. Models ustring.cc:33-38,
59-64, ustdxept.cc:22, ustdxept.h:159. -/
def ofPtr (p : Option (List Byte)) : List Byte :=
  match p with
  | none => []
  | some s => cstr s

/-- The exception a constructor makes, when memory suffices; `strerror` is the C library's, `bt` the backtrace taken.
Models uexception.h:55, 82, 88, uexception.cc:96-101, ustdxept.cc:18-24, 61-70, 98-107, 145-153, ustdxept.h:48, 59, 70, 81, 92,
103, 114, 125, 136, 158-163, uerror.h:120, 138, 150. The formats are those of ustdxept.h:13-20 and uexception.h:37-40. -/
def New.make (strerror : Nat → List Byte) (bt : Bt) : New → Ex
  | .plain _ => .base ⟨0, bt⟩
  | .alloc n => .badAlloc ⟨1, bt⟩ n
  | .msg _ arg => .msg ⟨2, bt⟩ (ofPtr arg)
  | .sys e op => .sys ⟨3, bt⟩ (ofPtr (some (strerror e))) (ofPtr op) e
  | .sysCode e op => .sys ⟨2, bt⟩ (ofPtr (some (strerror e))) (ofPtr op) e
  | .file e op f => .file ⟨13, bt⟩ (ofPtr (some (strerror e))) (ofPtr op) e (fileName f)
  | .bounds e op t o n r => .bounds ⟨14, bt⟩ (ofPtr (some (strerror e))) (ofPtr op) e t.1 o n r

/-- `what ()`: the C string. Models uexception.h:57, 83, 89, 111, ustdxept.h:31, 150, 185, 206. -/
def New.what (x : New) (e : Ex) : List Byte :=
  match x, e with
  | .plain k, _ => k.what
  | .alloc _, _ => asc "memory allocation failed"
  | .msg _ _, .msg _ arg => cstr arg
  | .sys _ _, _ => asc "system error"
  | .sysCode _ _, _ => asc "system error"
  | .file _ _ _, _ => asc "file error"
  | .bounds .., _ => asc "stream bounds exception"
  | _, _ => []

/-- `strncpy (typeName, _typeName, 256); typeName [255] = 0`: the C string left in the array. Models ustdxept.cc:158-160. -/
def typeBuf (t : List Byte) : List Byte := cstr (setName 256 t)

/-- `info (msgbuf, fmt)`: the text formatted; `none` is undefined behaviour. Models uexception.cc:26-29, 104-108,
ustdxept.cc:32-36, 110-114, 156-163; `name ()` of a `system_error` is its operation (ustdxept.h:151). `mem` reads the C string
at a pointer. -/
def New.info (dm : Demangler) (mem : Nat → Option (List Byte)) (x : New) (e : Ex) (fmt : Option (List Byte)) :
    Option (List Byte) :=
  match x, e with
  | .msg k _, .msg _ arg => printf (fmt.getD (asc "%s: %s")) [.str k.name, .str (cstr arg)]
  | _, .badAlloc _ n => printf (fmt.getD (asc "failed to allocate %d bytes")) [.num n]
  | _, .sys _ arg op _ => printf (fmt.getD (asc "%s: %s")) [.str (cstr op), .str (cstr arg)]
  | _, .file _ arg op _ f => printf (fmt.getD (asc "%s %s: %s")) [.str (cstr op), .str (cstr f), .str (cstr arg)]
  | _, .bounds _ _ op _ t o n r =>
    match mem t with
    | none => none
    | some s => match demangle dm 256 (typeBuf s) with
      | none => none
      | some d => printf (fmt.getD (asc "%s stream %s: @0x%X: need %u bytes, have %u"))
          [.str d, .str (cstr op), .num o, .num n, .num r]
  | x, e => printf (asc "%s") [.str (x.what e)]

/-- `try { msgbuf.format (...) } catch (...) {}`: `bad_alloc` from the string is dropped. `none` if it does not return within
`fuel` rounds, `some none` for undefined behaviour. Models uexception.cc:28, 107, ustdxept.cc:35, 113, 162. -/
def infoInto (lit : Nat × Nat) (text : List Byte) (fuel : Nat) (h : Memblock.Heap Byte) (o : Memblock.Obj)
    (asks : Nat → Option (Nat → Byte)) : Option (Option (Memblock.Heap Byte × Memblock.Obj)) :=
  (Str.vformat lit text fuel h o asks).map fun r => r.map fun x => (x.2.1, x.2.2)

/-! ## Where the texts live -/

/-- `error_message (arg)`: `_arg` is a new empty string, then assigned; if that throws it stays empty. Models ustdxept.cc:18-24. -/
def argObj (lit : Nat × Nat) (h : Memblock.Heap Byte) (arg : List Byte) (a : Option (Nat → Byte)) :
    Option (Memblock.Heap Byte × Memblock.Obj) :=
  match Str.assign lit h (Str.ctor lit) arg a with
  | none => none
  | some (_, h1, o1) => some (h1, o1)

/-- `_operation (operation)` in the constructors of `system_error`: the string constructor from a pointer links to the
characters. Models ustdxept.h:159, ustring.cc:33-38. -/
def opObj (p : Nat × Nat) (n : Nat) : Memblock.Obj := Str.ctorPtr p n

/-- `system_error (ec, const string& operation)` passes `operation.c_str ()`; the length is found by `strlen`. Models
ustdxept.h:160-161, 164-165. `none` if the string has no memory. -/
def opObjStr (o : Memblock.Obj) (s : List Byte) : Option Memblock.Obj := o.ptr.map fun p => opObj p (cstr s).length

/-- `Operation ()`, read as a C string of `n` characters and its terminator: `none` if that is not the memory of a live
block. Models ustdxept.h:156. -/
def operation (h : Memblock.Heap Byte) (op : Memblock.Obj) (n : Nat) : Option (List Byte) := Memblock.ld h op.ptr (n + 1)

end Ustl.Exn
