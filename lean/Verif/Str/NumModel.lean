import Verif.Str.Model
import Verif.Text.Libc
/-!
# String and number conversions (ustring.h): `to_string`, `stoi`, `stol`, `stoul`, `stoll`, `stoull`

The conversions of floating-point numbers are not modelled. `errno` is not modelled: the repository never looks at it.
-/
namespace Ustl.Str
open Ustl.Memblock
open Ustl.Text (isSpace digitVal isDigit digitsVal clip prefixed signed parseConv convPrint toS)

variable (lit : Nat × Nat)

/-! ## The C library -/

/-- What `strtol` and `strtoul` both do (C11 7.22.1.4): whether there is a minus and the number the digits stand for, or nothing
if there are no digits; and `end - s`. `none` when it runs off the end of the memory `s`, or the base is not one of 0, 2, …, 36. -/
def scan (s : List Byte) (base : Int) : Option (Option (Bool × Nat) × Nat) :=
  if base < 0 ∨ base = 1 ∨ 36 < base then none
  else
    let s1 := s.dropWhile isSpace
    let (neg, s2) := signed s1
    let (b, s3) := prefixed base.toNat s2
    let ds := s3.takeWhile (isDigit b)
    let rest := s3.dropWhile (isDigit b)
    if rest = [] ∨ (base = 0 ∨ base = 16) ∧ (s2 = [48, 120] ∨ s2 = [48, 88]) then none
    else if ds = [] then some (none, 0)
    else some (some (neg, digitsVal b ds), s.length - rest.length)

/-- `strtol`'s value: clipped to the range of `long`. -/
def longOf : Option (Bool × Nat) → Int
  | none => 0
  | some (neg, n) => clip (if neg then -(n : Int) else n)

/-- `strtoul`'s value: the greatest `unsigned long` if the digits are out of range, else with a minus negated in the return type. -/
def ulongOf : Option (Bool × Nat) → Int
  | none => 0
  | some (neg, n) => if 2 ^ 64 ≤ n then 2 ^ 64 - 1 else if neg then -(n : Int) % 2 ^ 64 else n

/-! ## The repository's functions -/

/-- The memory a pointer points into, from there on. -/
def memFrom (h : Heap Byte) (p : Option (Nat × Nat)) : Option (List Byte) :=
  match p with
  | none => none
  | some (id, off) =>
    match h.blk id with
    | none => none
    | some b => some (b.bytes.drop off)

/-- The value and `*idx`. `c_str()` is the data pointer: the library looks at the memory there, not at `size()`.
Models ustring.h:322-331. -/
def stoX (value : Option (Bool × Nat) → Int) (h : Heap Byte) (o : Obj) (base : Int) : Option (Int × Nat) :=
  match memFrom h o.ptr with
  | none => none
  | some m =>
    match scan m base with
    | none => none
    | some (r, n) => some (value r, n)

/-- `stoi`: the `long` is converted to `int`. Models ustring.h:332. -/
def stoi (h : Heap Byte) (o : Obj) (base : Int) : Option (Int × Nat) := stoX (fun r => toS 32 (longOf r)) h o base

/-- `stol`, `stoll` (both 64 bits). Models ustring.h:333, 336. -/
def stol (h : Heap Byte) (o : Obj) (base : Int) : Option (Int × Nat) := stoX longOf h o base

/-- `stoul`, `stoull`. Models ustring.h:334, 337. -/
def stoul (h : Heap Byte) (o : Obj) (base : Int) : Option (Int × Nat) := stoX ulongOf h o base

/-- The types `to_string` is defined for. -/
inductive NumTy | int | unsigned | long | ulong | llong | ullong
deriving DecidableEq, Repr

/-- The format string each is given. Models ustring.h:358-364. -/
def NumTy.fmt : NumTy → List Byte
  | .int => [37, 100]
  | .unsigned => [37, 117]
  | .long => [37, 108, 100]
  | .ulong => [37, 108, 117]
  | .llong => [37, 108, 108, 100]
  | .ullong => [37, 108, 108, 117]

/-- The answer of `to_string`: `none` is undefined behaviour (or no end), `false` a thrown `bad_alloc`. `string r (15, '\0');
r.format (fmt, v); return r;` and if `format` throws, `r` is destroyed. `a` and `asks` are the allocator's answers, `fuel` bounds
the rounds of `vformat`. Models ustring.h:356-357. -/
def toString (t : NumTy) (v : Int) (fuel : Nat) (h : Heap Byte) (a : Option (Nat → Byte)) (asks : Nat → Option (Nat → Byte)) : Res :=
  match parseConv t.fmt with
  | none => none
  | some k =>
    match ctorFill h 15 0 a with
    | none => none
    | some (false, h1, o1) => some (false, h1, o1)
    | some (true, h1, o1) =>
      match vformat lit (convPrint k v) fuel h1 o1 asks with
      | none => none
      | some none => none
      | some (some (true, h2, o2)) => some (true, h2, o2)
      | some (some (false, h2, o2)) =>
        match deallocate h2 o2 with
        | none => none
        | some (h3, o3) => some (false, h3, o3)

end Ustl.Str
