import Verif.Str.Model
/-!
# string searching, comparison and hashing (ustring.cc:113-127, 239-318, 386-393)

A text is its list of characters `t`; the byte after it is the terminating NUL, so characters `0 … t.length`
can be read, and reading any other is `none` (undefined). `size_t` values that can wrap are taken modulo
`2^64`; sizes are below `2^31` as `npos` is `INT_MAX`.
-/
namespace Ustl.StrFind
open Ustl.Str (Byte)

/-- `npos`. Models ustring.h:57. -/
def npos : Nat := 2 ^ 31 - 1

/-- `ustl::find (begin() + i, end(), c)`, as an index; `n` bounds the number of steps. Models ualgo.h:29-34. -/
def scan (t : List Byte) (c : Byte) : Nat → Nat → Nat
  | 0, i => i
  | n + 1, i => if h : i < t.length then (if t[i] = c then i else scan t c n (i + 1)) else i

/-- `find (c, pos)`. Models ustring.cc:239-243. -/
def findChar (t : List Byte) (c : Byte) (pos : Nat) : Nat :=
  let found := scan t c t.length (min pos t.length)
  if found < t.length then found else npos

/-- The value of `endi - lastPos` after `while (lastPos-- && s[lastPos] != endchar) {}`, where `k` is the current
value of `lastPos`. Models ustring.cc:252-254. -/
def skipFrom (s : List Byte) (endi : Nat) (endchar : Byte) : Nat → Nat
  | 0 => endi + 1
  | k + 1 => if s[k]? = some endchar then endi - k else skipFrom s endi endchar k

/-- The main loop of `find`: `i` is the index of the candidate's last character. `none` is a read outside the
text. `n` bounds the number of rounds. Models ustring.cc:255-258. -/
def findLoop (t s : List Byte) (endi skip : Nat) (endchar : Byte) : Nat → Nat → Option Nat
  | 0, _ => some npos
  | n + 1, i =>
    if i < t.length then
      let i := scan t endchar t.length i
      if i < t.length then
        if i < endi then none
        else if (t.drop (i - endi)).take s.length = s then some (i - endi)
        else findLoop t s endi skip endchar n (i + skip)
      else some npos
    else some npos

/-- `find (s, pos)`. Models ustring.cc:246-260. -/
def findStr (t s : List Byte) (pos : Nat) : Option Nat :=
  if s = [] ∨ (t.length + 2 ^ 64 - pos) % 2 ^ 64 < s.length then some npos
  else
    let endi := s.length - 1
    match s[endi]? with
    | none => none
    | some endchar =>
      findLoop t s endi (skipFrom s endi endchar endi) endchar (t.length + 1) (min pos t.length + endi)

/-- `for (int i = start; i >= 0; --i) if (p (at (i))) return i; return npos;` with `i = start - 1` next.
`k` is `i + 1`. Models ustring.cc:263-269, 303-309, 312-318. -/
def lastLoop (t : List Byte) (p : Byte → Bool) : Nat → Option Nat
  | 0 => some npos
  | k + 1 =>
    match (t ++ [0])[k]? with
    | none => none
    | some c => if p c then some k else lastLoop t p k

/-- The start index of the backward loops: `min (pos, size() - 1)`, where `size() - 1` wraps for an empty text,
as an `int`. Models ustring.cc:265, 305, 314. -/
def lastStart (t : List Byte) (pos : Nat) : Nat := min pos ((t.length + 2 ^ 64 - 1) % 2 ^ 64)

/-- `rfind (c, pos)`, `pos <= npos`. Models ustring.cc:263-269. -/
def rfindChar (t : List Byte) (c : Byte) (pos : Nat) : Option Nat := lastLoop t (· = c) (lastStart t pos + 1)

/-- The inner loop of `rfind (s)`: the number of characters that match backwards from text index `d`.
Models ustring.cc:278-280. -/
def matchBack (t s : List Byte) (d : Int) : Nat → Nat → Option Nat
  | 0, i => some i
  | n + 1, i =>
    if i < s.length then
      match s[s.length - 1 - i]?, (if d - i < 0 then none else t[(d - i).toNat]?) with
      | some a, some b => if a ≠ b then some i else matchBack t s d n (i + 1)
      | _, _ => none
    else some i

/-- The outer loop of `rfind (s)`; returns the final `d`. Models ustring.cc:277-280. -/
def rfindLoop (t s : List Byte) (sp : Int) : Nat → Int → Nat → Option Int
  | 0, d, _ => some d
  | n + 1, d, i =>
    if d > sp ∧ i < s.length then
      match matchBack t s d s.length 0 with
      | none => none
      | some i' => rfindLoop t s sp n (d - 1) i'
    else some d

/-- `rfind (s, pos)`. Models ustring.cc:272-282. -/
def rfindStr (t s : List Byte) (pos : Nat) : Option Nat :=
  let sp : Int := (s.length : Int) - 1
  match rfindLoop t s sp (t.length + 1) ((min pos t.length : Nat) - 1) 0 with
  | none => none
  | some d => if d > sp then some (d + 2 - s.length).toNat else some npos

/-- The forward loops: `for (i = min (pos, size()); i < size(); ++i) if (p (at (i))) return i; return npos;`.
`n` bounds the number of steps. Models ustring.cc:287-290, 296-299. -/
def firstLoop (t : List Byte) (p : Byte → Bool) : Nat → Nat → Nat
  | 0, _ => npos
  | n + 1, i => if h : i < t.length then (if p t[i] then i else firstLoop t p n (i + 1)) else npos

/-- `find_first_of (s, pos)`. Models ustring.cc:285-291. -/
def findFirstOf (t s : List Byte) (pos : Nat) : Nat :=
  firstLoop t (fun c => findChar s c 0 ≠ npos) t.length (min pos t.length)

/-- `find_first_not_of (s, pos)`. Models ustring.cc:294-300. -/
def findFirstNotOf (t s : List Byte) (pos : Nat) : Nat :=
  firstLoop t (fun c => findChar s c 0 = npos) t.length (min pos t.length)

/-- `find_last_of (s, pos)`. Models ustring.cc:303-309. -/
def findLastOf (t s : List Byte) (pos : Nat) : Option Nat :=
  lastLoop t (fun c => findChar s c 0 ≠ npos) (lastStart t pos + 1)

/-- `find_last_not_of (s, pos)`. Models ustring.cc:312-318. -/
def findLastNotOf (t s : List Byte) (pos : Nat) : Option Nat :=
  lastLoop t (fun c => findChar s c 0 = npos) (lastStart t pos + 1)

/-! ## Comparison -/

/-- Conversion of a `size_t` difference to `int`. -/
def toInt32 (n : Int) : Int := let r := n % 2 ^ 32; if r < 2 ^ 31 then r else r - 2 ^ 32

/-- `sign`. Models uutility.h:113-117. -/
def sign (v : Int) : Int := if 0 < v then 1 else if v < 0 then -1 else 0

/-- `compare`; `mc` is the C library's `memcmp`. Models ustring.cc:113-120. -/
def compare (mc : List Byte → List Byte → Int) (s t : List Byte) : Int :=
  let rvbylen := sign (toInt32 (s.length - t.length))
  let n := min s.length t.length
  let rv := mc (s.take n) (t.take n)
  if rv ≠ 0 then rv else rvbylen

/-- `operator==` on strings. Models cmemlink.h:61-62, ustring.h:144. -/
def eq (mc : List Byte → List Byte → Int) (s t : List Byte) : Bool :=
  t.length = s.length && mc t s = 0

/-- `operator== (const char*)` where `c` is the pointed-to text before its NUL. Models ustring.cc:123-127. -/
def eqPtr (mc : List Byte → List Byte → Int) (s c : List Byte) : Bool :=
  s.length = c.length && mc s c = 0

/-- `operator<`. Models ustring.h:152. -/
def lt (mc : List Byte → List Byte → Int) (s t : List Byte) : Bool := 0 > compare mc s t

/-- `operator>`, `<=`, `>=` from `operator<`. Models uutility.h:194-196. -/
def gt (mc : List Byte → List Byte → Int) (s t : List Byte) : Bool := lt mc t s
/-- See `gt`. Models uutility.h:199-201. -/
def le (mc : List Byte → List Byte → Int) (s t : List Byte) : Bool := !lt mc t s
/-- See `gt`. Models uutility.h:204-206. -/
def ge (mc : List Byte → List Byte → Int) (s t : List Byte) : Bool := !lt mc s t

/-! ## Hash -/

/-- A `char` converted to `uint32_t` (`char` is signed). -/
def sext (c : Byte) : Nat := if c.toNat < 128 then c.toNat else c.toNat + 2 ^ 32 - 256

/-- Rotate a 32-bit value left by 7. -/
def rotl7 (h : Nat) : Nat := (h * 2 ^ 7) % 2 ^ 32 ||| h / 2 ^ 25

/-- The loop of `hash`, reading the characters `k, k+1, …` of the string object `o` from memory. `none` is an
invalid read. Models ustring.cc:386-393. -/
def hashLoop (h : Memblock.Heap Byte) (o : Memblock.Obj) : Nat → Nat → Nat → Option Nat
  | 0, _, acc => some acc
  | n + 1, k, acc =>
    match Str.cAt h o k with
    | none => none
    | some c => hashLoop h o n (k + 1) ((sext c + rotl7 acc) % 2 ^ 32)

/-- `hash_value (s.begin(), s.end())`. Models ustring.cc:386-393, ustring.h:314-315. -/
def hash (h : Memblock.Heap Byte) (o : Memblock.Obj) : Option Nat := hashLoop h o o.size 0 0

end Ustl.StrFind
