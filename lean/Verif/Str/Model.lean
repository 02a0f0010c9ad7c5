import Verif.Memblock.Model
/-!
# string (ustring.h, ustring.cc): storage and editing

A string is a memblock with `minimumFreeCapacity() = 1`. `lit` is the address of the literal `""` (foreign
memory holding a NUL). Source characters given by pointer are passed as the list of characters read, that
is, the source must not overlap the string being edited (see `append_self_violated` for what happens
otherwise). `rot` is the build's `rotate`. Copying or filling a range is one store; the loops behind it are
treated in `Verif.Bytes`.
-/
namespace Ustl.Str
open Ustl.Memblock

/-- A character. -/
abbrev Byte := UInt8

variable (lit : Nat × Nat) (rot : List Byte → Nat → Nat → Nat → Option (List Byte))

/-- Advance a pointer. -/
def adv (p : Option (Nat × Nat)) (k : Nat) : Option (Nat × Nat) := p.map fun q => (q.1, q.2 + k)

/-- Result of an operation: `none` is undefined behaviour, `false` a thrown `bad_alloc`. -/
abbrev Res := Option (Bool × Heap Byte × Obj)

/-- Continue with a store of `xs` at offset `k` after a completed operation. -/
def thenStore (r : Res) (k : Obj → Nat) (xs : List Byte) : Res :=
  match r with
  | none => none
  | some (false, h1, o1) => some (false, h1, o1)
  | some (true, h1, o1) =>
    match st h1 (adv o1.ptr (k o1)) xs with
    | none => none
    | some h2 => some (true, h2, o1)

/-- The default constructor: a link to `""`. Models ustring.h:59. -/
def ctor : Obj := ⟨some lit, 0, 0⟩

/-- `string (const char* s)` with `strlen (s) = n`: a link. Models ustring.cc:33-38. -/
def ctorPtr (p : Nat × Nat) (n : Nat) : Obj := ⟨some p, n, 0⟩

/-- `string (const string&)`: a linked string is linked again, an owned one is copied with its terminator.
Models ustring.cc:21-30. The base constructor `memblock (n)` is an exact `resize` with no free capacity
(memblock.cc:15). -/
def ctorCopy (h : Heap Byte) (s : Obj) (a : Option (Nat → Byte)) : Res :=
  if s.cap = 0 then some (true, h, ⟨s.ptr, s.size, 0⟩)
  else
    match Memblock.resize 0 h Obj.empty (s.size + 1) true a with
    | none => none
    | some (false, h1, o1) => some (false, h1, o1)
    | some (true, h1, o1) =>
      match ld h1 s.ptr (s.size + 1) with
      | none => none
      | some xs =>
        match st h1 o1.ptr xs with
        | none => none
        | some h2 => some (true, h2, { o1 with size := s.size })

/-- `string (n, c)`. Models ustring.cc:41-47. -/
def ctorFill (h : Heap Byte) (n : Nat) (c : Byte) (a : Option (Nat → Byte)) : Res :=
  match Memblock.resize 0 h Obj.empty (n + 1) true a with
  | none => none
  | some (false, h1, o1) => some (false, h1, o1)
  | some (true, h1, o1) =>
    thenStore (thenStore (some (true, h1, { o1 with size := n })) (fun _ => 0) (List.replicate n c)) (fun _ => n) [0]

/-- `resize (n)`. Models ustring.cc:50-56. -/
def resize (h : Heap Byte) (o : Obj) (n : Nat) (a : Option (Nat → Byte)) : Res :=
  if n = 0 ∧ o.cap = 0 then some (true, h, { o with ptr := some lit, size := 0 })
  else thenStore (Memblock.resize 1 h o n true a) (fun _ => n) [0]

/-- `resize (n, c)`. Models ustring.h:290-295. -/
def resizeFill (h : Heap Byte) (o : Obj) (n : Nat) (c : Byte) (a : Option (Nat → Byte)) : Res :=
  thenStore (resize lit h o n a) (fun o1 => min o.size o1.size) (List.replicate (n - o.size) c)

/-- `assign (s, len)`; also `assign (s)` (with `strlen`), `operator=` and the constructors from pointer and
length or from a range, with a source outside the string. Models ustring.cc:59-72, ustring.h:113-120. -/
def assign (h : Heap Byte) (o : Obj) (xs : List Byte) (a : Option (Nat → Byte)) : Res :=
  thenStore (resize lit h o xs.length a) (fun _ => 0) xs

/-- `append (s, len)`, `append (s)`, `operator+=`, `push_back (c)`, and `append (n, c)` with
`xs = c … c`. Models ustring.cc:75-96, ustring.h:101-110. -/
def append (h : Heap Byte) (o : Obj) (xs : List Byte) (a : Option (Nat → Byte)) : Res :=
  thenStore (resize lit h o (o.size + xs.length) a) (fun o1 => o1.size - xs.length) xs

/-- `pop_back ()`: `size() - 1` wraps for an empty string. Models ustring.h:112. -/
def popBack (h : Heap Byte) (o : Obj) (a : Option (Nat → Byte)) : Res :=
  if o.size = 0 then none else resize lit h o (o.size - 1) a

/-- `insert (start, first, last, n)` and `insert (start, n, c)`: `memblock::insert`, fill with `n` copies of
`xs`, terminate. Models ustring.cc:170-195. -/
def insert (h : Heap Byte) (o : Obj) (start : Nat) (xs : List Byte) (n : Nat) (a : Option (Nat → Byte)) : Res :=
  thenStore (thenStore (Memblock.insert 1 rot h o start (xs.length * n) a) (fun _ => start)
    (List.replicate n xs).flatten) (fun o1 => o1.size) [0]

/-- `iat (pos)`, as an offset. Models ustring.h:92-93. -/
def iat (o : Obj) (pos : Nat) : Nat := min pos o.size

/-- `insert (pos, s, len)` and `insert (pos, n, c)` (with `xs = [c]`). Models ustring.h:157-161. -/
def insertAt (h : Heap Byte) (o : Obj) (pos : Nat) (xs : List Byte) (n : Nat) (a : Option (Nat → Byte)) : Res :=
  insert rot h o (iat o pos) xs n a

/-- `insert (pos, const string& s)`: calls `insert (iat (pos), s.c_str(), s.size())`, whose third argument is a
repeat count; the text inserted is `strlen (s.c_str())` long. Models ustring.h:160, ustring.cc:179-183. -/
def insertStr (h : Heap Byte) (o : Obj) (pos : Nat) (s : List Byte) (a : Option (Nat → Byte)) : Res :=
  insert rot h o (iat o pos) (s.takeWhile (· ≠ 0)) s.length a

/-- `erase (ep, n)`. Models ustring.cc:198-203. -/
def erase (h : Heap Byte) (o : Obj) (ep n : Nat) (a : Option (Nat → Byte)) : Res :=
  thenStore (Memblock.erase 1 rot h o ep n a) (fun o1 => o1.size) [0]

/-- `erase (pos, n)` by position: `size() - epo` is computed in 64 bits. Models ustring.cc:206-210. -/
def erasePos (h : Heap Byte) (o : Obj) (epo n : Nat) (a : Option (Nat → Byte)) : Res :=
  erase rot h o (iat o epo) (min n ((o.size + 2 ^ 64 - epo) % 2 ^ 64)) a

/-- `replace (first, last, i1, i2, n)`: shrink or grow the hole, fill, terminate. Models ustring.cc:221-236. -/
def replace (h : Heap Byte) (o : Obj) (first last : Nat) (xs : List Byte) (n : Nat) (a : Option (Nat → Byte)) : Res :=
  let bte := last - first
  let bti := xs.length * n
  let r : Res :=
    if bti < bte then Memblock.erase 1 rot h o first (bte - bti) a
    else if bte < bti then Memblock.insert 1 rot h o first (bti - bte) a
    else some (true, h, o)
  thenStore (thenStore r (fun _ => first) (List.replicate n xs).flatten) (fun o1 => o1.size) [0]

/-- `replace (pos, len, s)`. Models ustring.h:182-186. -/
def replaceAt (h : Heap Byte) (o : Obj) (rp len : Nat) (xs : List Byte) (n : Nat) (a : Option (Nat → Byte)) : Res :=
  replace rot h o (iat o rp) (iat o (rp + len)) xs n a

/-- `at (k) = c`, `operator[]`. Models ustring.h:91. -/
def set (h : Heap Byte) (o : Obj) (k : Nat) (c : Byte) : Option (Heap Byte) := st h (adv o.ptr k) [c]

/-- `c_str()[k]`. -/
def cAt (h : Heap Byte) (o : Obj) (k : Nat) : Option Byte :=
  match ld h (adv o.ptr k) 1 with
  | some [c] => some c
  | _ => none

/-- Continue by copying `n` characters from `src` to offset `k` after a completed operation: the source is read
from the memory that operation left. -/
def copyFrom (r : Res) (k : Obj → Nat) (src : Option (Nat × Nat)) (n : Nat) : Res :=
  match r with
  | none => none
  | some (false, h1, o1) => some (false, h1, o1)
  | some (true, h1, o1) =>
    match ld h1 src n with
    | none => none
    | some xs =>
      match st h1 (adv o1.ptr (k o1)) xs with
      | none => none
      | some h2 => some (true, h2, o1)

/-- `s.iat (pos + n)` as an offset: the sum is computed in 64 bits. Models ustring.h:92, 109, 119. -/
def iatEnd (s : Obj) (pos n : Nat) : Nat := iat s ((pos + n) % 2 ^ 64)

/-- `assign (s, pos, n)`: the source range `[s.iat (pos), s.iat (pos + n))` is taken first, then the string is
resized, then the characters are copied. `assign (s)` and `operator= (s)` are `pos = 0`, `n = s.size()`;
`string (s, pos, n)` and `substr (pos, n)` apply it to a new string. A negative length is not modelled (`none`).
Models ustring.h:113, 118-119, 187, 246-250, ustring.cc:67-72. -/
def assignSub (h : Heap Byte) (o s : Obj) (pos n : Nat) (a : Option (Nat → Byte)) : Res :=
  let b := iat s pos
  let e := iatEnd s pos n
  if e < b then none else copyFrom (resize lit h o (e - b) a) (fun _ => 0) (adv s.ptr b) (e - b)

/-- `append (s, pos, n)`; `append (s)` and `operator+= (s)` are `pos = 0`, `n = s.size()`.
Models ustring.h:101, 108-109, 137, ustring.cc:83-88. -/
def appendSub (h : Heap Byte) (o s : Obj) (pos n : Nat) (a : Option (Nat → Byte)) : Res :=
  let b := iat s pos
  let e := iatEnd s pos n
  if e < b then none
  else copyFrom (resize lit h o (o.size + (e - b)) a) (fun o1 => o1.size - (e - b)) (adv s.ptr b) (e - b)

/-- `insert (ip, s, sp, slen)`. Models ustring.h:161, ustring.cc:186-195 with one repetition. -/
def insertSub (h : Heap Byte) (o : Obj) (ip : Nat) (s : Obj) (sp slen : Nat) (a : Option (Nat → Byte)) : Res :=
  let b := iat s sp
  let e := iatEnd s sp slen
  if e < b then none
  else thenStore (copyFrom (Memblock.insert 1 rot h o (iat o ip) (e - b) a) (fun _ => iat o ip) (adv s.ptr b) (e - b))
    (fun o1 => o1.size) [0]

/-- `replace (rp, n, s, sp, slen)`, and `replace (rp, n, s)` with `sp = 0`, `slen = s.size()`.
Models ustring.h:182-183, ustring.cc:221-236 with one repetition. -/
def replaceSub (h : Heap Byte) (o : Obj) (rp len : Nat) (s : Obj) (sp slen : Nat) (a : Option (Nat → Byte)) : Res :=
  let b := iat s sp
  let e := iatEnd s sp slen
  let first := iat o rp
  let last := iat o (rp + len)
  if e < b then none
  else
    let r : Res :=
      if e - b < last - first then Memblock.erase 1 rot h o first (last - first - (e - b)) a
      else if last - first < e - b then Memblock.insert 1 rot h o first (e - b - (last - first)) a
      else some (true, h, o)
    thenStore (copyFrom r (fun _ => first) (adv s.ptr b) (e - b)) (fun o1 => o1.size) [0]

/-- `copy (p, n, start)`: the characters stored at `p` (a buffer outside the string). Precondition (asserted):
`start <= size()`. Models ustring.cc:99-105. -/
def copyOut (h : Heap Byte) (o : Obj) (n start : Nat) : Option (List Byte) :=
  if o.size < start then none else ld h (adv o.ptr (iat o start)) (min n (o.size - start))

/-- `vformat`, given the whole text `f` the format produces: `vsnprintf` stores what fits (always
terminated), then the string is resized to the full length; repeated until it fitted. `fuel` bounds the
number of iterations. `asks` are the allocator's answers. Models ustring.cc:321-337. -/
def vformat (f : List Byte) : Nat → Heap Byte → Obj → (Nat → Option (Nat → Byte)) → Option Res
  | 0, _, _, _ => none
  | fuel + 1, h, o, asks =>
    let wcap := o.cap
    match (if wcap = 0 then some h else st h o.ptr (f.take (wcap - 1) ++ [0])) with
    | none => some none
    | some h1 =>
      match resize lit h1 o f.length (asks fuel) with
      | none => some none
      | some (false, h2, o2) => some (some (false, h2, o2))
      | some (true, h2, o2) =>
        if wcap ≤ f.length then vformat f fuel h2 o2 asks else some (some (true, h2, o2))

/-- `string (string&& v)`: the new object is swapped with `v` (first component: the new string, second: `v`
afterwards). Models ustring.h:221, memblock.h:53. -/
def moveCtor (o : Obj) : Obj × Obj := (o, Obj.empty)

/-! ## Histories -/

/-- The operations on several strings. `ctorPtr` links to `n` foreign characters at `p` that are followed by
NUL. -/
inductive Op where
  | ctor (i : Nat)
  | ctorPtr (i : Nat) (p : Nat × Nat) (n : Nat)
  | ctorCopy (i j : Nat)
  | ctorFill (i n : Nat) (c : Byte)
  | destroy (i : Nat)
  | resize (i n : Nat)
  | resizeFill (i n : Nat) (c : Byte)
  | assign (i : Nat) (xs : List Byte)
  | append (i : Nat) (xs : List Byte)
  | popBack (i : Nat)
  | insert (i pos : Nat) (xs : List Byte) (n : Nat)
  | erase (i pos n : Nat)
  | replace (i pos len : Nat) (xs : List Byte) (n : Nat)
  | set (i k : Nat) (c : Byte)
  | reserve (i n : Nat)
  | copyLink (i : Nat)
  | ctorSub (i j pos n : Nat)
  | assignSub (i j pos n : Nat)
  | appendSub (i j pos n : Nat)
  | insertSub (i ip j sp slen : Nat)
  | replaceSub (i rp len j sp slen : Nat)
  | swap (i j : Nat)

/-- One operation. Destruction is `memblock::~memblock` (ustring.h:67). -/
def step (w : World Byte) (op : Op) (a : Option (Nat → Byte)) : Option (Bool × World Byte) :=
  match op with
  | .ctor i => w.put i (some (true, w.heap, Str.ctor lit))
  | .ctorPtr i p n => w.put i (some (true, w.heap, Str.ctorPtr p n))
  | .ctorCopy i j => w.put i (Str.ctorCopy w.heap (w.obj j) a)
  | .ctorFill i n c => w.put i (Str.ctorFill w.heap n c a)
  | .destroy i => w.put i ((deallocate w.heap (w.obj i)).map fun r => (true, r.1, r.2))
  | .resize i n => w.put i (Str.resize lit w.heap (w.obj i) n a)
  | .resizeFill i n c => w.put i (Str.resizeFill lit w.heap (w.obj i) n c a)
  | .assign i xs => w.put i (Str.assign lit w.heap (w.obj i) xs a)
  | .append i xs => w.put i (Str.append lit w.heap (w.obj i) xs a)
  | .popBack i => w.put i (Str.popBack lit w.heap (w.obj i) a)
  | .insert i pos xs n => w.put i (Str.insertAt rot w.heap (w.obj i) pos xs n a)
  | .erase i pos n => w.put i (Str.erasePos rot w.heap (w.obj i) pos n a)
  | .replace i pos len xs n => w.put i (Str.replaceAt rot w.heap (w.obj i) pos len xs n a)
  | .set i k c => w.put i ((Str.set w.heap (w.obj i) k c).map fun h => (true, h, w.obj i))
  | .reserve i n => w.put i (Memblock.reserve 1 w.heap (w.obj i) n false a)
  | .copyLink i => w.put i (Memblock.reserve 1 w.heap (w.obj i) (w.obj i).size false a)
  | .ctorSub i j pos n => w.put i (Str.assignSub lit w.heap Obj.empty (w.obj j) pos n a)
  | .assignSub i j pos n => w.put i (Str.assignSub lit w.heap (w.obj i) (w.obj j) pos n a)
  | .appendSub i j pos n => w.put i (Str.appendSub lit w.heap (w.obj i) (w.obj j) pos n a)
  | .insertSub i ip j sp slen => w.put i (Str.insertSub rot w.heap (w.obj i) ip (w.obj j) sp slen a)
  | .replaceSub i rp len j sp slen => w.put i (Str.replaceSub rot w.heap (w.obj i) rp len (w.obj j) sp slen a)
  | .swap i j => some (true, (w.setObj i (w.obj j)).setObj j (w.obj i))

end Ustl.Str
