import Verif.Str.Props
/-!
# Text streams copied, assigned, moved, swapped (C102): model and specification

An `ostringstream` is the place where it writes (the `memlink` and `_pos` of its base `ostream`) and the string `_buffer`. Copying and moving are the
compiler's: member by member. The streams live in one heap; `st.str i` is the `_buffer` of stream `i`, `st.os i` its base part.

Simplified: the streams write without exceptions (as they are constructed) and their state is good; the format settings are members like any other and
are left out; `pos ()` is at most `size ()`, so that `remaining ()` does not wrap. `Ans` are the answers of the allocator: to `reserve` and to the
`resize` after it.
-/
namespace Ustl.Text.Copy
open Ustl.Memblock Ustl.Str

variable (lit : Nat × Nat)

/-- The answers of the allocator. -/
abbrev Ans := Nat → Option (Nat → Byte)

/-- The base of a stream: `_data`, `_size` (cmemlink.h:80-81), `_pos` (mostream.h:96). -/
structure Base where
  data : Option (Nat × Nat)
  size : Nat
  pos : Nat
deriving DecidableEq

/-- The streams of a program. -/
structure St where
  str : World Byte
  os : Nat → Base

/-- Replace the base of a stream. -/
def setOs (f : Nat → Base) (i : Nat) (b : Base) : Nat → Base := fun k => if k = i then b else f k

/-- What an operation on the `_buffer` of stream `i` leaves; when it completes, the base of the stream becomes `f` of it. -/
def St.put (s : St) (i : Nat) (r : Res) (f : Obj → Base) : Option (Bool × St) :=
  match r with
  | none => none
  | some (false, h, o) => some (false, ⟨⟨h, fun k => if k = i then o else s.str.obj k⟩, s.os⟩)
  | some (true, h, o) => some (true, ⟨⟨h, fun k => if k = i then o else s.str.obj k⟩, setOs s.os i (f o)⟩)

/-- `_buffer.reserve (pos + n, false); _buffer.resize (pos + n)`. Models sostream.cc:164-165. -/
def grow (h : Heap Byte) (o : Obj) (n : Nat) (a : Ans) : Res :=
  match Memblock.reserve 1 h o n false (a 0) with
  | none => none
  | some (false, h1, o1) => some (false, h1, o1)
  | some (true, h1, o1) => Str.resize lit h1 o1 n (a 1)

/-- `remaining ()`. Models mostream.h:64. -/
def Base.remaining (b : Base) : Nat := b.size - b.pos

/-- `overflow (n)`: the stream is linked to the grown buffer and goes back to where it was. Models sostream.cc:160-171. -/
def overflow (s : St) (i n : Nat) (a : Ans) : Option (Bool × St) :=
  if n > (s.os i).remaining then
    s.put i (grow lit s.str.heap (s.str.obj i) ((s.os i).pos + n) a) fun o => ⟨o.ptr, o.size, (s.os i).pos⟩
  else some (true, s)

/-- `ostream::write`: the bytes are stored where the base says. Models mostream.h:193-204. -/
def store (s : St) (i : Nat) (d : List Byte) : Option St :=
  match st s.str.heap (adv (s.os i).data (s.os i).pos) d with
  | none => none
  | some h => some ⟨{ s.str with heap := h }, setOs s.os i { s.os i with pos := (s.os i).pos + d.length }⟩

/-- The loop of `write`. Only one of its rounds can call `overflow` with something to do. Models sostream.cc:55-62. -/
def writeLoop : Nat → St → Nat → List Byte → Ans → Option (Bool × St)
  | 0, s, _, _, _ => some (true, s)
  | f + 1, s, i, d, a =>
    match (if (s.os i).remaining ≠ 0 then some (true, s) else overflow lit s i d.length a) with
    | none => none
    | some (false, s1) => some (false, s1)
    | some (true, s1) =>
      if min d.length (s1.os i).remaining = 0 then some (true, s1)
      else
        match store s1 i (d.take (min d.length (s1.os i).remaining)) with
        | none => none
        | some s2 => writeLoop f s2 i (d.drop (min d.length (s1.os i).remaining)) a

/-- `write (p, n)`, `<<` of text, and of a character (`iwrite (unsigned char)` does the same with one byte).
Models sostream.cc:48-62, sostream.h:41-43. -/
def write (s : St) (i : Nat) (d : List Byte) (a : Ans) : Option (Bool × St) := writeLoop lit (d.length + 1) s i d a

/-- `str ()`: `flush ()` cuts the buffer at the position; the returned text is then the buffer. Models sostream.h:66, 71. -/
def str (s : St) (i : Nat) (a : Ans) : Option (Bool × St) :=
  s.put i (Str.resize lit s.str.heap (s.str.obj i) (s.os i).pos (a 0)) fun _ => s.os i

/-- What `str ()` has returned. -/
def shown (s : St) (i : Nat) : List Byte := view s.str.heap (s.str.obj i)

/-- `str (v)`. Models sostream.cc:40-46. -/
def setStr (s : St) (i : Nat) (v : List Byte) (a : Ans) : Option (Bool × St) :=
  s.put i (Str.assign lit s.str.heap (s.str.obj i) v (a 0)) fun o => ⟨o.ptr, o.size, o.size⟩

/-- The default constructor: the buffer is a copy of a link to `""`. Models sostream.h:21, sostream.cc:27-38. -/
def ctor (s : St) (i : Nat) : Option (Bool × St) :=
  s.put i (some (true, s.str.heap, Str.ctor lit)) fun o => ⟨o.ptr, o.size, 0⟩

/-- The copy constructor the compiler makes: `memlink (rcself_t)`, `_pos`, `string (const string&)`. Models sostream.h:19-88, mostream.h:51-97,
memlink.h:45, ustring.cc:21-30. -/
def copyCtor (s : St) (i j : Nat) (a : Ans) : Option (Bool × St) :=
  s.put i (Str.ctorCopy s.str.heap (s.str.obj j) (a 0)) fun _ => s.os j

/-- The base part of an assignment `i = j`: `memlink::operator=` links, and `link` calls the virtual `unlink`, which for an `ostream` also sets `_pos`
to 0; after that `_pos` is copied. Models memlink.h:57, cmemlink.h:60, cmemlink.cc:18-24, mistream.cc:33. -/
def assignBase (f : Nat → Base) (i j : Nat) : Nat → Base :=
  let p := (f j).data
  let n := (f j).size
  let f1 := setOs f i ⟨none, 0, 0⟩
  let f2 := setOs f1 i { f1 i with data := p, size := n }
  setOs f2 i { f2 i with pos := (f2 j).pos }

/-- `os_i = os_j`: the base, then `_buffer = other._buffer`. Models sostream.h:19-88, ustring.h:118, 133. -/
def copyAssign (s : St) (i j : Nat) (a : Ans) : Option (Bool × St) :=
  St.put ⟨s.str, assignBase s.os i j⟩ i (Str.assignSub lit s.str.heap (s.str.obj i) (s.str.obj j) 0 (s.str.obj j).size (a 0)) fun _ => assignBase s.os i j i

/-- The move constructor the compiler makes: the base is copied (`memlink` has no move), the new buffer is swapped with the old. Models sostream.h:19-88,
ustring.h:221, memblock.h:53. -/
def moveCtor (s : St) (i j : Nat) : St :=
  ⟨(s.str.setObj j Obj.empty).setObj i (s.str.obj j), setOs s.os i (s.os j)⟩

/-- `os_i = move (os_j)`: the base is assigned, the buffers are swapped. Models sostream.h:19-88, ustring.h:223, 227. -/
def moveAssign (s : St) (i j : Nat) : St :=
  ⟨(s.str.setObj i (s.str.obj j)).setObj j (s.str.obj i), assignBase s.os i j⟩

/-- The destructor. Models memblock.cc:19. -/
def destroy (s : St) (i : Nat) : Option (Bool × St) :=
  s.put i ((deallocate s.str.heap (s.str.obj i)).map fun r => (true, r.1, r.2)) fun _ => s.os i

/-- `os_i.swap (os_j)`: the bases only. Models mostream.h:80, memlink.h:66, cmemlink.h:63. -/
def memberSwap (s : St) (i j : Nat) : St := ⟨s.str, setOs (setOs s.os i (s.os j)) j (s.os i)⟩

/-- `swap (os_i, os_j)`, `t` being the temporary. Models ualgobase.h:52-58. -/
def swap (s : St) (t i j : Nat) : Option (Bool × St) := destroy (moveAssign (moveAssign (moveCtor s t i) i j) j t) t

/-- What a round of `vformat` does, `t` being the whole text: what fits, and a NUL; when there was not room enough, `overflow` and another round.
Models sostream.cc:120-139. -/
def formatLoop : Nat → St → Nat → List Byte → Ans → Option (Bool × St)
  | 0, s, _, _, _ => some (true, s)
  | f + 1, s, i, t, a =>
    let room := (s.os i).remaining
    match (if room = 0 then some s.str.heap else st s.str.heap (adv (s.os i).data (s.os i).pos) (t.take (room - 1) ++ [0])) with
    | none => none
    | some h =>
      let s1 : St := ⟨{ s.str with heap := h }, s.os⟩
      if room ≤ t.length then
        match overflow lit s1 i (t.length + 1) a with
        | none => none
        | some (false, s2) => some (false, s2)
        | some (true, s2) => formatLoop f s2 i t a
      else some (true, ⟨s1.str, setOs s1.os i { s1.os i with pos := (s1.os i).pos + t.length }⟩)

/-- `format`, and `<<` of a number, the text of which is `t`. Models sostream.cc:120-149. -/
def format (s : St) (i : Nat) (t : List Byte) (a : Ans) : Option (Bool × St) := formatLoop lit 3 s i t a

/-! ## Specification -/

/-- What a user does with streams. -/
inductive Op where
  /-- `ostringstream i;` -/
  | ctor (i : Nat)
  /-- `i << text` -/
  | write (i : Nat) (d : List Byte)
  /-- `i << number`, `i.format (...)`, the text being `d` -/
  | format (i : Nat) (d : List Byte)
  /-- `i.str ()` -/
  | str (i : Nat)
  /-- `i.str (v)` -/
  | setStr (i : Nat) (v : List Byte)
  /-- `ostringstream i (j);` -/
  | copyCtor (i j : Nat)
  /-- `i = j;` -/
  | copyAssign (i j : Nat)
  /-- `ostringstream i (move (j));` -/
  | moveCtor (i j : Nat)
  /-- `i = move (j);` -/
  | moveAssign (i j : Nat)
  /-- the end of `i` -/
  | destroy (i : Nat)

/-- One operation. -/
def step (s : St) (op : Op) (a : Ans) : Option (Bool × St) :=
  match op with
  | .ctor i => Copy.ctor lit s i
  | .write i d => Copy.write lit s i d a
  | .format i d => Copy.format lit s i d a
  | .str i => Copy.str lit s i a
  | .setStr i v => Copy.setStr lit s i v a
  | .copyCtor i j => Copy.copyCtor s i j a
  | .copyAssign i j => Copy.copyAssign lit s i j a
  | .moveCtor i j => some (true, Copy.moveCtor s i j)
  | .moveAssign i j => some (true, Copy.moveAssign s i j)
  | .destroy i => Copy.destroy s i

/-- What is known of a stream: there is none; it can only be given a new value or destroyed; it holds the text, and only text was written to it; it holds
the text, and a number was written to it; it is a copy of one that a number was written to: it holds the text, but nothing can be written behind it. -/
inductive Val where
  | none
  | moved
  | text (t : List Byte)
  | num (t : List Byte)
  | seen (t : List Byte)
deriving DecidableEq

/-- The streams as values. -/
def upd (v : Nat → Val) (i : Nat) (x : Val) : Nat → Val := fun k => if k = i then x else v k

/-- The stream holds the text, and can be written to. -/
def Val.Has (x : Val) (t : List Byte) : Prop := x = .text t ∨ x = .num t

/-- `str ()` of the stream is the text. -/
def Val.Shows (x : Val) (t : List Byte) : Prop := x.Has t ∨ x = .seen t

/-- What a copy is. -/
def Val.copied (x : Val) : Val :=
  match x with
  | .num t => .seen t
  | x => x

/-- After `d` was written as text. -/
def Val.write (x : Val) (d : List Byte) : Val :=
  match x with
  | .text t => .text (t ++ d)
  | .num t => .num (t ++ d)
  | x => x

/-- After a number was written, the text of which is `d`. -/
def Val.format (x : Val) (d : List Byte) : Val :=
  match x with
  | .text t => .num (t ++ d)
  | .num t => .num (t ++ d)
  | x => x

/-- The effect of a call that completed. -/
def Op.apply (op : Op) (v : Nat → Val) : Nat → Val :=
  match op with
  | .ctor i => upd v i (.text [])
  | .write i d => upd v i ((v i).write d)
  | .format i d => upd v i ((v i).format d)
  | .str _ => v
  | .setStr i t => upd v i (.text t)
  | .copyCtor i j => upd v i (v j).copied
  | .copyAssign i j => upd v i (v j)
  | .moveCtor i j | .moveAssign i j => upd (upd v j .moved) i (v j)
  | .destroy i => upd v i .none

/-- The effect of a call that threw `bad_alloc`: none, except that an assignment, and text written behind a number, leave a stream that must be given a
new value. -/
def Op.threw (op : Op) (v : Nat → Val) : Nat → Val :=
  match op with
  | .copyAssign i _ => upd v i .moved
  | .write i _ =>
    match v i with
    | .num _ => upd v i .moved
    | _ => v
  | _ => v

/-- The contract: the streams exist, or not, as the call needs; one that was moved from is only assigned to or destroyed; a stream is not assigned to
itself (`self_assign_violated`); a copy of one that a number was written to is not written to
(`copy_after_number_violated`), and such a stream is not assigned from (`assign_after_number_violated`); the text stays under 2 GB. -/
def Pre (op : Op) (v : Nat → Val) : Prop :=
  match op with
  | .ctor i => v i = .none
  | .write i d | .format i d => ∃ t, (v i).Has t ∧ t.length + d.length + 2 ≤ 2 ^ 31
  | .str i => ∃ t, (v i).Shows t
  | .setStr i t => v i ≠ .none ∧ t.length < 2 ^ 31
  | .copyCtor i j => v i = .none ∧ ∃ t, (v j).Shows t
  | .moveCtor i j => v i = .none ∧ ∃ t, (v j).Shows t
  | .copyAssign i j => i ≠ j ∧ v i ≠ .none ∧ ∃ t, v j = .text t
  | .moveAssign i j => i ≠ j ∧ v i ≠ .none ∧ ∃ t, (v j).Shows t
  | .destroy i => v i ≠ .none

/-- Histories, with the values a user computes. -/
inductive Hist : St → List (Op × Bool) → St → (Nat → Val) → Prop where
  | nil (s) : Hist s [] s (fun _ => .none)
  | ok {s s1 s2 ops op a v} : Hist s ops s1 v → Pre op v → step lit s1 op a = some (true, s2) → Hist s (ops ++ [(op, true)]) s2 (op.apply v)
  | threw {s s1 s2 ops op a v} : Hist s ops s1 v → Pre op v → step lit s1 op a = some (false, s2) → Hist s (ops ++ [(op, false)]) s2 (op.threw v)

end Ustl.Text.Copy
