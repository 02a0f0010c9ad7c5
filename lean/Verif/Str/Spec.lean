import Verif.Str.Model
import Verif.Memblock.Spec
/-!
# What a string history means: character sequences

`Spec` gives the effect of each completed call on the character sequences; `none` is an object that does not
exist (not constructed yet, or destroyed).
-/
namespace Ustl.Str
open Ustl.Memblock

/-- Object `i` is now `x`; the others are as before. -/
def upd (v : Nat → Option (List Byte)) (i : Nat) (x : Option (List Byte)) : Nat → Option (List Byte) :=
  fun k => if k = i then x else v k

/-- Apply `f` to the characters of string `i`. -/
def edit (v : Nat → Option (List Byte)) (i : Nat) (f : List Byte → List Byte) : Nat → Option (List Byte) :=
  upd v i ((v i).map f)

/-- The effect of a completed call. Positions beyond the end mean the end. `fm p n` are the `n` foreign
characters at `p`. The characters that `resize (n)` adds are unspecified: they are read off `seen`, the
visible characters after the call. -/
def Op.apply (fm : Nat × Nat → Nat → List Byte) (seen : Nat → List Byte) (op : Op)
    (v : Nat → Option (List Byte)) : Nat → Option (List Byte) :=
  match op with
  | .ctor i => upd v i (some [])
  | .ctorPtr i p n => upd v i (some (fm p n))
  | .ctorCopy i j => upd v i (v j)
  | .ctorFill i n c => upd v i (some (List.replicate n c))
  | .destroy i => upd v i none
  | .resize i n => edit v i fun s => s.take n ++ (seen i).drop s.length
  | .resizeFill i n c => edit v i fun s => s.take n ++ List.replicate (n - s.length) c
  | .assign i xs => upd v i (some xs)
  | .append i xs => edit v i fun s => s ++ xs
  | .popBack i => edit v i fun s => s.dropLast
  | .insert i pos xs n => edit v i fun s => s.take pos ++ (List.replicate n xs).flatten ++ s.drop pos
  | .erase i pos n => edit v i fun s => s.take pos ++ s.drop (pos + n)
  | .replace i pos len xs n => edit v i fun s =>
      s.take pos ++ (List.replicate n xs).flatten ++ s.drop (pos + len)
  | .set i k c => edit v i fun s => s.set k c
  | .reserve _ _ => v
  | .copyLink _ => v
  | .ctorSub i j pos n | .assignSub i j pos n => upd v i ((v j).map fun t => (t.drop pos).take n)
  | .appendSub i j pos n => edit v i fun s => s ++ (((v j).getD []).drop pos).take n
  | .insertSub i ip j sp slen => edit v i fun s => s.take ip ++ (((v j).getD []).drop sp).take slen ++ s.drop ip
  | .replaceSub i rp len j sp slen => edit v i fun s =>
      s.take rp ++ (((v j).getD []).drop sp).take slen ++ s.drop (rp + len)
  | .swap i j => upd (upd v i (v j)) j (v i)

/-- Foreign characters `[p, p + n)` followed by NUL. -/
def CString (h : Heap Byte) (p : Nat × Nat) (n : Nat) : Prop :=
  ∃ b, h.blk p.1 = some b ∧ b.heap = false ∧ b.bytes[p.2 + n]? = some 0

/-- The contract. Besides the API's (objects exist, `pop_back` not on an empty string, `at (k)` within a string that
owns its characters) it excludes: sizes over `2^31` where rounding wraps; `erase` beyond the end
(`erase_pos_violated`); a string appended to itself without spare capacity (`append_self_violated`); assigning a
string a part of itself that overlaps its new terminator (`assign_self_violated`); inserting a part of a string into
itself; position plus length over 64 bits (`substr_wrap_violated`); a same-length `replace` in a linked string (`replace_linked_violated`); `reserve` of less
than the size of a linked string (`Ustl.Memblock.reserve_linked_violated`). -/
def Pre (w : World Byte) (op : Op) (v : Nat → Option (List Byte)) : Prop :=
  match op with
  | .ctor i => v i = none
  | .ctorPtr i p n => v i = none ∧ CString w.heap p n
  | .ctorCopy i j => v i = none ∧ v j ≠ none
  | .ctorFill i _ _ => v i = none
  | .destroy i => v i ≠ none
  | .resize i _ | .resizeFill i _ _ | .assign i _ | .append i _ => v i ≠ none
  | .popBack i => ∃ s, v i = some s ∧ s ≠ []
  | .insert i _ xs n => ∃ s, v i = some s ∧ s.length + xs.length * n + 1 ≤ 2 ^ 31
  | .erase i pos _ => ∃ s, v i = some s ∧ pos ≤ s.length ∧ s.length + 1 ≤ 2 ^ 31
  | .replace i pos len xs n => ∃ s, v i = some s ∧ s.length + xs.length * n + 1 ≤ 2 ^ 31 ∧
      ((w.obj i).cap = 0 → xs.length * n ≠ ((s.drop pos).take len).length)
  | .set i k _ => ∃ s, v i = some s ∧ k < s.length ∧ (w.obj i).cap ≠ 0
  | .reserve i n => ∃ s, v i = some s ∧ n + 1 ≤ 2 ^ 31 ∧ ((w.obj i).cap = 0 → s.length ≤ n)
  | .copyLink i => ∃ s, v i = some s ∧ s.length + 1 ≤ 2 ^ 31
  | .ctorSub i j pos n => v i = none ∧ v j ≠ none ∧ pos + n < 2 ^ 64
  | .assignSub i j pos n => v i ≠ none ∧ pos + n < 2 ^ 64 ∧ ∃ t, v j = some t ∧
      (i = j → (w.obj i).cap = 0 ∨ pos = 0 ∨ ((t.drop pos).take n).length < pos)
  | .appendSub i j pos n => v i ≠ none ∧ pos + n < 2 ^ 64 ∧ ∃ t, v j = some t ∧
      (i = j → (w.obj i).cap = 0 ∨ t.length + ((t.drop pos).take n).length + 1 ≤ (w.obj i).cap)
  | .insertSub i _ j sp slen => i ≠ j ∧ sp + slen < 2 ^ 64 ∧ ∃ s t, v i = some s ∧ v j = some t ∧
      s.length + ((t.drop sp).take slen).length + 1 ≤ 2 ^ 31
  | .replaceSub i rp len j sp slen => i ≠ j ∧ sp + slen < 2 ^ 64 ∧ ∃ s t, v i = some s ∧ v j = some t ∧
      s.length + ((t.drop sp).take slen).length + 1 ≤ 2 ^ 31 ∧
      ((w.obj i).cap = 0 → ((t.drop sp).take slen).length ≠ ((s.drop rp).take len).length)
  | .swap i j => v i ≠ none ∧ v j ≠ none

/-- Histories with the character sequences a user computes from the completed calls; calls that threw
`bad_alloc` change nothing. -/
inductive Hist (lit : Nat × Nat) (rot : List Byte → Nat → Nat → Nat → Option (List Byte)) :
    World Byte → List (Op × Bool) → World Byte → (Nat → Option (List Byte)) → Prop where
  | nil (w) : Hist lit rot w [] w (fun _ => none)
  | ok {w w1 w2 ops op a v} : Hist lit rot w ops w1 v → Pre w1 op v → step lit rot w1 op a = some (true, w2) →
      Hist lit rot w (ops ++ [(op, true)]) w2
        (op.apply (foreign w1.heap) (fun i => view w2.heap (w2.obj i)) v)
  | threw {w w1 w2 ops op a v} : Hist lit rot w ops w1 v → Pre w1 op v → step lit rot w1 op a = some (false, w2) →
      Hist lit rot w (ops ++ [(op, false)]) w2 v

/-- What a user sees of string `i`: `size()`, every character through `c_str()`, and the terminating NUL at
`c_str()[size()]`. -/
def Shows (w : World Byte) (i : Nat) (s : List Byte) : Prop :=
  (w.obj i).size = s.length ∧ (∀ k (h : k < s.length), cAt w.heap (w.obj i) k = some s[k]) ∧
  cAt w.heap (w.obj i) s.length = some 0

/-- The start of a program: no strings; foreign memory, among it the literal `""`. -/
def Initial (lit : Nat × Nat) (w : World Byte) : Prop := Memblock.Initial w ∧ CString w.heap lit 0

end Ustl.Str
