import Verif.Text.History
/-! # The text of pairs, containers and matrices (C81) -/
namespace Ustl.Text
open Ustl.Stream

/-! ## The values -/

/-- Types that can be written as text, built from one another without limit. -/
inductive TTy
  /-- `short`, `int`, `long` and the unsigned ones -/
  | int (t : ITy)
  /-- `int8_t` and `uint8_t` -/
  | byte (sgn : Bool)
  | bool
  | char
  | wchar
  /-- `string`, `const char*` -/
  | str
  | pair (a b : TTy)
  /-- `vector`, `array`, `tuple`, and `set`, `multiset`, `map`, `multimap`, which are vectors -/
  | seq (a : TTy)
  /-- `matrix<NX,NY,T>` -/
  | mat (nx ny : Nat) (a : TTy)

/-- The values of a type. -/
def TTy.Val : TTy → Type
  | .int _ => Int
  | .byte _ => Int
  | .bool => Bool
  | .char => Byte
  | .wchar => Nat
  | .str => List Byte
  | .pair a b => a.Val × b.Val
  | .seq a => List a.Val
  | .mat _ _ a => List (List a.Val)

/-- Something else for elements of type `int8_t` and `uint8_t`: the explicit specialisations. Models uctrstrm.h:114-116, uspecial.h:147-152. -/
def TTy.elem {X : Type} (b : Int → X) : (a : TTy) → (a.Val → X) → a.Val → X
  | .byte _, _ => b
  | .int _, w => w
  | .bool, w => w
  | .char, w => w
  | .wchar, w => w
  | .str, w => w
  | .pair _ _, w => w
  | .seq _, w => w
  | .mat _ _ _, w => w

/-! ## The functions -/

/-- The byte of a number. -/
def toByte (v : Int) : Byte := UInt8.ofNat (v % 256).toNat

/-- `isprint (v)` in the C locale; the behaviour is undefined unless `v` is an `unsigned char` or `EOF`. -/
def isPrint (v : Int) : Option Bool := if v < -1 ∨ 255 < v then none else some (decide (32 ≤ v ∧ v ≤ 126))

/-- `chartype_text_write (os, v)`: the formats are `'%c'` and `%d`. Models uspecial.h:140-145, ualgobase.cc:284. -/
def charWrite (v : Int) : M TOS Unit := match isPrint v with
  | none => ub
  | some true => vformat [39, toByte v, 39]
  | some false => match parseConv [37, 100] with
    | none => ub
    | some k => vformat (convPrint k v)

/-- `if (i != v.begin()) os << ','`. Models uctrstrm.h:124-125. -/
def comma (i : Nat) : M TOS Unit := if i = 0 then pure () else putc 44

/-- A loop over the elements and their numbers. -/
def eachIdx {α : Type} (f : Nat → α → M TOS Unit) : Nat → List α → M TOS Unit
  | _, [] => pure ()
  | i, v :: vs => do
    f i v
    eachIdx f (i + 1) vs

/-- The body of the loop of `container_text_write`. Models uctrstrm.h:124-126. -/
def seqBody {α : Type} (w : α → M TOS Unit) (i : Nat) (v : α) : M TOS Unit := do
  comma i
  w v

/-- `container_text_write (os, v)`. Models uctrstrm.h:119-130. -/
def seqWrite {α : Type} (w : α → M TOS Unit) (vs : List α) : M TOS Unit := do
  putc 40
  eachIdx (seqBody w) 0 vs
  putc 41

/-- `pair::text_write`. Models uspecial.h:72-76. -/
def pairWrite {α β : Type} (w : α → M TOS Unit) (x : β → M TOS Unit) (v : α × β) : M TOS Unit := do
  putc 40
  w v.1
  putc 44
  x v.2
  putc 41

/-- The body of the inner loop of `matrix::text_write`: each element is followed by one of the two characters of the literal. Models uspecial.h:164. -/
def colBody {α : Type} (w : α → M TOS Unit) (nx i : Nat) (v : α) : M TOS Unit := do
  w v
  putc (if i = nx - 1 then 41 else 44)

/-- The body of the outer loop. Models uspecial.h:161-165. -/
def rowBody {α : Type} (w : α → M TOS Unit) (nx : Nat) (_ : Nat) (r : List α) : M TOS Unit := do
  putc 40
  eachIdx (colBody w nx) 0 r

/-- `matrix::text_write`. Models uspecial.h:157-167. -/
def matWrite {α : Type} (w : α → M TOS Unit) (nx : Nat) (rs : List (List α)) : M TOS Unit := do
  putc 40
  eachIdx (rowBody w nx) 0 rs
  putc 41

/-- `os << v`. Models sostream.h:129-155. -/
def TTy.write : (a : TTy) → a.Val → M TOS Unit
  | .int t, v => (WOp.int t v).run
  | .byte _, v => putc (toByte v)
  | .bool, b => (WOp.bool b).run
  | .char, c => putc c
  | .wchar, v => (WOp.wchar v).run
  | .str, d => Text.write d
  | .pair a b, v => pairWrite a.write b.write v
  | .seq a, vs => seqWrite (TTy.elem charWrite a a.write) vs
  | .mat nx _ a, rs => matWrite a.write nx rs

/-! ## Specification -/

/-- A byte as an element: a printable character in quotes, the number otherwise. -/
def byteText (v : Int) : List Byte := if 32 ≤ v ∧ v ≤ 126 then [39] ++ [toByte v] ++ [39] else intText {} ⟨32, true⟩ v

/-- Things in parentheses, with commas between them. -/
def listText (ts : List (List Byte)) : List Byte := [40] ++ [44].intercalate ts ++ [41]

/-- One thing for bytes, another for all other types. -/
def TTy.ifByte {X : Type} (b : Int → X) : (a : TTy) → (a.Val → X) → a.Val → X
  | .byte _, _ => b
  | .int _, w => w
  | .bool, w => w
  | .char, w => w
  | .wchar, w => w
  | .str, w => w
  | .pair _ _, w => w
  | .seq _, w => w
  | .mat _ _ _, w => w

/-- The text of a value. -/
def TTy.text (f : Fmt) : (a : TTy) → a.Val → List Byte
  | .int t, v => intText f t v
  | .byte _, v => [toByte v]
  | .bool, (b : Bool) => if b then "true".toUTF8.toList else "false".toUTF8.toList
  | .char, c => [c]
  | .wchar, v => Utf8.table v
  | .str, d => d
  | .pair a b, v => listText [a.text f v.1, b.text f v.2]
  | .seq a, vs => listText (List.map (TTy.ifByte byteText a (a.text f)) vs)
  | .mat _ _ a, rs => [40] ++ (List.map (fun r => listText (List.map (a.text f) r)) rs).flatten ++ [41]

/-- The values are those of their types; elements are bytes for which `isprint` is defined. -/
def TTy.Fits : (a : TTy) → a.Val → Prop
  | .int t, v => t ∈ ITy.all ∧ t.fits v
  | .byte sgn, (v : Int) => if sgn then -128 ≤ v ∧ v < 128 else 0 ≤ v ∧ v < 256
  | .bool, _ => True
  | .char, _ => True
  | .wchar, (v : Nat) => v < 2 ^ 31
  | .str, _ => True
  | .pair a b, v => a.Fits v.1 ∧ b.Fits v.2
  | .seq a, vs => (∀ v ∈ (show List a.Val from vs), a.Fits v ∧ TTy.ifByte (fun v => (-1 ≤ v ∧ v ≤ 255)) a (fun _ => True) v)
  | .mat nx ny a, rs => 0 < nx ∧ List.length rs = ny ∧ ∀ r ∈ (show List (List a.Val) from rs), r.length = nx ∧ ∀ v ∈ r, a.Fits v

/-! ## What is written -/

/-- With these settings, it writes that. -/
def Puts (f : Fmt) (m : M TOS Unit) (d : List Byte) : Prop :=
  ∀ s : TOS, s.Ok → s.fmt = f → s.text.length + d.length + 1 < 2 ^ 31 → ∃ s', m s = .ret () s' ∧ Wrote s s' d

theorem Puts.nil (f : Fmt) : Puts f (pure ()) [] := fun s h _ _ => ⟨s, rfl, Wrote.refl h⟩

theorem Puts.bind {f : Fmt} {m n : M TOS Unit} {d e : List Byte} (hm : Puts f m d) (hn : Puts f n e) : Puts f (do m; n) (d ++ e) := by
  intro s h hf hl
  rw [List.length_append] at hl
  obtain ⟨s1, e1, w1⟩ := hm s h hf (by omega)
  obtain ⟨s2, e2, w2⟩ := hn s1 w1.ok (by rw [fmt_same w1, hf]) (by rw [w1.text, List.length_append]; omega)
  exact ⟨s2, by rw [M.bind_ret e1, e2], w1.trans w2⟩

theorem Puts.putc (f : Fmt) (c : Byte) : Puts f (Text.putc c) [c] := fun s h _ hl => putc_ok h c (by simp only [List.length_singleton] at hl; omega)

theorem Puts.op {f : Fmt} (op : WOp) (hp : f.Plain) (ho : op.Fits) : Puts f op.run (op.text f) := by
  intro s h hf hl
  subst hf
  exact op_writes op h hp ho hl

theorem Puts.vformat (f : Fmt) (t : List Byte) : Puts f (Text.vformat t) t := fun _ h _ hl => vformat_ok h t hl

theorem print_d (v : Int) (h : -128 ≤ v ∧ v < 256) : ∃ k, parseConv [37, 100] = some k ∧ convPrint k v = intText {} ⟨32, true⟩ v := by
  have hf : (TOS.ofString [] (fun _ => 0)).fmt = {} := by decide +kernel
  have he : fmtString (TOS.ofString [] (fun _ => 0)).flags (TOS.ofString [] (fun _ => 0)).width (TOS.ofString [] (fun _ => 0)).fill ⟨32, true⟩ = [37, 100] := by decide +kernel
  have := parse_fmt (t := ⟨32, true⟩) (by simp [ITy.all]) (v := v) (by simp [ITy.fits]; omega) (TOS.ofString [] (fun _ => 0)) (new_ok _).2.2
  rw [he, hf] at this
  exact this

theorem Puts.charWrite (f : Fmt) (v : Int) (h : -1 ≤ v ∧ v ≤ 255) : Puts f (Text.charWrite v) (byteText v) := by
  unfold Text.charWrite isPrint byteText
  rw [if_neg (by omega)]
  by_cases hp : 32 ≤ v ∧ v ≤ 126
  · rw [decide_eq_true hp, if_pos hp]
    exact Puts.vformat f _
  · rw [decide_eq_false hp, if_neg hp]
    obtain ⟨k, e1, e2⟩ := print_d v (by omega)
    rw [e1]
    simp only
    rw [e2]
    exact Puts.vformat f _

theorem comma_intercalate (t : List Byte) (ts : List (List Byte)) (i : Nat) :
    (if i = 0 then [] else [44]) ++ ([44].intercalate (t :: ts)) = (if i = 0 then [] else [44]) ++ t ++ (if ts = [] then [] else [44] ++ [44].intercalate ts) := by
  cases ts <;> simp [List.intercalate, List.intersperse]

theorem Puts.seqBody {f : Fmt} {α : Type} {w : α → M TOS Unit} {t : List Byte} (i : Nat) (v : α) (h : Puts f (w v) t) :
    Puts f (Text.seqBody w i v) ((if i = 0 then [] else [44]) ++ t) := by
  have hc : Puts f (comma i) (if i = 0 then [] else [44]) := by
    unfold comma
    split
    · exact Puts.nil f
    · exact Puts.putc f 44
  unfold Text.seqBody
  exact hc.bind h

theorem Puts.seqLoop {f : Fmt} {α : Type} {w : α → M TOS Unit} {t : α → List Byte} : ∀ (vs : List α), (∀ v ∈ vs, Puts f (w v) (t v)) → ∀ i,
    Puts f (eachIdx (Text.seqBody w) i vs) (if vs = [] then [] else (if i = 0 then [] else [44]) ++ [44].intercalate (vs.map t)) := by
  intro vs
  induction vs with
  | nil => intro _ i; exact Puts.nil f
  | cons v vs ih =>
    intro h i
    have := (Puts.seqBody i v (h v (by simp))).bind (ih (fun x hx => h x (by simp [hx])) (i + 1))
    rw [eachIdx, if_neg (List.cons_ne_nil _ _), List.map_cons, comma_intercalate]
    have e : (if vs = [] then [] else (if i + 1 = 0 then [] else [44]) ++ [44].intercalate (vs.map t)) =
        (if vs.map t = [] then [] else [44] ++ [44].intercalate (vs.map t)) := by
      cases vs <;> simp
    rw [e] at this
    exact this

theorem Puts.seqWrite {f : Fmt} {α : Type} {w : α → M TOS Unit} {t : α → List Byte} (vs : List α) (h : ∀ v ∈ vs, Puts f (w v) (t v)) :
    Puts f (Text.seqWrite w vs) (listText (vs.map t)) := by
  have := (Puts.putc f 40).bind ((Puts.seqLoop vs h 0).bind (Puts.putc f 41))
  have e : (if vs = [] then [] else (if 0 = 0 then [] else [44]) ++ [44].intercalate (vs.map t)) = [44].intercalate (vs.map t) := by
    cases vs <;> simp [List.intercalate]
  rw [e, ← List.append_assoc] at this
  unfold Text.seqWrite listText
  exact this

theorem Puts.pairWrite {f : Fmt} {α β : Type} {w : α → M TOS Unit} {x : β → M TOS Unit} {t u : List Byte} (v : α × β) (h : Puts f (w v.1) t) (h' : Puts f (x v.2) u) :
    Puts f (Text.pairWrite w x v) (listText [t, u]) := by
  have := (Puts.putc f 40).bind (h.bind ((Puts.putc f 44).bind (h'.bind (Puts.putc f 41))))
  have e : listText [t, u] = [40] ++ (t ++ ([44] ++ (u ++ [41]))) := by simp [listText, List.intercalate]
  rw [e]
  unfold Text.pairWrite
  exact this

theorem Puts.colBody {f : Fmt} {α : Type} {w : α → M TOS Unit} {t : List Byte} (nx i : Nat) (v : α) (h : Puts f (w v) t) :
    Puts f (Text.colBody w nx i v) (t ++ [if i = nx - 1 then 41 else 44]) := by
  unfold Text.colBody
  exact h.bind (Puts.putc f _)

theorem Puts.rowLoop {f : Fmt} {α : Type} {w : α → M TOS Unit} {t : α → List Byte} (nx : Nat) : ∀ (vs : List α), (∀ v ∈ vs, Puts f (w v) (t v)) → vs ≠ [] →
    ∀ i, i + vs.length = nx → Puts f (eachIdx (Text.colBody w nx) i vs) ([44].intercalate (vs.map t) ++ [41]) := by
  intro vs
  induction vs with
  | nil => intro _ h; exact absurd rfl h
  | cons v vs ih =>
    intro h _ i hi
    rw [List.length_cons] at hi
    have hb := Puts.colBody nx i v (h v (by simp))
    rw [eachIdx]
    by_cases he : vs = []
    · subst he
      rw [if_pos (by simp at hi; omega)] at hb
      have := hb.bind (Puts.nil f)
      rw [List.append_nil] at this
      rw [eachIdx, show [44].intercalate ([v].map t) ++ [41] = t v ++ [41] by simp [List.intercalate]]
      exact this
    · have hl : vs.length ≠ 0 := by simpa using he
      rw [if_neg (by omega)] at hb
      have := hb.bind (ih (fun x hx => h x (by simp [hx])) he (i + 1) (by omega))
      have e : [44].intercalate ((v :: vs).map t) ++ [41] = (t v ++ [44]) ++ ([44].intercalate (vs.map t) ++ [41]) := by
        cases vs with
        | nil => exact absurd rfl he
        | cons x xs => simp [List.intercalate]
      rw [e]
      exact this

theorem Puts.matLoop {f : Fmt} {α : Type} {w : α → M TOS Unit} {t : α → List Byte} (nx : Nat) (h0 : 0 < nx) : ∀ (rs : List (List α)),
    (∀ r ∈ rs, r.length = nx ∧ ∀ v ∈ r, Puts f (w v) (t v)) → ∀ i, Puts f (eachIdx (rowBody w nx) i rs) (rs.map fun r => listText (r.map t)).flatten := by
  intro rs
  induction rs with
  | nil => intro _ i; exact Puts.nil f
  | cons r rs ih =>
    intro h i
    obtain ⟨h1, h2⟩ := h r (by simp)
    have hr : r ≠ [] := by intro e; subst e; simp at h1; omega
    have hb : Puts f (rowBody w nx i r) (listText (r.map t)) := by
      have := (Puts.putc f 40).bind (Puts.rowLoop nx r h2 hr 0 (by omega))
      rw [← List.append_assoc] at this
      unfold rowBody listText
      exact this
    have := hb.bind (ih (fun x hx => h x (by simp [hx])) (i + 1))
    rw [eachIdx, List.map_cons, List.flatten_cons]
    exact this

theorem Puts.matWrite {f : Fmt} {α : Type} {w : α → M TOS Unit} {t : α → List Byte} (nx : Nat) (h0 : 0 < nx) (rs : List (List α))
    (h : ∀ r ∈ rs, r.length = nx ∧ ∀ v ∈ r, Puts f (w v) (t v)) : Puts f (Text.matWrite w nx rs) ([40] ++ (rs.map fun r => listText (r.map t)).flatten ++ [41]) := by
  have := (Puts.putc f 40).bind ((Puts.matLoop nx h0 rs h 0).bind (Puts.putc f 41))
  rw [← List.append_assoc] at this
  unfold Text.matWrite
  exact this

/-- **C81** (partial): the text of a value put together from other values is the text of its parts: a pair is `(a,b)`, a container is
`(a,b,c)`, bytes in it in quotes if they can be printed and as numbers if not, a matrix is `((a,b)(c,d))`, to any depth; nothing else is
written. What is missing: negative bytes as elements (`negative_byte_violated`), and the settings of C42. -/
theorem composite_text_partial (a : TTy) (v : a.Val) {s : TOS} (h : s.Ok) (hf : s.fmt.Plain) (hv : a.Fits v) (hl : s.text.length + (a.text s.fmt v).length + 1 < 2 ^ 31) :
    ∃ s', a.write v s = .ret () s' ∧ Wrote s s' (a.text s.fmt v) := by
  have main : ∀ (f : Fmt), f.Plain → ∀ (a : TTy) (v : a.Val), a.Fits v → Puts f (a.write v) (a.text f v) := by
    intro f hf a
    induction a with
    | int t => intro v hv; exact Puts.op (.int t v) hf hv
    | byte sgn => intro v _; exact Puts.putc f _
    | bool => intro b _; exact Puts.op (.bool b) hf trivial
    | char => intro c _; exact Puts.putc f c
    | wchar => intro v hv; exact Puts.op (.wchar v) hf hv
    | str => intro d _; exact Puts.op (.write d) hf trivial
    | pair a b iha ihb => intro v hv; exact Puts.pairWrite v (iha v.1 hv.1) (ihb v.2 hv.2)
    | seq a ih =>
      intro vs hv
      refine Puts.seqWrite (α := a.Val) vs fun v hm => ?_
      obtain ⟨h1, h2⟩ := hv v hm
      cases a with
      | byte sgn => exact Puts.charWrite f v h2
      | _ => exact ih v h1
    | mat nx ny a ih =>
      intro rs hv
      obtain ⟨h0, _, h1⟩ := hv
      exact Puts.matWrite (α := a.Val) nx h0 rs fun r hr => ⟨(h1 r hr).1, fun v hm => ih v ((h1 r hr).2 v hm)⟩
  exact main s.fmt hf a v hv s h rfl hl

/-- `vector<pair<int,string>>`: `((1,a),(-2,bc))` -/
example (j : Nat → Byte) : ∃ s', (TTy.seq (.pair (.int ⟨32, true⟩) .str)).write [((1 : Int), [97]), ((-2 : Int), [98, 99])] (.ofString [] j) = .ret () s' ∧
    s'.text = "((1,a),(-2,bc))".toUTF8.toList := by
  obtain ⟨h1, h2, h3⟩ := new_ok j
  have e : (TTy.seq (.pair (.int ⟨32, true⟩) .str)).text (TOS.ofString [] j).fmt [((1 : Int), [97]), ((-2 : Int), [98, 99])] = "((1,a),(-2,bc))".toUTF8.toList := by
    have hf : (TOS.ofString [] j).fmt = (TOS.ofString [] (fun _ => 0)).fmt := rfl
    rw [hf]
    decide +kernel
  obtain ⟨s', a, w⟩ := composite_text_partial (.seq (.pair (.int ⟨32, true⟩) .str)) [((1 : Int), [97]), ((-2 : Int), [98, 99])] h1 h3
    (by
      intro v hv
      rcases List.mem_cons.1 hv with rfl | hv
      · simp [TTy.Fits, TTy.ifByte, ITy.all, ITy.fits]
      · cases List.mem_singleton.1 hv
        simp [TTy.Fits, TTy.ifByte, ITy.all, ITy.fits]) (by rw [e, h2]; decide +kernel)
  exact ⟨s', a, by rw [w.text, h2, e, List.nil_append]⟩

/-- A matrix, and bytes in a container: `((1,2)(3,4))`, `('a',10,',')`. -/
example : (TTy.mat 2 2 (.int ⟨32, true⟩)).text {} [[(1 : Int), (2 : Int)], [(3 : Int), (4 : Int)]] = "((1,2)(3,4))".toUTF8.toList ∧
    (TTy.seq (.byte false)).text {} [(97 : Int), (10 : Int), (44 : Int)] = "('a',10,',')".toUTF8.toList := by decide +kernel

theorem seqWrite_eq {α : Type} (w : α → M TOS Unit) (vs : List α) : seqWrite w vs = (do putc 40; eachIdx (seqBody w) 0 vs; putc 41 : M TOS Unit) := by
  unfold seqWrite
  rfl

theorem seqWrite_first {α : Type} (w : α → M TOS Unit) (vs : List α) {s s1 : TOS} (e1 : putc 40 s = .ret () s1) :
    (do putc 40; eachIdx (seqBody w) 0 vs; putc 41 : M TOS Unit) s = (do eachIdx (seqBody w) 0 vs; putc 41 : M TOS Unit) s1 := M.bind_ret e1

theorem seqWrite_rest {α : Type} (w : α → M TOS Unit) (vs : List α) {s1 : TOS} (he : eachIdx (seqBody w) 0 vs s1 = .oob) :
    (do eachIdx (seqBody w) 0 vs; putc 41 : M TOS Unit) s1 = .oob := M.bind_oob he

theorem seqWrite_oob {α : Type} (w : α → M TOS Unit) (v : α) (vs : List α) (hw : w v = ub) {s : TOS} (h : s.Ok) (hl : s.text.length + 2 < 2 ^ 31) : seqWrite w (v :: vs) s = .oob := by
  obtain ⟨s1, e1, _⟩ := putc_ok h 40 (by omega)
  have hb : seqBody w 0 v = fun _ => .oob := by
    unfold seqBody comma
    rw [hw, if_pos rfl]
    rfl
  have he : eachIdx (seqBody w) 0 (v :: vs) s1 = .oob := by
    rw [eachIdx, hb]
    rfl
  exact (congrFun (seqWrite_eq w (v :: vs)) s).trans ((seqWrite_first w (v :: vs) e1).trans (seqWrite_rest w (v :: vs) he))

theorem write_seq (a : TTy) (vs : List a.Val) : (TTy.seq a).write vs = seqWrite (TTy.elem charWrite a a.write) vs := rfl

theorem elem_byte {X : Type} (b : Int → X) (sgn : Bool) (w : Int → X) : TTy.elem b (.byte sgn) w = b := rfl

/-- **C81** (negative result): writing a container that starts with a negative `int8_t` (other than -1) has undefined behaviour: `isprint` is
called with it. -/
theorem negative_byte_violated (v : Int) (vs : List Int) (hv : v < -1) {s : TOS} (h : s.Ok) (hl : s.text.length + 2 < 2 ^ 31) : (TTy.seq (.byte true)).write (v :: vs) s = .oob := by
  have hc : charWrite v = ub := by
    unfold charWrite isPrint
    rw [if_pos (Or.inl hv)]
  have e : ∀ vs : List Int, (TTy.seq (.byte true)).write vs = seqWrite charWrite vs := by
    intro vs
    refine (write_seq (.byte true) vs).trans ?_
    generalize TTy.write (.byte true) = w
    rw [elem_byte charWrite true w]
    rfl
  exact (congrFun (e (v :: vs)) s).trans (seqWrite_oob charWrite v vs hc h hl)

example (j : Nat → Byte) : (TTy.seq (.byte true)).write [(-5 : Int)] (.ofString [] j) = .oob :=
  negative_byte_violated (-5) [] (by decide) (new_ok j).1 (by rw [(new_ok j).2.1]; decide)

end Ustl.Text
