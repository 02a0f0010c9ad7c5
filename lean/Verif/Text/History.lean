import Verif.Text.RoundTrip
import Verif.Utf8.Lemmas
/-! # ostringstream: everything written is in str(), in order (C57) -/
namespace Ustl.Text
open Ustl.Stream

/-- What a user writes. -/
inductive WOp
  /-- `os.put (c)`, `os << c` -/
  | put (c : Byte)
  /-- `os.write (p, n)`, `os << "text"` -/
  | write (d : List Byte)
  /-- `os.format (...)`, the result of which is `t` -/
  | format (t : List Byte)
  /-- `os << v` -/
  | int (t : ITy) (v : Int)
  /-- `os << b` -/
  | bool (b : Bool)
  /-- `os << L'c'` -/
  | wchar (v : Nat)
  /-- `os.str ()` -/
  | str

/-- Do it. -/
def WOp.run : WOp → M TOS Unit
  | .put c => putc c
  | .write d => Text.write d
  | .format t => vformat t
  | .int t v => writeInt t v
  | .bool b => writeBool b
  | .wchar v => writeWchar v
  | .str => do let _ ← Text.str; pure ()

/-- The text of it, with the settings of the stream. -/
def WOp.text (f : Fmt) : WOp → List Byte
  | .put c => [c]
  | .write d => d
  | .format t => t
  | .int t v => intText f t v
  | .bool b => if b then "true".toUTF8.toList else "false".toUTF8.toList
  | .wchar v => Utf8.table v
  | .str => []

/-- The number is one of its type; a wide character has an encoding. -/
def WOp.Fits : WOp → Prop
  | .int t v => t ∈ ITy.all ∧ t.fits v
  | .wchar v => v < 2 ^ 31
  | _ => True

/-- Do all of it. -/
def writeAll : List WOp → M TOS Unit
  | [] => pure ()
  | op :: ops => do op.run; writeAll ops

theorem op_writes (op : WOp) {s : TOS} (h : s.Ok) (hf : s.fmt.Plain) (ho : op.Fits) (hl : s.text.length + (op.text s.fmt).length + 1 < 2 ^ 31) :
    ∃ s', op.run s = .ret () s' ∧ Wrote s s' (op.text s.fmt) := by
  cases op with
  | put c => exact putc_ok h c (by simp [WOp.text] at hl; omega)
  | write d => exact write_ok' h d (by simp only [WOp.text] at hl; omega)
  | format t => exact vformat_ok h t hl
  | int t v => exact writeInt_partial h hf ho.1 ho.2 hl
  | bool b =>
    have e : (if b then [116, 114, 117, 101] else [102, 97, 108, 115, 101] : List Byte) = WOp.text s.fmt (.bool b) := by
      have key : ∀ b : Bool, (if b then [116, 114, 117, 101] else [102, 97, 108, 115, 101] : List Byte) =
          (if b then "true".toUTF8.toList else "false".toUTF8.toList) := by decide +kernel
      exact key b
    have := write_ok' h (WOp.text s.fmt (.bool b)) (by omega)
    rw [← e] at this
    rw [← e]
    exact this
  | wchar v =>
    have hv : v < 2 ^ 31 := ho
    have hlen := Utf8.table_length hv
    have h8 : (Utf8.table v).length ≤ 8 := by unfold Utf8.table; repeat' split
                                              all_goals simp
    show ∃ s', writeWchar v s = .ret () s' ∧ _
    unfold writeWchar
    rw [Utf8.out_table hv]
    simp only
    rw [if_pos h8, ← hlen, List.take_length]
    exact write_ok' h (Utf8.table v) (by simp only [WOp.text] at hl; omega)
  | str =>
    obtain ⟨s', e, w⟩ := str_ok h
    exact ⟨s', M.bind_ret e, w⟩

/-- **C57**: after any number of writes, and of calls of `str ()` between them, `str ()` is what the stream held and all that was
written after it, in order; nothing is written outside the stream's memory and no exception is thrown. The text is smaller
than 2 GB. -/
theorem ostringstream_history (ops : List WOp) : ∀ {s : TOS}, s.Ok → s.fmt.Plain → (∀ op ∈ ops, op.Fits) →
    s.text.length + (ops.map (WOp.text s.fmt)).flatten.length + 1 < 2 ^ 31 →
    ∃ s', (do writeAll ops; str : M TOS (List Byte)) s = .ret (s.text ++ (ops.map (WOp.text s.fmt)).flatten) s' ∧ s'.Ok := by
  have main : ∀ (ops : List WOp) {s : TOS}, s.Ok → s.fmt.Plain → (∀ op ∈ ops, op.Fits) → s.text.length + (ops.map (WOp.text s.fmt)).flatten.length + 1 < 2 ^ 31 →
      ∃ s', writeAll ops s = .ret () s' ∧ s'.Ok ∧ s'.text = s.text ++ (ops.map (WOp.text s.fmt)).flatten := by
    intro ops
    induction ops with
    | nil => intro s h _ _ _; exact ⟨s, rfl, h, by simp⟩
    | cons op ops ih =>
      intro s h hf ho hl
      rw [List.map_cons, List.flatten_cons] at hl ⊢
      rw [List.length_append] at hl
      obtain ⟨s1, e1, w1⟩ := op_writes op h hf (ho op (by simp)) (by omega)
      have hfm := fmt_same w1
      obtain ⟨s2, e2, h2, t2⟩ := ih w1.ok (by rw [hfm]; exact hf) (fun o hm => ho o (by simp [hm])) (by rw [hfm, w1.text, List.length_append]; omega)
      refine ⟨s2, ?_, h2, ?_⟩
      · rw [writeAll, M.bind_ret e1]; exact e2
      · rw [t2, hfm, w1.text, List.append_assoc]
  intro s h hf ho hl
  obtain ⟨s1, e1, h1, t1⟩ := main ops h hf ho hl
  obtain ⟨s2, e2, w2⟩ := str_ok h1
  refine ⟨s2, ?_, w2.ok⟩
  rw [M.bind_ret e1, e2, t1]

/-- A new stream holds nothing and is in working order. -/
theorem new_ok (junk : Nat → Byte) : (TOS.ofString [] junk).Ok ∧ (TOS.ofString [] junk).text = [] ∧ (TOS.ofString [] junk).fmt.Plain := by
  refine ⟨⟨rfl, rfl, Nat.le_refl _, ?_, rfl⟩, rfl, ?_, Or.inl rfl⟩
  · show 0 < 2 ^ 31
    decide
  · intro h
    have e : (TOS.ofString [] junk).fmt.base = .dec → False := fun hb => by
      have : (TOS.ofString [] (fun _ => 0)).fmt.base = .dec := hb
      revert this
      have h' : (TOS.ofString [] (fun _ => 0)).fmt.showbase = true := h
      revert h'
      decide +kernel
    exact e

example (j : Nat → Byte) : ∃ s', (do writeAll [.put 97, .int ⟨32, true⟩ (-12), .bool true, .format [98, 99]]; str : M TOS (List Byte)) (.ofString [] j) =
    .ret "a-12truebc".toUTF8.toList s' ∧ s'.Ok := by
  obtain ⟨h1, h2, h3⟩ := new_ok j
  have hd : ((TOS.ofString [] j).text ++ ([WOp.put 97, .int ⟨32, true⟩ (-12), .bool true, .format [98, 99]].map (WOp.text (TOS.ofString [] j).fmt)).flatten) =
      "a-12truebc".toUTF8.toList := by
    have hf : (TOS.ofString [] j).fmt = (TOS.ofString [] (fun _ => 0)).fmt := rfl
    rw [h2, hf]
    decide +kernel
  have hlen := congrArg List.length hd
  rw [List.length_append] at hlen
  obtain ⟨s', e, h⟩ := ostringstream_history [.put 97, .int ⟨32, true⟩ (-12), .bool true, .format [98, 99]] h1 h3 (by
    intro op hop; simp at hop; rcases hop with rfl | rfl | rfl | rfl
    · trivial
    · exact ⟨by decide, by unfold ITy.fits; decide⟩
    · trivial
    · trivial) (by rw [hlen]; decide +kernel)
  refine ⟨s', ?_, h⟩
  rw [e, hd]

/-- **C57**, part that is false: a stream made with a text does not give that text back. `ostringstream ("abc").str ()` is empty,
whatever the text: the position is left at the start, and `str ()` cuts the text there. -/
theorem initial_text_violated (v : List Byte) (j : Nat → Byte) : ∃ s', str (.ofString v j) = .ret [] s' := by
  have e : growTo j v 0 = [] := by simp [growTo]
  refine ⟨{ TOS.ofString v j with os := { (TOS.ofString v j).os with buf := v.set 0 0 }, cap := max (v.length + 1) 1 }, ?_⟩
  rw [← e]
  rfl

example : ∃ s', str (.ofString "abc".toUTF8.toList) = .ret [] s' := initial_text_violated _ _

end Ustl.Text
