import Verif.File.IfsProps
import Verif.Stream.OutSafe
import Verif.Text.History
/-! # One stream written into another (C100)

`os << is`, `os.read (is)`, `istream is (os)`, `os << os2`, and the same into an `ostringstream`. -/
namespace Ustl.Pipe
open Ustl.Stream

/-- `[ipos(), ipos() + remaining())` of an `istream`; `none` if it is not all inside the linked block. Models mistream.h:77-79. -/
def unread (s : IS) : Option (List Byte) := slice s.buf s.pos s.remaining

/-- `[begin(), begin() + pos())` of an `ostream`. Models mostream.h:61, 75; mistream.cc:28. -/
def written (s : OS) : Option (List Byte) := slice s.buf 0 s.pos

/-- Go on with bytes that are there; `oob` otherwise. -/
def useBytes {σ α : Type} (d : Option (List Byte)) (f : List Byte → Out σ α) : Out σ α := match d with
  | none => .oob
  | some d => f d

theorem useBytes_some {σ α : Type} (d : List Byte) (f : List Byte → Out σ α) : useBytes (some d) f = f d := rfl

/-- Go on after an operation. -/
def after {σ τ α : Type} (o : Out σ Unit) (e : σ → Out τ α) (r : σ → Out τ α) : Out τ α := match o with
  | .oob => .oob
  | .exn s => e s
  | .ret _ s => r s

theorem after_ret {σ τ α : Type} (s : σ) (e : σ → Out τ α) (r : σ → Out τ α) : after (.ret () s) e r = r s := rfl

theorem after_exn {σ τ α : Type} (s : σ) (e : σ → Out τ α) (r : σ → Out τ α) : after (.exn s) e r = e s := rfl

/-- `is.write (os)`, `os << is`. Models mistream.cc:36-39. -/
def isWrite (is : IS) (s : OS) : Out OS Unit := useBytes (unread is) fun d => OS.write d s

/-- `os2.write (os)`, `os << os2`. Models mostream.h:75. -/
def osWrite (o : OS) (s : OS) : Out OS Unit := useBytes (written o) fun d => OS.write d s

/-- `is.stream_size()`. Models mistream.h:98. -/
def isSize (s : IS) : Nat := s.remaining

/-- `os.stream_size()`. Models mostream.h:77. -/
def osSize (s : OS) : Nat := s.pos

/-- `os.read (is)`: both streams are changed. Models mistream.cc:100-104. -/
def osRead (is : IS) (os : OS) : Out (IS × OS) Unit :=
  after (isWrite is os) (fun os' => .exn (is, os')) fun os' => after (IS.seek is.buf.length is) (fun is' => .exn (is', os')) fun is' => .ret () (is', os')

/-- `istream is (os)`; `none` if it is linked to more than the block of `os`. Models mistream.cc:26-30. -/
def ofOS (o : OS) : Option IS := (written o).map fun d => { buf := d }

/-- `is.text_write (os)`, `os << is` with an `ostringstream`, and `is` an `istream` or an `istringstream`. Models mistream.cc:42-45. -/
def isText (is : IS) (s : Text.TOS) : Out Text.TOS Unit := useBytes (unread is) fun d => Text.write d s

/-- `os2.text_write (os)`. Models mistream.cc:107-110. -/
def osText (o : OS) (s : Text.TOS) : Out Text.TOS Unit := useBytes (written o) fun d => Text.write d s

/-- `os << is`, with `is` an `ifstream`: `text_write` is that of `istream`, and `remaining()` what is in the buffer. Models mistream.cc:42-45, ofstream.h:45-71. -/
def ifsText (is : File.IFS) : M Text.TOS Unit := Text.write ((is.buf.drop is.pos).take is.remaining)

/-! ## Specification -/

/-- What has not been read yet. -/
def rest (s : IS) : List Byte := s.buf.drop s.pos

/-- What has been written. -/
def text (s : OS) : List Byte := s.buf.take s.pos

/-- `os'` is `os` with `d` written at its position. -/
def Added (os os' : OS) (d : List Byte) : Prop :=
  text os' = text os ++ d ∧ os'.pos = os.pos + d.length ∧ os'.buf.drop os'.pos = os.buf.drop (os.pos + d.length) ∧ os'.buf.length = os.buf.length ∧ os'.ios = os.ios ∧ os'.base = os.base

/-- `os'` is `os` except for the state, which says that a write failed. -/
def Failed (os os' : OS) : Prop := os'.buf = os.buf ∧ os'.pos = os.pos ∧ os'.base = os.base ∧ os'.ios.exc = os.ios.exc ∧ os'.ios.fail = true

instance (s : IS) : Decidable s.Inv := inferInstanceAs (Decidable (_ ∧ _))
instance (s : OS) : Decidable s.Inv := inferInstanceAs (Decidable (_ ∧ _))

theorem unread_eq {s : IS} (h : s.Inv) : unread s = some (rest s) := by
  have hr : s.remaining = s.buf.length - s.pos := by
    unfold IS.remaining
    have := h.1
    have := h.2
    rw [show s.buf.length + W - s.pos = (s.buf.length - s.pos) + W by omega, Nat.add_mod_right, Nat.mod_eq_of_lt (by omega)]
  unfold unread slice rest
  have := h.1
  rw [hr, if_pos (by omega), List.take_of_length_le (by simp)]

theorem written_eq {s : OS} (h : s.Inv) : written s = some (text s) := by
  unfold written slice text
  have := h.1
  rw [if_pos (by omega)]; rfl

theorem isWrite_eq {is : IS} {os : OS} (h : is.Inv) : isWrite is os = OS.write (rest is) os := by
  rw [isWrite, unread_eq h, useBytes_some]

theorem osWrite_eq {o : OS} {os : OS} (h : o.Inv) : osWrite o os = OS.write (text o) os := by
  rw [osWrite, written_eq h, useBytes_some]

theorem isText_eq {is : IS} {os : Text.TOS} (h : is.Inv) : isText is os = Text.write (rest is) os := by
  rw [isText, unread_eq h, useBytes_some]

theorem osText_eq {o : OS} {os : Text.TOS} (h : o.Inv) : osText o os = Text.write (text o) os := by
  rw [osText, written_eq h, useBytes_some]

theorem osRead_ret {is : IS} {os os' : OS} (h : isWrite is os = .ret () os') : osRead is os = .ret () ({ is with pos := is.buf.length }, os') := by
  rw [osRead, h, after_ret, IS.seek, if_neg (by omega), after_ret]

theorem osRead_exn {is : IS} {os os' : OS} (h : isWrite is os = .exn os') : osRead is os = .exn (is, os') := by
  rw [osRead, h, after_exn]

theorem added_after {s : OS} {d : List Byte} (h : s.pos + d.length ≤ s.buf.length) : Added s (s.after d) d := by
  have e1 : (s.buf.take s.pos ++ d).length = s.pos + d.length := by simp; omega
  refine ⟨?_, rfl, ?_, OS.after_buf_length h, rfl, rfl⟩
  · unfold text
    rw [OS.after_pos]
    unfold OS.after
    dsimp only
    rw [← e1, List.take_left]
  · rw [OS.after_pos]
    unfold OS.after
    dsimp only
    rw [← e1, List.drop_left]

theorem write_out {s : OS} (h : s.Inv) (d : List Byte) :
    (s.pos + d.length ≤ s.buf.length → ∃ s', OS.write d s = .ret () s' ∧ Added s s' d) ∧
    (s.buf.length < s.pos + d.length → ∃ s', Failed s s' ∧ (OS.write d s = .exn s' ∨ OS.write d s = .ret () s') ∧ (s.ios.exc = 7 → OS.write d s = .exn s') ∧
      (s.ios.exc = 0 → OS.write d s = .ret () s')) := by
  have hl : s.buf.length < W := by have := h.2; omega
  have hr := OS.remaining_eq h.1 hl
  refine ⟨fun hd => ⟨_, OS.write_ok hl hd, added_after hd⟩, fun hd => ?_⟩
  have hp := h.1
  have hn : ¬ d.length ≤ s.remaining := by rw [hr]; omega
  obtain ⟨v, hv, hvv⟩ : ∃ v, (v = 4 ∨ v = 6) ∧ s.ios.overrun s.remaining = ((⟨s.ios.state ||| v, s.ios.exc⟩ : Ios), decide (s.ios.exc &&& v ≠ 0)) := by
    refine ⟨if s.remaining % 2 ^ 32 ≠ 0 then 4 else 6, ?_, by unfold Ios.overrun; rfl⟩
    split
    · exact .inl rfl
    · exact .inr rfl
  have hf : Failed s { s with ios := ⟨s.ios.state ||| v, s.ios.exc⟩ } := by
    refine ⟨rfl, rfl, rfl, rfl, ?_⟩
    unfold Ios.fail
    simp only [decide_eq_true_eq]
    intro he
    have := congrArg (fun n => Nat.testBit n 2) he
    simp only [Nat.testBit_and, Nat.testBit_or, Nat.zero_testBit] at this
    rw [show Nat.testBit 5 2 = true from rfl, Bool.and_true, Bool.or_eq_false_iff] at this
    have h2 := this.2
    rcases hv with rfl | rfl <;> exact absurd h2 (by decide)
  have hver : OS.verify d.length s = if s.ios.exc &&& v ≠ 0 then .exn { s with ios := ⟨s.ios.state ||| v, s.ios.exc⟩ } else .ret false { s with ios := ⟨s.ios.state ||| v, s.ios.exc⟩ } := by
    unfold OS.verify
    rw [if_neg hn]
    unfold OS.over
    rw [hvv]
    by_cases hc : s.ios.exc &&& v = 0
    · simp [hc]
    · simp [hc]
  have hw : OS.write d s = if s.ios.exc &&& v ≠ 0 then .exn { s with ios := ⟨s.ios.state ||| v, s.ios.exc⟩ } else .ret () { s with ios := ⟨s.ios.state ||| v, s.ios.exc⟩ } := by
    unfold OS.write
    by_cases hc : s.ios.exc &&& v ≠ 0
    · rw [if_pos hc] at hver ⊢
      exact M.bind_exn hver
    · rw [if_neg hc] at hver ⊢
      rw [M.bind_ret hver]
      rfl
  refine ⟨_, hf, ?_, fun he => ?_, fun he => ?_⟩
  · rw [hw]
    by_cases hc : s.ios.exc &&& v ≠ 0
    · exact .inl (if_pos hc)
    · exact .inr (if_neg hc)
  · rw [hw, if_pos]
    rw [he]
    rcases hv with rfl | rfl <;> decide
  · rw [hw, if_neg]
    rw [he]
    simp

/-- **C100**: `os << is` writes all that has not been read, and nothing else; `is` is not changed (it is `const`). If that does not fit, nothing is written, and the
stream fails or throws. `stream_size` is the room it takes. -/
theorem os_from_is {is : IS} {os : OS} (hi : is.Inv) (ho : os.Inv) :
    isSize is = (rest is).length ∧
    (os.pos + (rest is).length ≤ os.buf.length → ∃ os', isWrite is os = .ret () os' ∧ Added os os' (rest is)) ∧
    (os.buf.length < os.pos + (rest is).length → ∃ os', Failed os os' ∧ (isWrite is os = .exn os' ∨ isWrite is os = .ret () os') ∧ (os.ios.exc = 7 → isWrite is os = .exn os')) := by
  have hu := unread_eq hi
  have hw := write_out ho (rest is)
  refine ⟨?_, ?_, ?_⟩
  · unfold unread slice at hu
    split at hu
    · rename_i hle
      have he := congrArg List.length (Option.some.inj hu)
      unfold isSize
      rw [← he]
      simp; omega
    · cases hu
  · rw [isWrite_eq hi]; exact hw.1
  · intro h
    obtain ⟨os', h1, h2, h3, _⟩ := hw.2 h
    rw [isWrite_eq hi]
    exact ⟨os', h1, h2, h3⟩

/-- Seven bytes, three of them read, into a block of eight, two of them written. -/
example : ∃ os', isWrite { buf := [1, 2, 3, 4, 5, 6, 7], pos := 3 } { buf := [9, 8, 0, 0, 0, 0, 0, 0], pos := 2 } = .ret () os' ∧ text os' = [9, 8, 4, 5, 6, 7] := by
  obtain ⟨os', h1, h2⟩ := (os_from_is (is := { buf := [1, 2, 3, 4, 5, 6, 7], pos := 3 }) (os := { buf := [9, 8, 0, 0, 0, 0, 0, 0], pos := 2 }) (by decide) (by decide)).2.1 (by decide)
  exact ⟨os', h1, h2.1⟩

/-- **C100**: `os << os2` writes all that was written to `os2`. -/
theorem os_from_os {o os : OS} (hi : o.Inv) (ho : os.Inv) :
    osSize o = (text o).length ∧ (os.pos + (text o).length ≤ os.buf.length → ∃ os', osWrite o os = .ret () os' ∧ Added os os' (text o)) ∧
    (os.buf.length < os.pos + (text o).length → ∃ os', Failed os os' ∧ (osWrite o os = .exn os' ∨ osWrite o os = .ret () os')) := by
  have hu := written_eq hi
  have hw := write_out ho (text o)
  refine ⟨?_, ?_, ?_⟩
  · have := hi.1
    simp [osSize, text]; omega
  · rw [osWrite_eq hi]; exact hw.1
  · intro h
    obtain ⟨os', h1, h2, _⟩ := hw.2 h
    rw [osWrite_eq hi]
    exact ⟨os', h1, h2⟩

example : ∃ os', osWrite { buf := [1, 2, 3, 4], pos := 3 } { buf := [9, 8, 0, 0, 0, 0, 0, 0], pos := 2 } = .ret () os' ∧ text os' = [9, 8, 1, 2, 3] := by
  obtain ⟨os', h1, h2⟩ := (os_from_os (o := { buf := [1, 2, 3, 4], pos := 3 }) (os := { buf := [9, 8, 0, 0, 0, 0, 0, 0], pos := 2 }) (by decide) (by decide)).2.1 (by decide)
  exact ⟨os', h1, h2.1⟩

/-- **C100**: `istream is (os)` reads, from the beginning, exactly what was written to `os`. -/
theorem is_of_os {o : OS} (h : o.Inv) : ∃ is, ofOS o = some is ∧ rest is = text o ∧ is.pos = 0 ∧ is.ios = {} := by
  unfold ofOS
  rw [written_eq h]
  exact ⟨_, rfl, rfl, rfl, rfl⟩

example : ∃ is, ofOS { buf := [1, 2, 3, 4], pos := 3 } = some is ∧ rest is = [1, 2, 3] :=
  let ⟨is, h1, h2, _⟩ := is_of_os (o := { buf := [1, 2, 3, 4], pos := 3 }) (by decide)
  ⟨is, h1, h2⟩

/-- **C100**, part: `os.read (is)`, if there is room: all that has not been read is written, and nothing is left to read. If there is no room and `os` throws, no
byte of either stream is moved. Missing: `os` does not throw (`read_loses_violated`). -/
theorem read_partial {is : IS} {os : OS} (hi : is.Inv) (ho : os.Inv) :
    (os.pos + (rest is).length ≤ os.buf.length → ∃ is' os', osRead is os = .ret () (is', os') ∧ Added os os' (rest is) ∧ is'.buf = is.buf ∧ rest is' = [] ∧ is'.ios = is.ios) ∧
    (os.buf.length < os.pos + (rest is).length → os.ios.exc = 7 → ∃ os', osRead is os = .exn (is, os') ∧ Failed os os') := by
  obtain ⟨_, h1, h2⟩ := os_from_is hi ho
  constructor
  · intro hf
    obtain ⟨os', e, ha⟩ := h1 hf
    exact ⟨{ is with pos := is.buf.length }, os', osRead_ret e, ha, rfl, by simp [rest], rfl⟩
  · intro hf hx
    obtain ⟨os', f, _, e⟩ := h2 hf
    exact ⟨os', osRead_exn (e hx), f⟩

example : ∃ is' os', osRead { buf := [1, 2, 3, 4, 5], pos := 3 } { buf := [9, 8, 0, 0, 0, 0, 0, 0], pos := 2 } = .ret () (is', os') ∧ text os' = [9, 8, 4, 5] := by
  obtain ⟨is', os', h1, h2, _⟩ := (read_partial (is := { buf := [1, 2, 3, 4, 5], pos := 3 }) (os := { buf := [9, 8, 0, 0, 0, 0, 0, 0], pos := 2 }) (by decide) (by decide)).1 (by decide)
  exact ⟨is', os', h1, h2.1⟩

/-- **C100** is false of `os.read (is)` when `os` has exceptions off and no room: nothing is written, and all is skipped: what was to be moved is in neither stream,
and `is` is as good as before. -/
theorem read_loses_violated {is : IS} {os : OS} (hi : is.Inv) (ho : os.Inv) (hx : os.ios.exc = 0) (hf : os.buf.length < os.pos + (rest is).length) :
    ∃ is' os', osRead is os = .ret () (is', os') ∧ Failed os os' ∧ rest is' = [] ∧ is'.ios = is.ios := by
  obtain ⟨os', f, _, _, e⟩ := (write_out ho (rest is)).2 hf
  exact ⟨{ is with pos := is.buf.length }, os', osRead_ret (by rw [isWrite_eq hi]; exact e hx), f, by simp [rest], rfl⟩

example : ∃ is' os', osRead { buf := [1, 2, 3] } { buf := [0, 0], ios := { exc := 0 } } = .ret () (is', os') ∧ rest is' = [] ∧ text os' = [] := by
  obtain ⟨is', os', h1, h2, h3, _⟩ := read_loses_violated (is := { buf := [1, 2, 3] }) (os := { buf := [0, 0], ios := { exc := 0 } }) (by decide) (by decide) rfl (by decide)
  exact ⟨is', os', h1, h3, by unfold text; rw [h2.2.1]; rfl⟩

/-- `os.read (is)` for each of `l`. -/
def readAll : List IS → OS → Out (List IS × OS) Unit
  | [], os => .ret () ([], os)
  | is :: l, os => after (osRead is os) (fun p => .exn (p.1 :: l, p.2)) fun p => after (readAll l p.2) (fun q => .exn (p.1 :: q.1, q.2)) fun q => .ret () (p.1 :: q.1, q.2)

theorem Added.nil {os : OS} : Added os os [] := ⟨by simp, by simp, by simp, rfl, rfl, rfl⟩

theorem Added.trans {a b c : OS} {d e : List Byte} (h : Added a b d) (h' : Added b c e) : Added a c (d ++ e) := by
  obtain ⟨a1, a2, a3, a4, a5, a6⟩ := h
  obtain ⟨b1, b2, b3, b4, b5, b6⟩ := h'
  refine ⟨by rw [b1, a1, List.append_assoc], by rw [b2, a2, List.length_append, Nat.add_assoc], ?_, by rw [b4, a4], by rw [b5, a5], by rw [b6, a6]⟩
  rw [b3, ← List.drop_drop, a3, List.drop_drop, List.length_append, Nat.add_assoc]

theorem Added.inv {a b : OS} {d : List Byte} (h : a.Inv) (hd : a.pos + d.length ≤ a.buf.length) (ha : Added a b d) : b.Inv := by
  obtain ⟨_, a2, _, a4, _, _⟩ := ha
  unfold OS.Inv at h ⊢
  rw [a2, a4]
  exact ⟨hd, h.2⟩

/-- **C100**: any number of streams moved into one with room for all of them: it has all their bytes, in order, and an `istream` of it reads them all back. -/
theorem read_all {l : List IS} : ∀ {os : OS}, (∀ is ∈ l, is.Inv) → os.Inv → os.pos + (l.map rest).flatten.length ≤ os.buf.length →
    ∃ r os', readAll l os = .ret () (r, os') ∧ Added os os' (l.map rest).flatten ∧ r.length = l.length ∧ (∀ is ∈ r, rest is = []) ∧
      ∃ is, ofOS os' = some is ∧ rest is = text os ++ (l.map rest).flatten := by
  induction l with
  | nil =>
    intro os _ ho _
    obtain ⟨is, e, hr, _⟩ := is_of_os ho
    exact ⟨[], os, rfl, Added.nil, rfl, by simp, is, e, by simp [hr]⟩
  | cons x l ih =>
    intro os hl ho hf
    simp only [List.map_cons, List.flatten_cons, List.length_append] at hf
    obtain ⟨is', os1, e1, a1, _, r1, _⟩ := (read_partial (hl x (by simp)) ho).1 (by omega)
    have h1 := a1.inv ho (by omega)
    have hp := a1.2.1
    have hb := a1.2.2.2.1
    obtain ⟨r, os2, e2, a2, len, r2, is, e3, r3⟩ := ih (os := os1) (fun i hi => hl i (by simp [hi])) h1 (by omega)
    refine ⟨is' :: r, os2, ?_, ?_, by simp [len], ?_, is, e3, ?_⟩
    · rw [readAll, e1, after_ret, e2, after_ret]
    · simpa using a1.trans a2
    · simpa using ⟨r1, r2⟩
    · rw [r3, a1.1]; simp

example : ∃ r os', readAll [{ buf := [1, 2, 3], pos := 1 }, { buf := [] }, { buf := [4] }] { buf := [0, 0, 0, 0] } = .ret () (r, os') ∧ text os' = [2, 3, 4] := by
  obtain ⟨r, os', h1, h2, _⟩ := read_all (l := [{ buf := [1, 2, 3], pos := 1 }, { buf := [] }, { buf := [4] }]) (os := { buf := [0, 0, 0, 0] }) (by decide) (by decide) (by decide)
  exact ⟨r, os', h1, h2.1⟩

/-! ## Text -/

/-- **C100**: `os << is` and `os << os2` with an `ostringstream`: the text is that of `os` followed by what has not been read of `is`, or has been written to `os2`. -/
theorem text_of_stream {os : Text.TOS} (ho : os.Ok) :
    (∀ is : IS, is.Inv → os.text.length + (rest is).length < 2 ^ 31 → ∃ os', isText is os = .ret () os' ∧ os'.text = os.text ++ rest is) ∧
    (∀ o : OS, o.Inv → os.text.length + (text o).length < 2 ^ 31 → ∃ os', osText o os = .ret () os' ∧ os'.text = os.text ++ text o) := by
  constructor
  · intro is hi hl
    obtain ⟨os', e, w⟩ := Text.write_ok' ho (rest is) hl
    refine ⟨os', ?_, w.text⟩
    rw [isText_eq hi]; exact e
  · intro o hi hl
    obtain ⟨os', e, w⟩ := Text.write_ok' ho (text o) hl
    refine ⟨os', ?_, w.text⟩
    rw [osText_eq hi]; exact e

example (j : Nat → Byte) : ∃ os', isText { buf := [1, 104, 105], pos := 1 } (.ofString [] j) = .ret () os' ∧ os'.text = [104, 105] := by
  obtain ⟨os', h1, h2⟩ := (text_of_stream (Text.new_ok j).1).1 { buf := [1, 104, 105], pos := 1 } (by decide) (by rw [(Text.new_ok j).2.1]; decide)
  exact ⟨os', h1, by rw [h2, (Text.new_ok j).2.1]; rfl⟩

/-- **C100** is false of an `ifstream`: `os << is` writes what happens to be in the buffer, and nothing of the rest of the file; of a stream just opened, nothing. -/
theorem text_of_file_violated {os : Text.TOS} (ho : os.Ok) :
    (∀ is : File.IFS, is.Ok → os.text.length + is.unread.length < 2 ^ 31 → ∃ os', ifsText is os = .ret () os' ∧ os'.text = os.text ++ is.unread) ∧
    (∀ (f : File.File) (size : Nat) (fill : Byte), os.text.length < 2 ^ 31 → (File.IFS.ofFile f size fill).ahead = f.src ∧ ∃ os', ifsText (File.IFS.ofFile f size fill) os = .ret () os' ∧ os'.text = os.text) := by
  constructor
  · intro is hi hl
    obtain ⟨os', e, w⟩ := Text.write_ok' ho is.unread hl
    refine ⟨os', ?_, w.text⟩
    unfold ifsText
    rw [show (is.buf.drop is.pos).take is.remaining = is.unread by rw [File.IFS.unread, File.IFS.remaining, List.drop_take]]
    exact e
  · intro f size fill hl
    obtain ⟨os', e, w⟩ := Text.write_ok' ho [] (by simpa using hl)
    refine ⟨by simp [File.IFS.ofFile, File.IFS.ahead, File.IFS.unread], os', ?_, by simpa using w.text⟩
    unfold ifsText
    rw [show ((File.IFS.ofFile f size fill).buf.drop (File.IFS.ofFile f size fill).pos).take (File.IFS.ofFile f size fill).remaining = [] by simp [File.IFS.ofFile, File.IFS.remaining]]
    exact e

/-- The file has five bytes, and none of them is written. -/
example (j : Nat → Byte) : ∃ os', ifsText (File.IFS.ofFile { src := [104, 101, 108, 108, 111] }) (.ofString [] j) = .ret () os' ∧ os'.text = [] :=
  let ⟨os', h1, h2⟩ := ((text_of_file_violated (Text.new_ok j).1).2 { src := [104, 101, 108, 108, 111] } 4095 0 (by rw [(Text.new_ok j).2.1]; decide)).2
  ⟨os', h1, by rw [h2, (Text.new_ok j).2.1]⟩

end Ustl.Pipe
