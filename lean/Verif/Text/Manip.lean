import Verif.Text.History
/-! # Format settings and manipulators of text streams (C80) -/
namespace Ustl.Text
open Ustl.Stream

/-! ## The names and their bits -/

/-- The names of the flags. Models uios.h:17-32. -/
inductive Flag
  | boolalpha | showbase | showpoint | showpos | skipws | unitbuf | uppercase | dec | oct | hex | fixed | scientific | left | right | internal
deriving DecidableEq, Repr

/-- The bit of a flag. Models uios.h:18-32. -/
def Flag.pos : Flag → Nat
  | .boolalpha => 0 | .showbase => 1 | .showpoint => 2 | .showpos => 3 | .skipws => 4 | .unitbuf => 5 | .uppercase => 6 | .dec => 7
  | .oct => 8 | .hex => 9 | .fixed => 10 | .scientific => 11 | .left => 12 | .right => 13 | .internal => 14

/-- A combination `a | b | …` of flags. -/
def mask : List Flag → Nat
  | [] => 0
  | f :: fs => 2 ^ f.pos ||| mask fs

/-- `basefield`. Models uios.h:33. -/
def basefield : Nat := mask [.dec, .oct, .hex]

/-- `floatfield`. Models uios.h:34. -/
def floatfield : Nat := mask [.fixed, .scientific]

/-- `adjustfield`. Models uios.h:35. -/
def adjustfield : Nat := mask [.left, .right, .internal]

/-! ## The functions -/

/-- `flags (f)`; the result is the old value. Models sostream.h:24. -/
def setFlags (f : Nat) : M TOS Nat := fun s => .ret s.flags { s with flags := f }

/-- `setf (f)`. Models sostream.h:25. -/
def setf (f : Nat) : M TOS Nat := fun s => .ret s.flags { s with flags := s.flags ||| f }

/-- `unsetf (f)`: `~f` has 32 bits. Models sostream.h:26. -/
def unsetf (f : Nat) : M TOS Nat := fun s => .ret s.flags { s with flags := s.flags &&& (f ^^^ (2 ^ 32 - 1)) }

/-- `setf (f, m)`. Models sostream.h:27. -/
def setfMask (f m : Nat) : M TOS Nat := do
  let _ ← unsetf m
  setf f

/-- `iwrite (fmtflags_bits)`. Models sostream.h:119-125. -/
def writeFlag (f : Nat) : M TOS Unit := do
  if has f basefield then
    let _ ← setfMask f basefield
  else if has f floatfield then
    let _ ← setfMask f floatfield
  else if has f adjustfield then
    let _ ← setfMask f adjustfield
  let _ ← setf f

/-- `width (w)`, `w` a `uint16_t`. Models sostream.h:57-58. -/
def setWidth (w : Nat) : M TOS Unit := fun s => .ret () { s with width := w % 2 ^ 16 }

/-- `fill (c)`. Models sostream.h:60. -/
def setFill (c : Byte) : M TOS Unit := fun s => .ret () { s with fill := c }

/-- `ios::base (n)`. Models uiosfunc.h:75-80. -/
def baseFlag (n : Nat) : Flag := if n = 16 then .hex else if n = 8 then .oct else .dec

/-- `flush ()`. Models sostream.h:71. -/
def flush : M TOS Unit := do let _ ← Text.str

/-- What a user writes to a stream between other things. -/
inductive Manip
  /-- `os << ios_base::hex` and the like -/
  | flag (f : Flag)
  /-- `os.flags (a | b)` -/
  | flags (fs : List Flag)
  /-- `os.setf (a | b)`, `os << setiosflags (a | b)` -/
  | setf (fs : List Flag)
  /-- `os.unsetf (a | b)`, `os << resetiosflags (a | b)` -/
  | unsetf (fs : List Flag)
  /-- `os.setf (a | b, c | d)` -/
  | setfMask (fs ms : List Flag)
  /-- `os << setw (w)`, `os << ios::width (w)` -/
  | width (w : Nat)
  /-- `os << setfill (c)` -/
  | fill (c : Byte)
  /-- `os << ios::base (n)` -/
  | base (n : Nat)
  /-- `os << endl` -/
  | endl
  /-- `os << flush` -/
  | flush
  /-- a value -/
  | val (op : WOp)

/-- Do it. Models sostream.h:119-125, 165-205, uiosfunc.h:62-80. -/
def Manip.run : Manip → M TOS Unit
  | .flag f => writeFlag (2 ^ f.pos)
  | .flags fs => do let _ ← setFlags (mask fs)
  | .setf fs => do let _ ← Text.setf (mask fs)
  | .unsetf fs => do let _ ← Text.unsetf (mask fs)
  | .setfMask fs ms => do let _ ← Text.setfMask (mask fs) (mask ms)
  | .width w => setWidth w
  | .fill c => setFill c
  | .base n => do let _ ← Text.setfMask (2 ^ (baseFlag n).pos) basefield
  | .endl => do
    putc 10
    Text.flush
  | .flush => Text.flush
  | .val op => op.run

/-- Do all of it. -/
def manipAll : List Manip → M TOS Unit
  | [] => pure ()
  | m :: ms => do m.run; manipAll ms

/-! ## Specification: settings by name -/

/-- Settings: which flags are on, the width and the fill character. -/
structure Settings where
  on : Flag → Bool
  width : Nat
  fill : Byte

/-- The flags of which only one is meant to be on. -/
def Flag.rivals : Flag → List Flag
  | .dec | .oct | .hex => [.dec, .oct, .hex]
  | .fixed | .scientific => [.fixed, .scientific]
  | .left | .right | .internal => [.left, .right, .internal]
  | _ => []

/-- What a manipulator does to the settings. -/
def Manip.set : Manip → Settings → Settings
  | .flag f, g => { g with on := fun x => x == f || (g.on x && !(f.rivals.contains x)) }
  | .flags fs, g => { g with on := fun x => fs.contains x }
  | .setf fs, g => { g with on := fun x => g.on x || fs.contains x }
  | .unsetf fs, g => { g with on := fun x => g.on x && !fs.contains x }
  | .setfMask fs ms, g => { g with on := fun x => (g.on x && !ms.contains x) || fs.contains x }
  | .width w, g => { g with width := w }
  | .fill c, g => { g with fill := c }
  | .base n, g => { g with on := fun x => x == (if n = 16 then .hex else if n = 8 then .oct else .dec) || (g.on x && !([Flag.dec, .oct, .hex].contains x)) }
  | _, g => g

/-- The way integers are written under the settings. -/
def Settings.fmt (g : Settings) : Fmt where
  base := if g.on .hex then .hex else if g.on .oct then .oct else .dec
  upper := g.on .uppercase
  showbase := g.on .showbase
  showpos := g.on .showpos
  left := g.on .left
  zero := g.fill = 48
  width := g.width

/-- The text it adds; a line end is the byte 10. -/
def Manip.text (g : Settings) : Manip → List Byte
  | .endl => [10]
  | .val op => op.text g.fmt
  | _ => []

/-- The text of all of it: every value is written with the settings in force at that moment. -/
def textOf : Settings → List Manip → List Byte
  | _, [] => []
  | g, m :: ms => m.text g ++ textOf (m.set g) ms

/-- The settings after all of it. -/
def setAll : Settings → List Manip → Settings
  | g, [] => g
  | g, m :: ms => setAll (m.set g) ms

/-- What can be asked for: widths are `uint16_t`, values fit their types, and integers are written with settings for which the
library's format string is right (`Fmt.Plain`, see C42). -/
def Asked : Settings → List Manip → Prop
  | _, [] => True
  | g, m :: ms => (match m with
      | .width w => w < 2 ^ 16
      | .val op => op.Fits ∧ (∀ t v, op = .int t v → g.fmt.Plain)
      | _ => True) ∧ Asked (m.set g) ms

/-! ## The stream follows them -/

/-- The settings a stream has. -/
def TOS.settings (s : TOS) : Settings := ⟨fun f => s.flags.testBit f.pos, s.width, s.fill⟩

theorem fmt_settings (s : TOS) : s.fmt = s.settings.fmt := rfl

theorem mask_testBit (fs : List Flag) (x : Flag) : (mask fs).testBit x.pos = fs.contains x := by
  induction fs with
  | nil => simp [mask]
  | cons f fs ih =>
    rw [mask, Nat.testBit_or, ih, Nat.testBit_two_pow, List.contains_cons]
    congr 1
    cases f <;> cases x <;> rfl

theorem not_testBit (m : Nat) (x : Flag) : (m ^^^ (2 ^ 32 - 1)).testBit x.pos = !m.testBit x.pos := by
  rw [Nat.testBit_xor, Nat.testBit_two_pow_sub_one]
  have : x.pos < 32 := by cases x <;> decide
  rw [decide_eq_true this, Bool.xor_true]

theorem has_field (f : Flag) : has (2 ^ f.pos) basefield = [Flag.dec, .oct, .hex].contains f ∧ has (2 ^ f.pos) floatfield = [Flag.fixed, .scientific].contains f ∧
    has (2 ^ f.pos) adjustfield = [Flag.left, .right, .internal].contains f := by
  cases f <;> decide

theorem two_testBit (f x : Flag) : (2 ^ f.pos).testBit x.pos = (x == f) := by
  rw [Nat.testBit_two_pow]
  cases f <;> cases x <;> rfl

theorem Settings.ext' {g h : Settings} (a : ∀ x, g.on x = h.on x) (b : g.width = h.width) (c : g.fill = h.fill) : g = h := by
  obtain ⟨o, w, f⟩ := g
  obtain ⟨o', w', f'⟩ := h
  cases (funext a : o = o')
  cases (b : w = w')
  cases (c : f = f')
  rfl

/-- Only the settings of a stream changed. -/
structure Sets (s s' : TOS) (g : Settings) : Prop where
  os : s'.os = s.os
  own : s'.own = s.own
  copy : s'.copy = s.copy
  set : s'.settings = g

theorem Sets.ok {s s' : TOS} {g : Settings} (h : Sets s s' g) (hs : s.Ok) : s'.Ok :=
  ⟨h.own.trans hs.own, h.copy.trans hs.copy, by rw [h.os]; exact hs.pos, by rw [h.os]; exact hs.len, by rw [h.os]; exact hs.good⟩

theorem Sets.text {s s' : TOS} {g : Settings} (h : Sets s s' g) : s'.text = s.text := by
  unfold TOS.text; rw [h.os]

theorem writeFlag_sets (f : Flag) (s : TOS) : ∃ s', writeFlag (2 ^ f.pos) s = .ret () s' ∧ Sets s s' ((Manip.flag f).set s.settings) := by
  obtain ⟨h1, h2, h3⟩ := has_field f
  have key : ∀ m : Nat, ∀ ms : List Flag, m = mask ms → f.rivals = ms →
      Sets s { s with flags := ((s.flags &&& (m ^^^ (2 ^ 32 - 1))) ||| 2 ^ f.pos) ||| 2 ^ f.pos } ((Manip.flag f).set s.settings) := by
    intro m ms hm hr
    refine ⟨rfl, rfl, rfl, Settings.ext' (fun x => ?_) rfl rfl⟩
    show (((s.flags &&& (m ^^^ (2 ^ 32 - 1))) ||| 2 ^ f.pos) ||| 2 ^ f.pos).testBit x.pos = (x == f || (s.flags.testBit x.pos && !(f.rivals.contains x)))
    rw [Nat.testBit_or, Nat.testBit_or, Nat.testBit_and, not_testBit, two_testBit, hm, mask_testBit, hr]
    cases s.flags.testBit x.pos <;> cases ms.contains x <;> cases x == f <;> rfl
  have none : f.rivals = [] → Sets s { s with flags := s.flags ||| 2 ^ f.pos } ((Manip.flag f).set s.settings) := by
    intro hr
    refine ⟨rfl, rfl, rfl, Settings.ext' (fun x => ?_) rfl rfl⟩
    show (s.flags ||| 2 ^ f.pos).testBit x.pos = (x == f || (s.flags.testBit x.pos && !(f.rivals.contains x)))
    rw [Nat.testBit_or, two_testBit, hr]
    cases s.flags.testBit x.pos <;> cases x == f <;> rfl
  unfold writeFlag
  rw [h1, h2, h3]
  cases f
  case dec => exact ⟨_, rfl, key basefield _ rfl rfl⟩
  case oct => exact ⟨_, rfl, key basefield _ rfl rfl⟩
  case hex => exact ⟨_, rfl, key basefield _ rfl rfl⟩
  case fixed => exact ⟨_, rfl, key floatfield _ rfl rfl⟩
  case scientific => exact ⟨_, rfl, key floatfield _ rfl rfl⟩
  case left => exact ⟨_, rfl, key adjustfield _ rfl rfl⟩
  case right => exact ⟨_, rfl, key adjustfield _ rfl rfl⟩
  case internal => exact ⟨_, rfl, key adjustfield _ rfl rfl⟩
  all_goals exact ⟨_, rfl, none rfl⟩

theorem setfMask_sets (f m : Nat) (fs ms : List Flag) (hf : ∀ x : Flag, f.testBit x.pos = fs.contains x) (hm : ∀ x : Flag, m.testBit x.pos = ms.contains x) (s : TOS) :
    ∃ s', (do let _ ← setfMask f m : M TOS Unit) s = .ret () s' ∧ Sets s s' ((Manip.setfMask fs ms).set s.settings) := by
  refine ⟨_, rfl, rfl, rfl, rfl, Settings.ext' (fun x => ?_) rfl rfl⟩
  show ((s.flags &&& (m ^^^ (2 ^ 32 - 1))) ||| f).testBit x.pos = ((s.flags.testBit x.pos && !ms.contains x) || fs.contains x)
  rw [Nat.testBit_or, Nat.testBit_and, not_testBit, hf, hm]

theorem flush_ok {s : TOS} (h : s.Ok) : ∃ s', Text.flush s = .ret () s' ∧ Wrote s s' [] := by
  obtain ⟨s', e, w⟩ := str_ok h
  exact ⟨s', M.bind_ret e, w⟩

theorem settings_same {s s' : TOS} {d : List Byte} (w : Wrote s s' d) : s'.settings = s.settings := by
  unfold TOS.settings; rw [w.flags, w.width, w.fill]

theorem bool_writes (b : Bool) {s : TOS} (h : s.Ok) (hl : s.text.length + (WOp.text s.fmt (.bool b)).length + 1 < 2 ^ 31) :
    ∃ s', (WOp.bool b).run s = .ret () s' ∧ Wrote s s' (WOp.text s.fmt (.bool b)) := by
  have e : (if b then [116, 114, 117, 101] else [102, 97, 108, 115, 101] : List Byte) = WOp.text s.fmt (.bool b) := by
    have key : ∀ b : Bool, (if b then [116, 114, 117, 101] else [102, 97, 108, 115, 101] : List Byte) =
        (if b then "true".toUTF8.toList else "false".toUTF8.toList) := by decide +kernel
    exact key b
  have := write_ok' h (WOp.text s.fmt (.bool b)) (by omega)
  rw [← e] at this
  rw [← e]
  exact this

theorem wchar_writes {v : Nat} {s : TOS} (h : s.Ok) (hv : v < 2 ^ 31) (hl : s.text.length + (WOp.text s.fmt (.wchar v)).length + 1 < 2 ^ 31) :
    ∃ s', (WOp.wchar v).run s = .ret () s' ∧ Wrote s s' (WOp.text s.fmt (.wchar v)) := by
  have hlen := Utf8.table_length hv
  have h8 : (Utf8.table v).length ≤ 8 := by unfold Utf8.table; repeat' split
                                            all_goals simp
  show ∃ s', writeWchar v s = .ret () s' ∧ _
  unfold writeWchar
  rw [Utf8.out_table hv]
  simp only
  rw [if_pos h8, ← hlen, List.take_length]
  exact write_ok' h (Utf8.table v) (by simp only [WOp.text] at hl; omega)

/-- What one step does. -/
def StepOk (m : Manip) (s : TOS) : Prop :=
  ∃ s', m.run s = .ret () s' ∧ s'.Ok ∧ s'.text = s.text ++ m.text s.settings ∧ s'.settings = m.set s.settings

theorem StepOk.sets {m : Manip} {s s' : TOS} (h : s.Ok) (e : m.run s = .ret () s') (hs : Sets s s' (m.set s.settings)) (ht : m.text s.settings = []) : StepOk m s :=
  ⟨s', e, hs.ok h, by rw [hs.text, ht, List.append_nil], hs.set⟩

theorem StepOk.wrote {m : Manip} {s s' : TOS} {d : List Byte} (e : m.run s = .ret () s') (w : Wrote s s' d) (ht : d = m.text s.settings)
    (hset : m.set s.settings = s.settings) : StepOk m s :=
  ⟨s', e, w.ok, by rw [← ht]; exact w.text, by rw [hset]; exact settings_same w⟩

theorem base_contains (n : Nat) (x : Flag) : (2 ^ (baseFlag n).pos).testBit x.pos = [baseFlag n].contains x := by
  rw [two_testBit]
  cases x <;> cases baseFlag n <;> rfl

theorem base_step (n : Nat) {s : TOS} (h : s.Ok) : StepOk (.base n) s := by
  obtain ⟨s', e, hs⟩ := setfMask_sets (2 ^ (baseFlag n).pos) basefield [baseFlag n] [.dec, .oct, .hex] (base_contains n) (mask_testBit _) s
  refine StepOk.sets h (by rw [Manip.run]; exact e) ⟨hs.os, hs.own, hs.copy, hs.set.trans (Settings.ext' (fun x => ?_) rfl rfl)⟩ rfl
  show ((s.flags.testBit x.pos && ![Flag.dec, .oct, .hex].contains x) || [baseFlag n].contains x) =
    (x == baseFlag n || (s.flags.testBit x.pos && !([Flag.dec, .oct, .hex].contains x)))
  rw [Bool.or_comm]
  congr 1
  cases x <;> cases baseFlag n <;> rfl

theorem endl_step {s : TOS} (h : s.Ok) (hl : s.text.length + 2 < 2 ^ 31) : StepOk .endl s := by
  obtain ⟨s1, e1, w1⟩ := putc_ok h 10 (by omega)
  obtain ⟨s2, e2, w2⟩ := flush_ok w1.ok
  refine ⟨s2, ?_, w2.ok, ?_, ?_⟩
  · rw [Manip.run, M.bind_ret e1, e2]
  · rw [w2.text, w1.text, List.append_nil]; rfl
  · rw [settings_same w2, settings_same w1]; rfl

theorem val_step (op : WOp) {s : TOS} (h : s.Ok) (hf : op.Fits) (hp : ∀ t v, op = .int t v → s.settings.fmt.Plain)
    (hl : s.text.length + (op.text s.fmt).length + 1 < 2 ^ 31) : StepOk (.val op) s := by
  have main : ∃ s', op.run s = .ret () s' ∧ Wrote s s' (op.text s.fmt) := by
    cases op with
    | int t v => exact op_writes (.int t v) h (hp t v rfl) hf hl
    | put c => exact putc_ok h c (by simp only [WOp.text, List.length_singleton] at hl; omega)
    | write d => exact write_ok' h d (by simp only [WOp.text] at hl; omega)
    | format t => exact vformat_ok h t hl
    | str => obtain ⟨s', e, w⟩ := str_ok h; exact ⟨s', M.bind_ret e, w⟩
    | bool b => exact bool_writes b h hl
    | wchar v => exact wchar_writes h hf hl
  obtain ⟨s', e, w⟩ := main
  exact StepOk.wrote (by rw [Manip.run]; exact e) w rfl rfl

theorem set_step (m : Manip) {s : TOS} (h : s.Ok) (hw : ∀ w, m = .width w → w < 2 ^ 16) (he : m ≠ .endl) (hf : m ≠ .flush) (hv : ∀ op, m ≠ .val op) : StepOk m s := by
  cases m with
  | flag f =>
    obtain ⟨s', e, hs⟩ := writeFlag_sets f s
    exact StepOk.sets h e hs rfl
  | flags fs =>
    exact StepOk.sets h rfl ⟨rfl, rfl, rfl, Settings.ext' (fun x => mask_testBit fs x) rfl rfl⟩ rfl
  | setf fs =>
    refine StepOk.sets h rfl ⟨rfl, rfl, rfl, Settings.ext' (fun x => ?_) rfl rfl⟩ rfl
    show (s.flags ||| mask fs).testBit x.pos = (s.flags.testBit x.pos || fs.contains x)
    rw [Nat.testBit_or, mask_testBit]
  | unsetf fs =>
    refine StepOk.sets h rfl ⟨rfl, rfl, rfl, Settings.ext' (fun x => ?_) rfl rfl⟩ rfl
    show (s.flags &&& (mask fs ^^^ (2 ^ 32 - 1))).testBit x.pos = (s.flags.testBit x.pos && !fs.contains x)
    rw [Nat.testBit_and, not_testBit, mask_testBit]
  | setfMask fs ms =>
    obtain ⟨s', e, hs⟩ := setfMask_sets (mask fs) (mask ms) fs ms (mask_testBit fs) (mask_testBit ms) s
    exact StepOk.sets h e hs rfl
  | width w => exact StepOk.sets h rfl ⟨rfl, rfl, rfl, Settings.ext' (fun x => rfl) (Nat.mod_eq_of_lt (hw w rfl)) rfl⟩ rfl
  | fill c => exact StepOk.sets h rfl ⟨rfl, rfl, rfl, rfl⟩ rfl
  | base n => exact base_step n h
  | endl => exact absurd rfl he
  | flush => exact absurd rfl hf
  | val op => exact absurd rfl (hv op)

/-- One step: the text and the settings are those of the specification. -/
theorem manip_step (m : Manip) {s : TOS} (h : s.Ok) (ha : Asked s.settings [m]) (hl : s.text.length + (m.text s.settings).length + 1 < 2 ^ 31) : StepOk m s := by
  by_cases he : m = .endl
  · subst he
    exact endl_step h (by simp only [Manip.text, List.length_singleton] at hl; omega)
  by_cases hf : m = .flush
  · subst hf
    obtain ⟨s2, e2, w2⟩ := flush_ok h
    exact StepOk.wrote (by rw [Manip.run]; exact e2) w2 rfl rfl
  by_cases hv : ∃ op, m = .val op
  · obtain ⟨op, rfl⟩ := hv
    exact val_step op h ha.1.1 ha.1.2 (by simpa only [Manip.text, fmt_settings] using hl)
  · refine set_step m h (fun w e => ?_) he hf (fun op e => hv ⟨op, e⟩)
    subst e
    exact ha.1

/-- **C80** (partial): after any sequence of values and manipulators, `str ()` is what the stream held followed by the text of every value, each
written with the settings in force at that moment; a manipulator sets what it names and nothing else, and adds no text (`endl` a
line end). What is missing: the settings for which integers are not written right (C42: `width_violated`, `width_left_violated`),
a fill character other than zero (`fill_violated`), and that `setw` is for one value only (`setw_violated`). -/
theorem manip_history_partial (ms : List Manip) {s : TOS} (h : s.Ok) (ha : Asked s.settings ms) (hl : s.text.length + (textOf s.settings ms).length + 1 < 2 ^ 31) :
    ∃ s', (do manipAll ms; str : M TOS (List Byte)) s = .ret (s.text ++ textOf s.settings ms) s' ∧ s'.Ok ∧ s'.settings = setAll s.settings ms := by
  have main : ∀ (ms : List Manip) {s : TOS}, s.Ok → Asked s.settings ms → s.text.length + (textOf s.settings ms).length + 1 < 2 ^ 31 →
      ∃ s', manipAll ms s = .ret () s' ∧ s'.Ok ∧ s'.text = s.text ++ textOf s.settings ms ∧ s'.settings = setAll s.settings ms := by
    intro ms
    induction ms with
    | nil => intro s h _ _; exact ⟨s, rfl, h, by simp [textOf], rfl⟩
    | cons m ms ih =>
      intro s h ha hl
      rw [textOf] at hl ⊢
      rw [List.length_append] at hl
      obtain ⟨s1, e1, h1, t1, g1⟩ := manip_step m h ⟨ha.1, trivial⟩ (by omega)
      obtain ⟨s2, e2, h2, t2, g2⟩ := ih h1 (by rw [g1]; exact ha.2) (by rw [g1, t1, List.length_append]; omega)
      refine ⟨s2, ?_, h2, ?_, ?_⟩
      · rw [manipAll, M.bind_ret e1]; exact e2
      · rw [t2, g1, t1, List.append_assoc]
      · rw [g2, g1]; rfl
  obtain ⟨s1, e1, h1, t1, g1⟩ := main ms h ha hl
  obtain ⟨s2, e2, w2⟩ := str_ok h1
  exact ⟨s2, by rw [M.bind_ret e1, e2, t1], w2.ok, by rw [settings_same w2, g1]⟩

theorem manip_new_partial (ms : List Manip) (j : Nat → Byte) (d : List Byte) (ha : Asked ⟨fun _ => false, 0, 0⟩ ms) (ht : textOf ⟨fun _ => false, 0, 0⟩ ms = d) (hl : d.length < 2 ^ 31 - 1) :
    ∃ s', (do manipAll ms; str : M TOS (List Byte)) (.ofString [] j) = .ret d s' ∧ s'.Ok ∧ s'.settings = setAll ⟨fun _ => false, 0, 0⟩ ms := by
  obtain ⟨h1, h2, h3⟩ := new_ok j
  have hg : (TOS.ofString [] j).settings = ⟨fun _ => false, 0, 0⟩ := Settings.ext' (fun x => Nat.zero_testBit _) rfl rfl
  have := manip_history_partial ms h1 (by rw [hg]; exact ha) (by rw [hg, h2, ht]; simp only [List.length_nil]; omega)
  rw [hg, h2, ht, List.nil_append] at this
  exact this

/-- `os << hex << 255 << dec << 10 << endl << showbase << ios::base (8) << 8` -/
example (j : Nat → Byte) : ∃ s', (do manipAll [.flag .hex, .val (.int ⟨32, true⟩ 255), .flag .dec, .val (.int ⟨32, true⟩ 10), .endl, .flag .showbase, .base 8, .val (.int ⟨32, true⟩ 8)]; str :
    M TOS (List Byte)) (.ofString [] j) = .ret "ff10\n010".toUTF8.toList s' ∧ s'.Ok := by
  obtain ⟨s', e, h, _⟩ := manip_new_partial [.flag .hex, .val (.int ⟨32, true⟩ 255), .flag .dec, .val (.int ⟨32, true⟩ 10), .endl, .flag .showbase, .base 8, .val (.int ⟨32, true⟩ 8)] j
    "ff10\n010".toUTF8.toList (by simp [Asked, WOp.Fits, Fmt.Plain, Settings.fmt, Manip.set, ITy.all, ITy.fits]) (by decide +kernel) (by decide +kernel)
  exact ⟨s', e, h⟩

/-- **C80** (negative result): `setw` is for the next value only, but here it stays: `os << setw (3) << 1 << 2` is `"  1  2"`, not `"  12"`. -/
theorem setw_violated (j : Nat → Byte) : ∃ s', (do manipAll [.width 3, .val (.int ⟨32, true⟩ 1), .val (.int ⟨32, true⟩ 2)]; str : M TOS (List Byte)) (.ofString [] j) =
    .ret "  1  2".toUTF8.toList s' := by
  obtain ⟨s', e, _⟩ := manip_new_partial [.width 3, .val (.int ⟨32, true⟩ 1), .val (.int ⟨32, true⟩ 2)] j
    "  1  2".toUTF8.toList (by simp [Asked, WOp.Fits, Fmt.Plain, Settings.fmt, Manip.set, ITy.all, ITy.fits]) (by decide +kernel) (by decide +kernel)
  exact ⟨s', e⟩

/-- **C80** (negative result): the fill character is not used unless it is `0`: `os << setfill ('x') << setw (3) << 7` is `"  7"`. -/
theorem fill_violated (j : Nat → Byte) : ∃ s', (do manipAll [.fill 120, .width 3, .val (.int ⟨32, true⟩ 7)]; str : M TOS (List Byte)) (.ofString [] j) =
    .ret "  7".toUTF8.toList s' := by
  obtain ⟨s', e, _⟩ := manip_new_partial [.fill 120, .width 3, .val (.int ⟨32, true⟩ 7)] j
    "  7".toUTF8.toList (by simp [Asked, WOp.Fits, Fmt.Plain, Settings.fmt, Manip.set, ITy.all, ITy.fits]) (by decide +kernel) (by decide +kernel)
  exact ⟨s', e⟩

/-- **C80** (negative result): `ios::width` takes a `size_t` and keeps sixteen bits: `ios::width (65536)` sets no width at all. -/
theorem width_wrap_violated (s : TOS) : ∃ s', (Manip.width 65536).run s = .ret () s' ∧ s'.settings.width = 0 := ⟨_, rfl, rfl⟩

/-! ## Saving and restoring -/

/-- **C80**: what `flags (f)`, `setf (f)` and `unsetf (f)` return is the flags as they were, so that giving it to `flags` brings
them back, whatever was done to the stream in between. -/
theorem flags_restored {f old : Nat} {s s' : TOS} (e : setFlags f s = .ret old s' ∨ setf f s = .ret old s' ∨ unsetf f s = .ret old s') (t : TOS) :
    ∃ t', setFlags old t = .ret t.flags t' ∧ t'.settings = { t.settings with on := s.settings.on } := by
  have : old = s.flags := by
    rcases e with e | e | e <;> (cases e; rfl)
  subst this
  exact ⟨_, rfl, rfl⟩

example (s : TOS) : ∃ old s', setf (2 ^ Flag.hex.pos) s = .ret old s' := ⟨_, _, rfl⟩

/-- **C80** (partial): `setf (f, m)` returns the flags as they were outside `m`. What is missing: those of `m`, see `setf_field_violated`. -/
theorem setf_field_partial (fs ms : List Flag) (s : TOS) : ∃ old s', setfMask (mask fs) (mask ms) s = .ret old s' ∧
    ∀ x : Flag, x ∉ ms → old.testBit x.pos = s.settings.on x := by
  refine ⟨_, _, rfl, fun x hx => ?_⟩
  show (s.flags &&& (mask ms ^^^ (2 ^ 32 - 1))).testBit x.pos = s.flags.testBit x.pos
  rw [Nat.testBit_and, not_testBit, mask_testBit]
  have : ms.contains x = false := by
    cases hc : ms.contains x
    · rfl
    · exact absurd (List.elem_iff.1 hc) hx
  rw [this]; simp

/-- **C80** (negative result): on a stream that writes octal, `old = os.setf (hex, basefield)` and then `os.setf (old, basefield)` does not bring
octal back: the stream writes decimal. -/
theorem setf_field_violated (s : TOS) (h : s.settings.on .oct = true) : ∃ old s' r s'', s.settings.on .oct = true ∧
    setfMask (mask [.hex]) basefield s = .ret old s' ∧ setfMask old basefield s' = .ret r s'' ∧
    s''.settings.on .oct = false ∧ s''.settings.on .hex = false := by
  have key : ∀ (a b : Nat) (x : Flag), [Flag.dec, .oct, .hex].contains x = true →
      ((b &&& (basefield ^^^ (2 ^ 32 - 1))) ||| (a &&& (basefield ^^^ (2 ^ 32 - 1)))).testBit x.pos = false := by
    intro a b x hx
    rw [Nat.testBit_or, Nat.testBit_and, Nat.testBit_and, not_testBit, basefield, mask_testBit, hx]
    simp
  generalize basefield = m at key
  have e : ∀ (f : Nat) (t : TOS), setfMask f m t = .ret (t.flags &&& (m ^^^ (2 ^ 32 - 1))) { t with flags := (t.flags &&& (m ^^^ (2 ^ 32 - 1))) ||| f } := fun _ _ => rfl
  exact ⟨_, _, _, _, h, e _ s, e _ _, key _ _ .oct rfl, key _ _ .hex rfl⟩

example : ∃ s : TOS, s.settings.on .oct = true := ⟨{ TOS.ofString [] (fun _ => 0) with flags := 256 }, by decide +kernel⟩

end Ustl.Text
