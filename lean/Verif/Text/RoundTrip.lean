import Verif.Text.OutProps
/-! # Integers written and read back: C42 -/
namespace Ustl.Text
open Ustl.Stream

/-- Reading a number: `txt` is what `strtol` takes as the number. -/
theorem readNumber_ok {s : TIS} (h : s.Ok) {ds txt rest : List Byte} {c : Byte} {v : Int} (bits : Nat)
    (hu : s.unread = ds ++ c :: txt ++ rest) (hd : ∀ d ∈ ds, s.isDelim d = true) (hc : s.isDelim c = false) (hc0 : c ≠ 0)
    (hs : strtol (c :: txt ++ rest ++ s.after) (readBase s.flags) = some (v, (c :: txt).length)) :
    readNumber bits s = .ret (toS bits v)
      (if rest = [] then (s.adv (ds.length + (c :: txt).length)).eof else s.adv (ds.length + (c :: txt).length)) := by
  have hu0 : s.unread = ds ++ c :: (txt ++ rest) := by rw [hu]; simp
  have hu1 : s.unread = ds ++ (c :: txt ++ rest) := by rw [hu]; simp
  have ha := h.adv hu1
  have hlen : s.is.pos + (ds.length + 1) ≤ s.is.buf.length := by
    have := congrArg List.length hu0
    have hp := h.pos
    simp [TIS.unread] at this
    omega
  have e1 : lift IS.ungetc (s.adv (ds.length + 1)) = .ret () (s.adv ds.length) := ungetc_adv h hlen
  have hb : (s.adv ds.length).is.buf.drop (s.adv ds.length).is.pos = c :: txt ++ rest := ha.2
  rw [readNumber, M.bind_ret (skipDelims_ok h hu0 hd hc), if_neg hc0, M.bind_ret e1, M.bind_ret (look_eq _ _), hb]
  rw [show (s.adv ds.length).after = s.after from rfl, show (s.adv ds.length).flags = s.flags from rfl, hs]
  have hb2 := ha.1.adv ha.2
  have hpos : (s.adv ds.length).is.pos + (c :: txt).length + rest.length = s.is.buf.length := by
    have := congrArg List.length hu1
    have hp := h.pos
    simp [TIS.unread] at this
    simp [TIS.adv]
    omega
  simp only
  rw [M.bind_ret (look_eq _ _), M.bind_ret (skip_ok ha.1 ha.2), M.bind_ret (look_eq _ _)]
  rw [show ((s.adv ds.length).adv (c :: txt).length).is.buf.length = s.is.buf.length from rfl]
  rw [TIS.adv_adv] at hb2 ⊢
  by_cases hr : rest = []
  · subst hr
    rw [if_pos (by simp at hpos ⊢; omega), if_pos rfl, M.bind_ret (underflow_short hb2.1 1 (by rw [hb2.2]; decide)), if_pos hb2.2]
    rfl
  · have hr' : rest.length ≠ 0 := by simpa using hr
    rw [if_neg (by simp at hpos ⊢; omega), if_neg hr]
    rfl

/-- The base `strtol` is given. -/
def Base.num : Base → Nat
  | .dec => 0
  | .oct => 8
  | .hex => 16

theorem readBase_eq (flags : Nat) : readBase flags = (Base.ofFlags flags).num := by
  unfold readBase Base.ofFlags hexFlag octFlag
  rw [(has_bits flags).2.2.2.1, (has_bits flags).2.2.2.2.1]
  split
  · rfl
  · split <;> rfl

theorem natAbs_numVal {f : Fmt} {t : ITy} {v : Int} (hb : f.base ≠ .dec) : ((numVal f t v).natAbs : Int) = numVal f t v := by
  unfold numVal
  rw [if_neg hb]
  have : 0 ≤ v % (2 ^ t.bits : Int) := Int.emod_nonneg _ (by positivity)
  omega

/-- `strtol` in the same base takes all of the text and gives the number. -/
theorem strtol_intText {f : Fmt} (hw : f.width = 0) {t : ITy} {v : Int} {c : Byte}
    (hc : digitVal c = none) (r : List Byte) :
    strtol (intText f t v ++ c :: r) f.base.num = some (clip (numVal f t v), (intText f t v).length) := by
  have htext : intText f t v = (intParts f t v).1 ++ (intParts f t v).2 := by
    unfold intText
    simp only [hw, Nat.zero_sub, List.replicate_zero, List.append_nil, List.nil_append]
    split
    · rfl
    · split <;> rfl
  rw [htext]
  unfold intParts
  cases hb : f.base with
  | dec =>
    simp only [Base.num]
    have hn : numVal f t v = v := by unfold numVal; rw [if_pos hb]
    rw [hn, ← digs_digits 10 false (by decide) (by decide)]
    by_cases hv : v < 0
    · have := strtol_digs 0 10 false (by omega) .minus v.natAbs c hc r
      rw [if_pos hv]
      have e : Sign.minus.app v.natAbs = v := by rw [Sign.app, if_pos rfl]; omega
      rw [e] at this
      rw [List.append_assoc]
      exact this
    · rw [if_neg hv]
      have e : ∀ g : Sign, g ≠ .minus → g.app v.natAbs = v := by intro g hg; rw [Sign.app, if_neg hg]; omega
      by_cases hp : f.showpos ∧ t.sgn
      · have := strtol_digs 0 10 false (by omega) .plus v.natAbs c hc r
        rw [if_pos hp, List.append_assoc]
        rw [e _ (by decide)] at this
        exact this
      · have := strtol_digs 0 10 false (by omega) .none v.natAbs c hc r
        rw [if_neg hp, List.append_assoc]
        rw [e _ (by decide)] at this
        exact this
  | oct =>
    have hnn := natAbs_numVal (f := f) (t := t) (v := v) (by rw [hb]; decide)
    simp only [Base.num, List.nil_append]
    rw [← digs_digits 8 false (by decide) (by decide)]
    split
    · have := strtol_octPrefix false (numVal f t v).natAbs c hc r
      rw [hnn] at this
      exact this
    · have := strtol_digs 8 8 false (by omega) .none (numVal f t v).natAbs c hc r
      have e : Sign.none.app (numVal f t v).natAbs = numVal f t v := by simp only [Sign.app]; rw [if_neg (by decide)]; exact hnn
      rw [e] at this
      exact this
  | hex =>
    have hnn := natAbs_numVal (f := f) (t := t) (v := v) (by rw [hb]; decide)
    simp only [Base.num]
    rw [← digs_digits 16 f.upper (by decide) (by decide)]
    split
    · have := strtol_hexPrefix f.upper (if f.upper then 88 else 120) (by cases f.upper <;> simp) (numVal f t v).natAbs c hc r
      rw [hnn] at this
      rw [List.append_assoc]
      exact this
    · have := strtol_digs 16 16 f.upper (by omega) .none (numVal f t v).natAbs c hc r
      have e : Sign.none.app (numVal f t v).natAbs = numVal f t v := by simp only [Sign.app]; rw [if_neg (by decide)]; exact hnn
      rw [e] at this
      exact this

/-- The first character of a number. -/
theorem intText_cons {f : Fmt} (hw : f.width = 0) (t : ITy) (v : Int) :
    ∃ c txt, intText f t v = c :: txt ∧ (c = 45 ∨ c = 43 ∨ isDigit 16 c = true) := by
  have htext : intText f t v = (intParts f t v).1 ++ (intParts f t v).2 := by
    unfold intText
    simp only [hw, Nat.zero_sub, List.replicate_zero, List.append_nil, List.nil_append]
    split
    · rfl
    · split <;> rfl
  have key : ∀ (b : Nat) (up : Bool) (n : Nat), 2 ≤ b → b ≤ 16 → ∃ c txt, digits b up n = c :: txt ∧ isDigit 16 c = true := by
    intro b up n h2 h16
    rw [← digs_digits b up h2 h16]
    cases e : digs b up n with
    | nil => exact absurd e (digs_ne _ _ _)
    | cons c txt =>
      refine ⟨c, txt, rfl, ?_⟩
      have := digs_isDigit b up h2 h16 n c (by rw [e]; simp)
      unfold isDigit at this ⊢
      cases e : digitVal c with
      | none => rw [e] at this; cases this
      | some d => rw [e] at this; simp at this ⊢; omega
  rw [htext]
  unfold intParts
  cases hb : f.base with
  | dec =>
    simp only
    obtain ⟨c, txt, e, hc⟩ := key 10 false (numVal f t v).natAbs (by decide) (by decide)
    rw [e]
    split
    · exact ⟨_, _, rfl, .inl rfl⟩
    · split
      · exact ⟨_, _, rfl, .inr (.inl rfl)⟩
      · exact ⟨_, _, rfl, .inr (.inr hc)⟩
  | oct =>
    simp only
    obtain ⟨c, txt, e, hc⟩ := key 8 false (numVal f t v).natAbs (by decide) (by decide)
    rw [e]
    split
    · exact ⟨_, _, rfl, .inr (.inr (by decide))⟩
    · exact ⟨_, _, rfl, .inr (.inr hc)⟩
  | hex =>
    simp only
    obtain ⟨c, txt, e, hc⟩ := key 16 f.upper (numVal f t v).natAbs (by decide) (by decide)
    rw [e]
    split
    · exact ⟨_, _, rfl, .inr (.inr (by decide))⟩
    · exact ⟨_, _, rfl, .inr (.inr hc)⟩

/-- An input stream that can read numbers in the base: it has that base, and signs and digits are not delimiters. -/
structure Reads (s : TIS) (b : Base) : Prop where
  base : Base.ofFlags s.flags = b
  sign : s.isDelim 45 = false ∧ s.isDelim 43 = false
  digit : ∀ c, isDigit 16 c = true → s.isDelim c = false

/-- Reading the text of a number gives the number, clipped to `long` and converted. -/
theorem readInt_text {s : TIS} (h : s.Ok) {f : Fmt} (hw : f.width = 0) (hr : Reads s f.base) {t : ITy} {v : Int} {ds rest : List Byte}
    (hu : s.unread = ds ++ intText f t v ++ rest) (hd : ∀ d ∈ ds, s.isDelim d = true)
    (hend : ∃ c r, rest ++ s.after = c :: r ∧ digitVal c = none) :
    readInt t s = .ret (t.conv (toS (if t.bits = 64 then 64 else 32) (clip (numVal f t v))))
      (if rest = [] then (s.adv (ds.length + (intText f t v).length)).eof else s.adv (ds.length + (intText f t v).length)) := by
  obtain ⟨c, txt, e, hc⟩ := intText_cons hw t v
  obtain ⟨c', r, er, hc'⟩ := hend
  have hcd : s.isDelim c = false := by
    rcases hc with rfl | rfl | hc
    · exact hr.sign.1
    · exact hr.sign.2
    · exact hr.digit c hc
  have hc0 : c ≠ 0 := by
    rintro rfl
    revert hc; decide
  have hs := strtol_intText hw (t := t) (v := v) hc' r
  rw [← er, ← hr.base, ← readBase_eq, e, ← List.append_assoc] at hs
  rw [e] at hu ⊢
  have := readNumber_ok h (if t.bits = 64 then 64 else 32) hu hd hcd hc0 hs
  rw [readInt, M.bind_ret this]
  rfl

theorem conv_back {f : Fmt} {t : ITy} (ht : t ∈ ITy.all) {v : Int} (hv : t.fits v)
    (h64 : t.bits = 64 → v < 2 ^ 63 ∧ (f.base = .dec ∨ 0 ≤ v)) :
    t.conv (toS (if t.bits = 64 then 64 else 32) (clip (numVal f t v))) = v := by
  have hclip : clip (numVal f t v) = numVal f t v := by
    unfold clip numVal
    simp only [ITy.all, List.mem_cons, List.not_mem_nil, or_false] at ht
    unfold ITy.fits at hv
    rcases ht with rfl | rfl | rfl | rfl | rfl | rfl <;> norm_num at hv h64 ⊢ <;> split <;> (try simp_all) <;> omega
  rw [hclip]
  unfold ITy.conv toS toU numVal
  simp only [ITy.all, List.mem_cons, List.not_mem_nil, or_false] at ht
  unfold ITy.fits at hv
  rcases ht with rfl | rfl | rfl | rfl | rfl | rfl <;> norm_num at hv h64 ⊢ <;> split <;> (try simp_all) <;> omega

/-- **C42** (partial): an integer written with no width is read back, in the same base, as the same integer, and the stream
is left just behind its text. The text must be followed by something that is not a letter or digit; at the end of the text
that is the terminating zero of a string. What is missing: 64-bit values of which the digits exceed `long`
(`unsigned_violated`, `negative_hex_violated`), and fields filled with zeros (`zero_fill_violated`). -/
theorem int_roundtrip_partial {o : TOS} (ho : o.Ok) (hf : o.fmt.Plain) (hw : o.width = 0) {t : ITy} (ht : t ∈ ITy.all) {v : Int} (hv : t.fits v)
    (h64 : t.bits = 64 → v < 2 ^ 63 ∧ (o.fmt.base = .dec ∨ 0 ≤ v)) (hl : o.text.length + (intText o.fmt t v).length + 1 < 2 ^ 31) :
    ∃ o' txt, writeInt t v o = .ret () o' ∧ o'.text = o.text ++ txt ∧
      ∀ (s : TIS) (ds rest : List Byte), s.Ok → Reads s o.fmt.base → s.unread = ds ++ txt ++ rest → (∀ d ∈ ds, s.isDelim d = true) →
        (∃ c r, rest ++ s.after = c :: r ∧ digitVal c = none) →
        ∃ s', readInt t s = .ret v s' ∧ s'.Ok ∧ s'.unread = rest ∧ s'.flags = s.flags ∧ (rest ≠ [] → s' = s.adv (ds.length + txt.length)) := by
  obtain ⟨o', e, w⟩ := writeInt_partial ho hf ht hv hl
  refine ⟨o', _, e, w.text, ?_⟩
  intro s ds rest hs hr hu hd hend
  have hw' : o.fmt.width = 0 := hw
  have := readInt_text hs hw' hr hu hd hend
  rw [conv_back ht hv h64] at this
  have ha := hs.adv hu
  rw [List.length_append] at ha
  refine ⟨_, this, ?_, ?_, ?_, ?_⟩
  · split
    · exact ha.1.eof
    · exact ha.1
  · split
    · exact ha.2
    · exact ha.2
  · split <;> rfl
  · intro hne; rw [if_neg hne]

/-- Read a number, then the rest by `k`. -/
def intThen (t : ITy) (k : M TIS (List Int)) : M TIS (List Int) := do
  let v ← readInt t
  let l ← k
  pure (v :: l)

/-- Read numbers one after another. -/
def readInts (t : ITy) : Nat → M TIS (List Int)
  | 0 => pure []
  | n + 1 => intThen t (readInts t n)

/-- Write a number and a separator, then the rest by `k`. -/
def putThen (t : ITy) (sep : Byte) (v : Int) (k : M TOS Unit) : M TOS Unit := do
  writeInt t v
  putc sep
  k

/-- Write numbers, each followed by a separator. -/
def writeInts (t : ITy) (sep : Byte) : List Int → M TOS Unit
  | [] => pure ()
  | v :: l => putThen t sep v (writeInts t sep l)

/-- The text that `writeInts` leaves. -/
def intsText (f : Fmt) (t : ITy) (sep : Byte) (vs : List Int) : List Byte := vs.flatMap fun v => intText f t v ++ [sep]

theorem fmt_same {s s' : TOS} {d : List Byte} (w : Wrote s s' d) : s'.fmt = s.fmt := by
  unfold TOS.fmt; rw [w.flags, w.width, w.fill]

theorem writeInts_text {t : ITy} (ht : t ∈ ITy.all) (sep : Byte) (vs : List Int) : ∀ {o : TOS}, o.Ok → o.fmt.Plain → (∀ v ∈ vs, t.fits v) →
    o.text.length + (intsText o.fmt t sep vs).length + 1 < 2 ^ 31 →
    ∃ o', writeInts t sep vs o = .ret () o' ∧ Wrote o o' (intsText o.fmt t sep vs) := by
  induction vs with
  | nil => intro o ho _ _ _; exact ⟨o, rfl, Wrote.refl ho⟩
  | cons v vs ih =>
    intro o ho hf hv hl
    have hcons : intsText o.fmt t sep (v :: vs) = intText o.fmt t v ++ ([sep] ++ intsText o.fmt t sep vs) := by simp [intsText]
    rw [hcons] at hl ⊢
    simp only [List.length_append, List.length_singleton] at hl
    obtain ⟨o1, e1, w1⟩ := writeInt_partial ho hf ht (hv v (by simp)) (by omega)
    have t1 := congrArg List.length w1.text
    rw [List.length_append] at t1
    obtain ⟨o2, e2, w2⟩ := putc_ok w1.ok sep (by omega)
    have t2 := congrArg List.length w2.text
    rw [List.length_append, List.length_singleton] at t2
    have f2 : o2.fmt = o.fmt := (fmt_same w2).trans (fmt_same w1)
    obtain ⟨o3, e3, w3⟩ := ih w2.ok (by rw [f2]; exact hf) (fun v hv' => hv v (by simp [hv'])) (by rw [f2]; omega)
    refine ⟨o3, ?_, ?_⟩
    · rw [writeInts, putThen, M.bind_ret e1, M.bind_ret e2, e3]
    · rw [f2] at w3
      exact w1.trans (w2.trans w3)

theorem readInts_text {f : Fmt} (hw : f.width = 0) {t : ITy} (ht : t ∈ ITy.all) {sep : Byte} (hsep : digitVal sep = none) (vs : List Int) :
    ∀ {s : TIS} {ds rest : List Byte}, s.Ok → Reads s f.base → s.isDelim sep = true → (∀ v ∈ vs, t.fits v) →
    (∀ v ∈ vs, t.bits = 64 → v < 2 ^ 63 ∧ (f.base = .dec ∨ 0 ≤ v)) →
    s.unread = ds ++ intsText f t sep vs ++ rest → (∀ d ∈ ds, s.isDelim d = true) →
    ∃ s', readInts t vs.length s = .ret vs s' ∧ s'.Ok ∧ s'.is.ios = s.is.ios ∧
      s'.unread = (if vs = [] then ds ++ rest else sep :: rest) := by
  induction vs with
  | nil => intro s ds rest h _ _ _ _ hu _; exact ⟨s, rfl, h, rfl, by simpa [intsText] using hu⟩
  | cons v vs ih =>
    intro s ds rest h hr hs hv h64 hu hd
    have hu1 : s.unread = ds ++ intText f t v ++ (sep :: (intsText f t sep vs ++ rest)) := by rw [hu]; simp [intsText]
    have e := readInt_text h hw hr hu1 hd ⟨sep, _, rfl, hsep⟩
    rw [conv_back ht (hv v (by simp)) (h64 v (by simp)), if_neg (by simp)] at e
    have ha := h.adv hu1
    rw [List.length_append] at ha
    obtain ⟨s', e', h', i', u'⟩ := ih (ds := [sep]) (rest := rest) ha.1 ⟨hr.base, hr.sign, hr.digit⟩ hs (fun v hv' => hv v (by simp [hv']))
      (fun v hv' => h64 v (by simp [hv'])) (by rw [ha.2]; simp) (by intro d hd'; simp at hd'; subst hd'; exact hs)
    refine ⟨s', ?_, h', i', ?_⟩
    · rw [List.length_cons, readInts, intThen, M.bind_ret e, M.bind_ret e']; rfl
    · rw [u']
      by_cases e0 : vs = [] <;> simp [e0]

/-- **C42** (partial): a list of integers written with a separator after each (with no width) is read back as that list, no
error bit set, whatever the base. What is missing: as for `int_roundtrip_partial`. -/
theorem ints_roundtrip_partial {o : TOS} (ho : o.Ok) (h0 : o.text = []) (hf : o.fmt.Plain) (hw : o.width = 0) {t : ITy} (ht : t ∈ ITy.all)
    {sep : Byte} (hsep : digitVal sep = none) (vs : List Int) (hv : ∀ v ∈ vs, t.fits v)
    (h64 : ∀ v ∈ vs, t.bits = 64 → v < 2 ^ 63 ∧ (o.fmt.base = .dec ∨ 0 ≤ v)) (hl : (intsText o.fmt t sep vs).length + 1 < 2 ^ 31) :
    ∃ o' o'' txt, writeInts t sep vs o = .ret () o' ∧ str o' = .ret txt o'' ∧
      ∀ s : TIS, s.Ok → s.unread = txt → Reads s o.fmt.base → s.isDelim sep = true →
        ∃ s', readInts t vs.length s = .ret vs s' ∧ s'.is.ios = s.is.ios := by
  obtain ⟨o', e, w⟩ := writeInts_text ht sep vs ho hf hv (by rw [h0]; simpa using hl)
  obtain ⟨o'', e', _⟩ := str_ok w.ok
  refine ⟨o', o'', _, e, e', ?_⟩
  intro s hs hu hr hd
  rw [w.text, h0] at hu
  obtain ⟨s', e'', _, i, _⟩ := readInts_text (ds := []) (rest := []) hw ht hsep vs hs hr hd hv h64 (by rw [hu]; simp) (by simp)
  exact ⟨s', e'', i⟩

theorem reads_default (text after : List Byte) : Reads (.mk' text after) .dec := by
  refine ⟨(by decide : Base.ofFlags 0 = .dec), ⟨rfl, rfl⟩, ?_⟩
  intro c hc
  cases hd : (TIS.mk' text after).isDelim c with
  | false => rfl
  | true =>
    simp [TIS.isDelim, TIS.mk', delimArray, defaultDelims] at hd
    rcases hd with rfl | rfl | rfl | rfl | rfl | rfl | rfl | rfl | rfl | rfl <;> exact absurd hc (by decide)

/-- -7 as an `int` in decimal. -/
example : ∃ s', readInt ⟨32, true⟩ (.mk' [32, 45, 55, 59]) = .ret (-7) s' ∧ s'.unread = [59] := by
  obtain ⟨o', txt, e, ht, hr⟩ := int_roundtrip_partial (o := .ofString []) ⟨rfl, rfl, by decide, by decide, rfl⟩ ⟨by decide, .inl rfl⟩ rfl
    (t := ⟨32, true⟩) (by decide) (v := -7) (by unfold ITy.fits; decide) (by decide) (by decide)
  obtain ⟨o1, e1, w⟩ := writeInt_partial (s := .ofString []) ⟨rfl, rfl, by decide, by decide, rfl⟩ ⟨by decide, .inl rfl⟩
    (t := ⟨32, true⟩) (by decide) (v := -7) (by unfold ITy.fits; decide) (by decide)
  have htxt : txt = [45, 55] := by
    cases e1.symm.trans e
    have h2 := w.text
    rw [ht] at h2
    exact List.append_cancel_left h2
  obtain ⟨s', e', _, hu', _⟩ := hr (.mk' [32, 45, 55, 59]) [32] [59] ⟨by decide, by decide, rfl, rfl⟩ (reads_default _ _) (by rw [htxt]; rfl)
    (by decide) ⟨59, [0], rfl, rfl⟩
  exact ⟨s', e', hu'⟩

/-- Three `short`s, the extremes among them, in decimal, with a comma after each. -/
example : ∃ o' o'' txt, writeInts ⟨16, true⟩ 44 [-32768, 0, 32767] (.ofString []) = .ret () o' ∧ str o' = .ret txt o'' ∧
    ∃ s', readInts ⟨16, true⟩ 3 (.mk' txt) = .ret [-32768, 0, 32767] s' := by
  have hlen : (intsText (TOS.ofString []).fmt ⟨16, true⟩ 44 [-32768, 0, 32767]).length = 15 := by rfl
  obtain ⟨o', o'', txt, e, e', hr⟩ := ints_roundtrip_partial (o := .ofString []) ⟨rfl, rfl, by decide, by decide, rfl⟩ rfl ⟨by decide, .inl rfl⟩ rfl
    (t := ⟨16, true⟩) (by decide) (sep := 44) rfl [-32768, 0, 32767] (by unfold ITy.fits; decide) (by decide) (by rw [hlen]; decide)
  refine ⟨o', o'', txt, e, e', ?_⟩
  have hw := writeInts_text (t := ⟨16, true⟩) (by decide) 44 [-32768, 0, 32767] (o := .ofString []) ⟨rfl, rfl, by decide, by decide, rfl⟩
    ⟨by decide, .inl rfl⟩ (by unfold ITy.fits; decide) (by rw [hlen]; decide)
  obtain ⟨o1, e1, w1⟩ := hw
  cases e1.symm.trans e
  obtain ⟨o2, e2, _⟩ := str_ok w1.ok
  have htxt : txt = o'.text := by
    have := e2.symm.trans e'
    cases this; rfl
  have hl : txt.length = 15 := by rw [htxt, w1.text]; exact hlen
  obtain ⟨s', es, _⟩ := hr (.mk' txt) ⟨Nat.zero_le _, by show txt.length < _; omega, rfl, rfl⟩ rfl (reads_default _ _) rfl
  exact ⟨s', es⟩

/-! ## What does not work -/

/-- **C42** is false for `unsigned long` from 2^63 on: every such value is read back as 2^63 - 1. -/
theorem unsigned_violated {s : TIS} (h : s.Ok) {f : Fmt} (hw : f.width = 0) (hr : Reads s f.base) {v : Int}
    (hv : (2 : Int) ^ 63 ≤ v ∧ v < 2 ^ 64) (hu : s.unread = intText f ⟨64, false⟩ v ++ [32]) :
    ∃ s', readInt ⟨64, false⟩ s = .ret (2 ^ 63 - 1) s' ∧ (2 : Int) ^ 63 - 1 ≠ v := by
  have := readInt_text h hw hr (ds := []) (by rw [List.nil_append]; exact hu) (by simp) ⟨32, s.after, rfl, rfl⟩
  have e : ITy.conv ⟨64, false⟩ (toS (if (ITy.mk 64 false).bits = 64 then 64 else 32) (clip (numVal f ⟨64, false⟩ v))) = 2 ^ 63 - 1 := by
    have : clip (numVal f ⟨64, false⟩ v) = 2 ^ 63 - 1 := by
      unfold clip numVal
      norm_num at hv ⊢
      split <;> omega
    rw [this]; rfl
  rw [e] at this
  exact ⟨_, this, by omega⟩

/-- **C42** is false for negative `long`s in hexadecimal or octal: every one is read back as 2^63 - 1. -/
theorem negative_hex_violated {s : TIS} (h : s.Ok) {f : Fmt} (hw : f.width = 0) (hb : f.base ≠ .dec) (hr : Reads s f.base) {v : Int}
    (hv : -(2 : Int) ^ 63 ≤ v ∧ v < 0) (hu : s.unread = intText f ⟨64, true⟩ v ++ [32]) :
    ∃ s', readInt ⟨64, true⟩ s = .ret (2 ^ 63 - 1) s' ∧ (2 : Int) ^ 63 - 1 ≠ v := by
  have := readInt_text h hw hr (ds := []) (by rw [List.nil_append]; exact hu) (by simp) ⟨32, s.after, rfl, rfl⟩
  have e : ITy.conv ⟨64, true⟩ (toS (if (ITy.mk 64 true).bits = 64 then 64 else 32) (clip (numVal f ⟨64, true⟩ v))) = 2 ^ 63 - 1 := by
    have : clip (numVal f ⟨64, true⟩ v) = 2 ^ 63 - 1 := by
      unfold clip numVal
      rw [if_neg hb]
      norm_num at hv ⊢
      omega
    rw [this]; rfl
  rw [e] at this
  exact ⟨_, this, by omega⟩

/-- **C42** is false with a width and `fill ('0')`: 10 in a field of three is written 010, which is read back as 8. -/
theorem zero_fill_violated : ∃ o o' : TOS, o.Ok ∧ o.width = 3 ∧ o.fill = 48 ∧ writeInt ⟨32, true⟩ 10 o = .ret () o' ∧
    o'.text = [48, 49, 48] ∧ ∃ s', readInt ⟨32, true⟩ (.mk' [48, 49, 48]) = .ret 8 s' := by
  let o : TOS := { TOS.ofString [] with width := 3, fill := 48 }
  have ho : o.Ok := ⟨rfl, rfl, by decide, by decide, rfl⟩
  obtain ⟨o', e, w⟩ := writeInt_partial (s := o) ho ⟨by decide, .inr (by decide)⟩ (t := ⟨32, true⟩) (by decide) (v := 10)
    (by unfold ITy.fits; decide) (by decide)
  refine ⟨o, o', ho, rfl, rfl, e, by rw [w.text]; decide, ((TIS.mk' [48, 49, 48]).adv 3).eof, by decide⟩

/-- **C42** is false for the width 12: the field is 21 wide. -/
theorem width_violated : ∃ o o' : TOS, o.Ok ∧ o.width = 12 ∧ writeInt ⟨32, true⟩ 5 o = .ret () o' ∧ o'.text.length = 21 := by
  let o : TOS := { TOS.ofString [] with width := 12 }
  have ho : o.Ok := ⟨rfl, rfl, by decide, by decide, rfl⟩
  have e12 : encodeDec 12 = [50, 49] := by simp [encodeDec]
  have ef : fmtString o.flags o.width o.fill ⟨32, true⟩ = [37, 50, 49, 100] := by
    show fmtString 0 12 0 ⟨32, true⟩ = _
    unfold fmtString
    rw [e12]; decide
  have ek : parseConv [37, 50, 49, 100] = some { width := 21 } := by decide
  have ec : (convPrint { width := 21 } 5).length = 21 := by
    have : digs 10 false 5 = [53] := by rw [digs, dif_pos (by omega)]; rfl
    simp [convPrint, convText, toS, this]
  obtain ⟨o', e, w⟩ := vformat_ok ho (convPrint { width := 21 } 5) (by rw [ec]; decide)
  refine ⟨o, o', ho, rfl, ?_, ?_⟩
  · rw [writeInt, M.bind_ret (look_eq _ _), ef, ek]; exact e
  · rw [w.text, List.length_append, ec]; rfl

/-- **C42** is false for a width with `left`, and for `showbase` in decimal: the format string is not one that `vsnprintf`
defines. The first is `%5-d`, the second `%#d`. -/
theorem width_left_violated :
    parseConv (fmtString 4096 5 0 ⟨32, true⟩) = none ∧ parseConv (fmtString 2 0 0 ⟨32, true⟩) = none := by
  have e5 : encodeDec 5 = [53] := by simp [encodeDec]
  constructor
  · show parseConv ([37] ++ (if (5 : Nat) ≠ 0 then (if (0 : Byte) = 48 then [48] else []) ++ encodeDec 5 else []) ++ _ ++ _ ++ _ ++ _ ++ _) = _
    rw [e5]; decide
  · decide

end Ustl.Text
