import Verif.Text.Numbers
/-! # ostringstream: everything written is in str() (C57) -/
namespace Ustl.Text
open Ustl.Stream

/-- What has been written. -/
def TOS.text (s : TOS) : List Byte := s.os.buf.take s.os.pos

/-- A stream with its own buffer, in an ordinary state: the position is in the buffer, which is not larger than an `int`
can say (`vformat` computes in `int`), and no error bit is set. -/
structure TOS.Ok (s : TOS) : Prop where
  own : s.own = true
  copy : s.copy = none
  pos : s.os.pos ≤ s.os.buf.length
  len : s.os.buf.length < 2 ^ 31
  good : s.os.ios.state = 0

/-- `s'` is `s` after `d` was written: the text has `d` more, the format settings are the same. -/
structure Wrote (s s' : TOS) (d : List Byte) : Prop where
  ok : s'.Ok
  text : s'.text = s.text ++ d
  flags : s'.flags = s.flags
  width : s'.width = s.width
  fill : s'.fill = s.fill
  len : s'.os.buf.length ≤ max s.os.buf.length (s'.text.length + 1)

theorem TOS.Ok.text_len {s : TOS} (h : s.Ok) : s.text.length = s.os.pos := by
  have := h.pos
  simp [TOS.text]; omega

theorem TOS.Ok.remaining {s : TOS} (h : s.Ok) : s.os.remaining = s.os.buf.length - s.os.pos :=
  OS.remaining_eq h.pos (by have := h.len; have : (2:Nat) ^ 31 < W := by decide
                            omega)

theorem TOS.Ok.ltW {s : TOS} (h : s.Ok) : s.os.buf.length < W := by
  have := h.len
  have : (2:Nat) ^ 31 < W := by decide
  omega

theorem olift_ret {α : Type} {m : M OS α} {s : TOS} {a : α} {o : OS} (h : m s.os = .ret a o) :
    olift m s = .ret a { s with os := o } := by
  unfold olift; rw [h]

theorem Wrote.refl {s : TOS} (h : s.Ok) : Wrote s s [] := ⟨h, by simp, rfl, rfl, rfl, by omega⟩

theorem Wrote.trans {s s' s'' : TOS} {d e : List Byte} (h : Wrote s s' d) (h' : Wrote s' s'' e) : Wrote s s'' (d ++ e) := by
  refine ⟨h'.ok, by rw [h'.text, h.text, List.append_assoc], h'.flags.trans h.flags, h'.width.trans h.width, h'.fill.trans h.fill, ?_⟩
  have a := h.len
  have b := h'.len
  have c : s'.text.length ≤ s''.text.length := by rw [h'.text]; simp
  omega

theorem verify_pass {s : TOS} {n : Nat} (h : n ≤ s.os.remaining) : olift (OS.verify n) s = .ret true s := by
  have : OS.verify n s.os = .ret true s.os := by
    unfold OS.verify; rw [if_pos h]
  exact olift_ret this

theorem grow_no {s : TOS} {n : Nat} (h : n ≤ s.os.remaining) : grow n s = .ret () s := by
  unfold grow
  rw [if_neg (by omega)]

theorem grow_yes {s : TOS} {n : Nat} (h : s.Ok) (hn : s.os.remaining < n) :
    grow n s = .ret () { s with os := { s.os with buf := growTo s.junk s.os.buf (s.os.pos + n) },
                                own := true, cap := newCap s.cap (s.os.pos + n), copy := none } := by
  unfold grow
  rw [if_pos ⟨hn, .inl h.good⟩, if_neg (by simp [h.own]), h.copy]
  rfl

theorem overflow_eq {s s' : TOS} {n : Nat} (h : grow n s = .ret () s') (hn : n ≤ s'.os.remaining) :
    overflow n s = .ret s'.os.remaining s' := by
  rw [overflow, M.bind_ret h, M.bind_ret (verify_pass hn), look_eq]

/-- A state with the same text and settings and a larger buffer. -/
theorem overflow_grow {s : TOS} (h : s.Ok) {n : Nat} (hr : s.os.buf.length - s.os.pos < n) (hl : s.os.pos + n < 2 ^ 31) :
    ∃ s', overflow n s = .ret n s' ∧ s'.Ok ∧ s'.text = s.text ∧ s'.os.pos = s.os.pos ∧ s'.os.buf.length = s.os.pos + n ∧
      s'.flags = s.flags ∧ s'.width = s.width ∧ s'.fill = s.fill := by
  have hp := h.pos
  have e := grow_yes h (n := n) (by rw [h.remaining]; exact hr)
  have hb : (growTo s.junk s.os.buf (s.os.pos + n)).length = s.os.pos + n := by simp [growTo]; omega
  have ht : (growTo s.junk s.os.buf (s.os.pos + n)).take s.os.pos = s.os.buf.take s.os.pos := by
    rw [growTo, List.take_append_of_le_length (by simp; omega), List.take_take]
    congr 1; omega
  generalize growTo s.junk s.os.buf (s.os.pos + n) = b at *
  generalize hs : ({ s with os := { s.os with buf := b }, own := true, cap := newCap s.cap (s.os.pos + n), copy := none } : TOS) = s' at e
  have h1 : s'.os.buf = b := by rw [← hs]
  have h2 : s'.os.pos = s.os.pos := by rw [← hs]
  have h' : s'.Ok := ⟨by rw [← hs], by rw [← hs], by rw [h1, h2]; omega, by rw [h1]; omega, by rw [← hs]; exact h.good⟩
  have hrem : s'.os.remaining = n := by rw [h'.remaining, h1, h2]; omega
  refine ⟨s', ?_, h', ?_, h2, by rw [h1, hb], by rw [← hs], by rw [← hs], by rw [← hs]⟩
  · have := overflow_eq e (by rw [hrem]; exact Nat.le_refl _)
    rw [hrem] at this
    exact this
  · unfold TOS.text; rw [h1, h2, ht]

theorem overflow_none {s : TOS} (h : s.Ok) {n : Nat} (hr : n ≤ s.os.buf.length - s.os.pos) :
    overflow n s = .ret (s.os.buf.length - s.os.pos) s := by
  have h0 := h.remaining
  have := overflow_eq (grow_no (s := s) (n := n) (by rw [h0]; exact hr)) (by rw [h0]; exact hr)
  rw [h0] at this
  exact this

theorem owrite {s : TOS} (h : s.Ok) {d : List Byte} (hd : s.os.pos + d.length ≤ s.os.buf.length) :
    ∃ s', olift (OS.write d) s = .ret () s' ∧ Wrote s s' d ∧ s'.os.buf.length = s.os.buf.length := by
  have := OS.write_ok h.ltW hd
  refine ⟨_, olift_ret this, ⟨⟨h.own, h.copy, ?_, ?_, h.good⟩, ?_, rfl, rfl, rfl, ?_⟩, ?_⟩
  · show (s.os.after d).pos ≤ (s.os.after d).buf.length
    rw [OS.after_buf_length hd, OS.after_pos]; exact hd
  · show (s.os.after d).buf.length < _
    rw [OS.after_buf_length hd]; exact h.len
  · show (s.os.after d).buf.take (s.os.after d).pos = s.os.buf.take s.os.pos ++ d
    rw [OS.after_pos]
    simp only [OS.after]
    rw [List.take_append_of_le_length (by simp; omega)]
    exact List.take_of_length_le (by simp; omega)
  · show (s.os.after d).buf.length ≤ _
    rw [OS.after_buf_length hd]; omega
  · exact OS.after_buf_length hd

/-- `put`. -/
theorem putc_ok {s : TOS} (h : s.Ok) (c : Byte) (hl : s.text.length + 1 < 2 ^ 31) :
    ∃ s', putc c s = .ret () s' ∧ Wrote s s' [c] := by
  rw [h.text_len] at hl
  obtain ⟨s1, e1, h1, t1, p1, b1, f1, w1, l1⟩ : ∃ s1, roomOne s = .ret true s1 ∧ s1.Ok ∧ s1.text = s.text ∧
      s1.os.pos + 1 ≤ s1.os.buf.length ∧ s1.os.buf.length ≤ max s.os.buf.length (s.os.pos + 1) ∧
      s1.flags = s.flags ∧ s1.width = s.width ∧ s1.fill = s.fill := by
    rw [roomOne, M.bind_ret (look_eq _ _), h.remaining]
    by_cases hr : s.os.buf.length - s.os.pos ≥ 1
    · rw [if_pos hr]
      exact ⟨s, rfl, h, rfl, by omega, by omega, rfl, rfl, rfl⟩
    · rw [if_neg hr]
      obtain ⟨s1, e1, h1, t1, p1, b1, f1, w1, l1⟩ := overflow_grow h (n := 1) (by omega) hl
      exact ⟨s1, by rw [M.bind_ret e1]; rfl, h1, t1, by omega, by omega, f1, w1, l1⟩
  obtain ⟨s', e, w, b⟩ := owrite h1 (d := [c]) (by simp; omega)
  refine ⟨s', ?_, ⟨w.ok, by rw [w.text, t1], w.flags.trans f1, w.width.trans w1, w.fill.trans l1, ?_⟩⟩
  · rw [putc, M.bind_ret e1, if_pos rfl]; exact e
  · have hp := h.text_len
    rw [b, w.text, t1, List.length_append, hp, List.length_singleton]
    omega

theorem writeLoop_ok (f : Nat) : ∀ (d : List Byte) (s : TOS), s.Ok → s.text.length + d.length < 2 ^ 31 → d.length + 1 ≤ f →
    ∃ s', writeLoop f d s = .ret () s' ∧ Wrote s s' d := by
  induction f with
  | zero => intro d s _ _ hf; omega
  | succ f ih =>
    intro d s h hl hf
    have hp := h.pos
    rw [h.text_len] at hl
    rw [writeLoop, writeRound]
    -- the state the bytes are written in
    obtain ⟨s1, r, e1, h1, t1, q1, r1, c1, f1, w1, l1⟩ : ∃ s1 r, room d.length s = .ret r s1 ∧ s1.Ok ∧ s1.text = s.text ∧ s1.os.pos + r = s1.os.buf.length ∧
        (d ≠ [] → 0 < r) ∧ s1.os.buf.length ≤ max s.os.buf.length (s.os.pos + d.length) ∧
        s1.flags = s.flags ∧ s1.width = s.width ∧ s1.fill = s.fill := by
      rw [room, M.bind_ret (look_eq _ _), h.remaining]
      by_cases hr : s.os.buf.length - s.os.pos ≠ 0
      · rw [if_pos hr]
        exact ⟨s, _, rfl, h, rfl, by omega, fun _ => by omega, by omega, rfl, rfl, rfl⟩
      · rw [if_neg hr]
        by_cases hd : d.length ≤ s.os.buf.length - s.os.pos
        · refine ⟨s, _, overflow_none h hd, h, rfl, by omega, fun e => ?_, by omega, rfl, rfl, rfl⟩
          have : d.length ≠ 0 := by simpa using e
          omega
        · obtain ⟨s1, e1, h1, t1, p1, b1, f1, w1, l1⟩ := overflow_grow h (n := d.length) (by omega) hl
          exact ⟨s1, _, e1, h1, t1, by omega, fun _ => by omega, by omega, f1, w1, l1⟩
    rw [M.bind_ret e1]
    have h1p := h1.text_len
    have hsp := h.text_len
    rw [t1, hsp] at h1p
    by_cases hb : min d.length r = 0
    · have : d = [] := by
        by_cases e : d = []
        · exact e
        · have := r1 e
          have : d.length ≠ 0 := by simpa using e
          omega
      subst this
      simp only [hb, if_true]
      refine ⟨s1, rfl, ⟨h1, by rw [t1]; simp, f1, w1, l1, ?_⟩⟩
      rw [t1, hsp]
      simp at c1
      omega
    · obtain ⟨s2, e2, w2, b2⟩ := owrite h1 (d := d.take (min d.length r)) (by simp; omega)
      have ht2 : s2.text.length = s.os.pos + min d.length r := by rw [w2.text, t1]; simp; omega
      obtain ⟨s3, e3, w3⟩ := ih (d.drop (min d.length r)) s2 w2.ok (by
        rw [ht2]; simp; omega) (by simp; omega)
      simp only [if_neg hb]
      rw [M.bind_ret e2]
      refine ⟨s3, e3, ⟨w3.ok, ?_, w3.flags.trans (w2.flags.trans f1), w3.width.trans (w2.width.trans w1), w3.fill.trans (w2.fill.trans l1), ?_⟩⟩
      · rw [w3.text, w2.text, t1, List.append_assoc, List.take_append_drop]
      · have a := w3.len
        have ht3 : s3.text.length = s.os.pos + d.length := by
          rw [w3.text]; simp [ht2]; omega
        omega

theorem write_ok' {s : TOS} (h : s.Ok) (d : List Byte) (hl : s.text.length + d.length < 2 ^ 31) :
    ∃ s', write d s = .ret () s' ∧ Wrote s s' d := writeLoop_ok _ d s h hl (by omega)

theorem printAt_ok {s : TOS} {d : List Byte} {space : Nat} (hs : space ≠ 0) (hd : s.os.pos + d.length ≤ s.os.buf.length) :
    printAt d space s = .ret () { s with os := { s.os with buf := s.os.buf.take s.os.pos ++ d ++ s.os.buf.drop (s.os.pos + d.length) } } := by
  unfold printAt store
  rw [if_neg hs, if_pos hd]

/-- `vformat` appends the formatted text. -/
theorem vformat_ok {s : TOS} (h : s.Ok) (t : List Byte) (hl : s.text.length + t.length + 1 < 2 ^ 31) :
    ∃ s', vformat t s = .ret () s' ∧ Wrote s s' t := by
  have hsp := h.text_len
  rw [hsp] at hl
  -- a round with enough room
  have room : ∀ (s : TOS) (k : M TOS Nat), s.Ok → s.os.pos + t.length < s.os.buf.length →
      ∃ s', fmtRound t k s = .ret (s.os.buf.length - s.os.pos) s' ∧ s'.os.pos = s.os.pos ∧ s'.os.buf.length = s.os.buf.length ∧
        s'.os.buf.take (s.os.pos + t.length) = s.text ++ t ∧ s'.own = true ∧ s'.copy = none ∧ s'.os.ios.state = 0 ∧
        s'.flags = s.flags ∧ s'.width = s.width ∧ s'.fill = s.fill := by
    intro s k h hr
    have hp := h.pos
    rw [fmtRound, M.bind_ret (look_eq _ _), h.remaining]
    have ht : t.take (s.os.buf.length - s.os.pos - 1) = t := List.take_of_length_le (by omega)
    rw [ht, M.bind_ret (printAt_ok (by omega) (by simp; omega)), if_neg (by omega)]
    refine ⟨_, rfl, rfl, ?_, ?_, h.own, h.copy, h.good, rfl, rfl, rfl⟩
    · simp; omega
    · show (s.os.buf.take s.os.pos ++ (t ++ [0]) ++ s.os.buf.drop _).take _ = _
      rw [List.append_assoc, List.append_assoc, ← List.append_assoc, List.take_append_of_le_length (by simp; omega)]
      exact List.take_of_length_le (by simp; omega)
  -- it follows that the loop succeeds
  have loop : ∃ space s', fmtLoop t 3 s = .ret space s' ∧ t.length < space ∧ s'.os.pos = s.os.pos ∧
      s'.os.pos + t.length ≤ s'.os.buf.length ∧ s'.os.buf.length ≤ max s.os.buf.length (s.os.pos + t.length + 1) ∧
      s'.os.buf.take (s.os.pos + t.length) = s.text ++ t ∧ s'.own = true ∧ s'.copy = none ∧ s'.os.ios.state = 0 ∧
      s'.flags = s.flags ∧ s'.width = s.width ∧ s'.fill = s.fill := by
    by_cases hr : s.os.pos + t.length < s.os.buf.length
    · obtain ⟨s', e, p, b, r⟩ := room s (fmtLoop t 2) h hr
      exact ⟨_, s', e, by omega, p, by omega, by omega, r⟩
    · -- the text does not fit at first
      have hp := h.pos
      obtain ⟨s0, e0, h0, t0, p0, b0, f0, w0, l0⟩ : ∃ s0, printAt (t.take (s.os.buf.length - s.os.pos - 1) ++ [0]) (s.os.buf.length - s.os.pos) s
          = .ret () s0 ∧ s0.Ok ∧ s0.text = s.text ∧ s0.os.pos = s.os.pos ∧ s0.os.buf.length = s.os.buf.length ∧
            s0.flags = s.flags ∧ s0.width = s.width ∧ s0.fill = s.fill := by
        by_cases hz : s.os.buf.length - s.os.pos = 0
        · exact ⟨s, by unfold printAt; rw [if_pos hz], h, rfl, rfl, rfl, rfl, rfl, rfl⟩
        · have hle : s.os.pos + (t.take (s.os.buf.length - s.os.pos - 1) ++ [0]).length ≤ s.os.buf.length := by simp; omega
          refine ⟨_, printAt_ok hz hle, ⟨h.own, h.copy, ?_, ?_, h.good⟩, ?_, rfl, ?_, rfl, rfl, rfl⟩
          · simp at hle ⊢; omega
          · have := h.len; simp at hle ⊢; omega
          · show (s.os.buf.take s.os.pos ++ _ ++ s.os.buf.drop _).take s.os.pos = s.os.buf.take s.os.pos
            rw [List.append_assoc, List.take_append_of_le_length (by simp; omega), List.take_take]
            congr 1; omega
          · simp at hle ⊢; omega
      obtain ⟨s1, e1, h1, t1, p1, b1, f1, w1, l1⟩ := overflow_grow h0 (n := t.length + 1) (by omega) (by omega)
      obtain ⟨s', e, p, b, tk, o, c, g, f2, w2, l2⟩ := room s1 (fmtLoop t 1) h1 (by omega)
      refine ⟨s1.os.buf.length - s1.os.pos, s', ?_, ?_, by omega, by omega, by omega, ?_, o, c, g, by rw [f2, f1, f0], by rw [w2, w1, w0], by rw [l2, l1, l0]⟩
      · rw [fmtLoop, fmtRound, M.bind_ret (look_eq _ _), h.remaining, M.bind_ret e0, if_pos (by omega), M.bind_ret e1,
          if_pos (by omega), fmtLoop]
        exact e
      · omega
      · rw [← t0, ← t1, ← tk, p1, p0]
  obtain ⟨space, s', e, hs, p, b, bl, tk, o, c, g, f, w, l⟩ := loop
  have hmin : min t.length space = t.length := by omega
  have hlen : s.os.buf.length < 2 ^ 31 := h.len
  refine ⟨{ s' with os := { s'.os with pos := s'.os.pos + t.length } }, ?_, ⟨⟨o, c, b, by show s'.os.buf.length < _; omega, g⟩, ?_, f, w, l, ?_⟩⟩
  · rw [vformat, M.bind_ret e, hmin]; rfl
  · show s'.os.buf.take (s'.os.pos + t.length) = _
    rw [p, tk]
  · show s'.os.buf.length ≤ max s.os.buf.length ((s'.os.buf.take (s'.os.pos + t.length)).length + 1)
    rw [List.length_take]
    omega

theorem str_ok {s : TOS} (h : s.Ok) : ∃ s', str s = .ret s.text s' ∧ Wrote s s' [] := by
  have hp := h.pos
  have hg : growTo s.junk s.os.buf s.os.pos = s.text := by
    unfold growTo TOS.text
    have : s.os.pos - s.os.buf.length = 0 := by omega
    rw [this]; simp
  refine ⟨{ s with os := { s.os with buf := s.os.buf.set s.os.pos 0 }, cap := max s.cap (s.os.pos + 1) }, ?_,
    ⟨⟨h.own, h.copy, ?_, ?_, h.good⟩, ?_, rfl, rfl, rfl, ?_⟩⟩
  · unfold str
    simp only [h.own, if_true, h.copy, Option.getD_none, hg]
  · show s.os.pos ≤ (s.os.buf.set _ _).length; simpa using hp
  · show (s.os.buf.set _ _).length < _; simpa using h.len
  · show (s.os.buf.set s.os.pos 0).take s.os.pos = s.os.buf.take s.os.pos ++ []
    rw [List.append_nil, List.take_set_of_le (Nat.le_refl _)]
  · show (s.os.buf.set _ _).length ≤ _; simp; omega

end Ustl.Text
