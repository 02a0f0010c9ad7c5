import Verif.Text.OutSpec
import Mathlib.Tactic.NormNum
/-! # Integers as text: C42 -/
namespace Ustl.Text
open Ustl.Stream

theorem digs_digits (b : Nat) (up : Bool) (hb2 : 2 ≤ b) (hb : b ≤ 16) (n : Nat) : digs b up n = digits b up n := by
  have hc : ∀ up : Bool, ∀ d < 16, digitChar up d = UInt8.ofNat (if up then d.digitChar.toUpper else d.digitChar).toNat := by decide
  unfold digits
  induction n using Nat.strongRecOn with
  | ind n ih =>
    rw [digs]
    split
    · rename_i h
      rw [Nat.toDigits_of_lt_base (by omega), hc _ _ (by omega)]; rfl
    · rename_i h
      have hm := Nat.mod_lt n (show b > 0 by omega)
      rw [Nat.toDigits_of_base_le (by omega) (by omega), ih _ (Nat.div_lt_self (by omega) (by omega)), hc _ _ (by omega)]
      simp

set_option maxRecDepth 100000 in
/-- The format string without a width. -/
theorem parse0 : ∀ (l p h x u o : Bool), (h = true → x = true ∨ o = true) → ∀ t ∈ ITy.all,
    parseConv ([37] ++ ([] : List Byte) ++ (if l then [45] else []) ++ (if p then [43] else []) ++ (if h then [35] else [])
      ++ (typeString t).dropLast
      ++ [if x then (if u then 88 else 120) else if o then 111 else (typeString t).getLastD 0]) =
    some { minus := l, plus := p, hash := h, bits := t.bits,
           conv := if x then (if u then 88 else 120) else if o then 111 else if t.sgn then 100 else 117 } := by
  decide

set_option maxRecDepth 100000 in
/-- The format string with a width of one digit. -/
theorem parseW : ∀ (z x u o : Bool), ∀ w < 10, 0 < w → ∀ t ∈ ITy.all,
    parseConv ([37] ++ ((if z then [48] else []) ++ [UInt8.ofNat (48 + w)]) ++ (if false then [45] else [])
      ++ (if false then [43] else []) ++ (if false then [35] else []) ++ (typeString t).dropLast
      ++ [if x then (if u then 88 else 120) else if o then 111 else (typeString t).getLastD 0]) =
    some { zero := z, width := w, bits := t.bits,
           conv := if x then (if u then 88 else 120) else if o then 111 else if t.sgn then 100 else 117 } := by
  decide

theorem conv_parts {t : ITy} (ht : t ∈ ITy.all) {v : Int} (hv : t.fits v) (k : Conv) (f : Fmt) (hk : k.bits = t.bits)
    (hp : k.plus = f.showpos) (hs : k.space = false) (hh : k.hash = f.showbase)
    (hc : k.conv = match f.base with | .hex => (if f.upper then 88 else 120) | .oct => 111 | .dec => if t.sgn then 100 else 117) :
    convText k v = intParts f t v := by
  have e10 := fun n => digs_digits 10 false (by decide) (by decide) n
  have e8 := fun n => digs_digits 8 false (by decide) (by decide) n
  have e16 := fun up n => digs_digits 16 up (by decide) (by decide) n
  have hU : toU k.bits v = (v % (2 ^ t.bits : Int)).natAbs := by
    rw [hk]; unfold toU
    have : 0 ≤ v % (2 ^ t.bits : Int) := Int.emod_nonneg _ (by positivity)
    omega
  unfold convText intParts numVal
  cases hb : f.base with
  | dec =>
    rw [hb] at hc
    simp only at hc
    cases hsg : t.sgn with
    | true =>
      rw [hsg] at hc
      simp only [if_true] at hc
      have hS : toS k.bits v = v := by
        rw [hk]; unfold toS
        simp only [ITy.fits, hsg, if_true] at hv
        simp only [ITy.all, List.mem_cons, List.not_mem_nil, or_false] at ht
        rcases ht with rfl | rfl | rfl | rfl | rfl | rfl <;> norm_num at hv ⊢ <;> omega
      simp only [hc, if_true, hS, hp, hs, e10]
      simp
    | false =>
      rw [hsg] at hc
      simp only [Bool.false_eq_true, if_false] at hc
      have hv0 : 0 ≤ v ∧ v < (2 ^ t.bits : Int) := by simpa [ITy.fits, hsg] using hv
      have h100 : (117 : Byte) ≠ 100 := by decide
      simp only [hc, if_neg h100, if_true, e10, hU, Int.emod_eq_of_lt hv0.1 hv0.2]
      rw [if_neg (by omega)]
      simp
  | oct =>
    rw [hb] at hc
    simp only at hc
    simp only [hc, show (111 : Byte) ≠ 100 from by decide, show (111 : Byte) ≠ 117 from by decide, if_false, if_true, e8, hh, hU]
    simp only [show Base.oct ≠ Base.dec from by decide, if_false]
    split <;> rfl
  | hex =>
    rw [hb] at hc
    simp only at hc
    have h1 : k.conv ≠ 100 ∧ k.conv ≠ 117 ∧ k.conv ≠ 111 := by
      rw [hc]; cases f.upper <;> decide
    have h2 : decide (k.conv = 88) = f.upper := by
      rw [hc]; cases f.upper <;> decide
    simp only [if_neg h1.1, if_neg h1.2.1, if_neg h1.2.2, e16, h2, hh, hU]
    simp only [show Base.hex ≠ Base.dec from by decide, if_false, hc]

/-- The settings for which the format string is right. -/
def Fmt.Plain (f : Fmt) : Prop :=
  (f.showbase = true → f.base ≠ .dec) ∧
  (f.width = 0 ∨ f.width < 10 ∧ f.left = false ∧ f.showpos = false ∧ f.showbase = false)

theorem has_bit (flags k : Nat) : has flags (2 ^ k) = flags.testBit k := by
  unfold has
  cases h : flags.testBit k
  · have : flags &&& 2 ^ k = 0 := by
      apply Nat.eq_of_testBit_eq
      intro i
      rw [Nat.testBit_and, Nat.testBit_two_pow, Nat.zero_testBit]
      by_cases e : k = i
      · subst e; simp [h]
      · simp [e]
    simp [this]
  · have : flags &&& 2 ^ k ≠ 0 := by
      intro e
      have e2 : (flags &&& 2 ^ k).testBit k = true := by
        rw [Nat.testBit_and, Nat.testBit_two_pow_self, h]; rfl
      rw [e, Nat.zero_testBit] at e2
      exact absurd e2 (by decide)
    simp [this]

theorem has_bits (flags : Nat) : has flags 4096 = flags.testBit 12 ∧ has flags 8 = flags.testBit 3 ∧ has flags 2 = flags.testBit 1 ∧
    has flags 512 = flags.testBit 9 ∧ has flags 256 = flags.testBit 8 ∧ has flags 64 = flags.testBit 6 :=
  ⟨has_bit _ 12, has_bit _ 3, has_bit _ 1, has_bit _ 9, has_bit _ 8, has_bit _ 6⟩

/-- The conversion character the flags choose. -/
def convChar (flags : Nat) (t : ITy) : Byte :=
  if flags.testBit 9 then (if flags.testBit 6 then 88 else 120) else if flags.testBit 8 then 111 else if t.sgn then 100 else 117

theorem base_conv (flags : Nat) (t : ITy) : convChar flags t =
    match Base.ofFlags flags with | .hex => (if flags.testBit 6 then 88 else 120) | .oct => 111 | .dec => if t.sgn then 100 else 117 := by
  unfold Base.ofFlags convChar
  cases flags.testBit 9 <;> cases flags.testBit 8 <;> rfl

theorem parse_fmt {t : ITy} (ht : t ∈ ITy.all) {v : Int} (hv : t.fits v) (s : TOS) (hf : s.fmt.Plain) :
    ∃ k, parseConv (fmtString s.flags s.width s.fill t) = some k ∧ convPrint k v = intText s.fmt t v := by
  obtain ⟨h1, h2⟩ := hf
  have hx : hexFlag = 512 := rfl
  have ho : octFlag = 256 := rfl
  by_cases hw : s.width = 0
  · have hsb : s.flags.testBit 1 = true → s.flags.testBit 9 = true ∨ s.flags.testBit 8 = true := by
      intro e
      have := h1 e
      simp only [TOS.fmt, Base.ofFlags] at this
      cases e1 : s.flags.testBit 9 <;> cases e2 : s.flags.testBit 8 <;> simp_all
    have := parse0 (s.flags.testBit 12) (s.flags.testBit 3) (s.flags.testBit 1) (s.flags.testBit 9) (s.flags.testBit 6) (s.flags.testBit 8) hsb t ht
    refine ⟨{ minus := s.flags.testBit 12, plus := s.flags.testBit 3, hash := s.flags.testBit 1, bits := t.bits,
              conv := convChar s.flags t }, ?_, ?_⟩
    · unfold fmtString
      obtain ⟨b1, b2, b3, b4, b5, b6⟩ := has_bits s.flags
      rw [if_neg (by simp [hw]), hx, ho, b1, b2, b3, b4, b5, b6]
      exact this
    · have hp := conv_parts ht hv { minus := s.flags.testBit 12, plus := s.flags.testBit 3, hash := s.flags.testBit 1, bits := t.bits,
                                        conv := convChar s.flags t } s.fmt rfl rfl rfl rfl (base_conv _ _)
      unfold convPrint intText
      rw [hp]
      simp only [TOS.fmt, hw, Nat.zero_sub, List.replicate_zero, List.append_nil, List.nil_append, if_false, Bool.false_eq_true]
      split
      · rfl
      · split <;> rfl
  · rcases h2 with h2 | ⟨w10, hl, hp, hb⟩
    · exact absurd h2 hw
    · have hl' : s.flags.testBit 12 = false := hl
      have hp' : s.flags.testBit 3 = false := hp
      have hb' : s.flags.testBit 1 = false := hb
      have w10' : s.width < 10 := w10
      have := parseW (decide (s.fill = 48)) (s.flags.testBit 9) (s.flags.testBit 6) (s.flags.testBit 8) s.width w10' (by omega) t ht
      have henc : encodeDec s.width = [UInt8.ofNat (48 + s.width)] := by rw [encodeDec, dif_pos w10']
      refine ⟨{ zero := decide (s.fill = 48), width := s.width, bits := t.bits, conv := convChar s.flags t }, ?_, ?_⟩
      · unfold fmtString
        obtain ⟨b1, b2, b3, b4, b5, b6⟩ := has_bits s.flags
        rw [if_pos hw, hx, ho, b1, b2, b3, b4, b5, b6, hl', hp', hb', henc]
        simp only [decide_eq_true_eq] at this
        exact this
      · have hpp := conv_parts ht hv { zero := decide (s.fill = 48), width := s.width, bits := t.bits,
                                           conv := convChar s.flags t } s.fmt rfl hp.symm rfl hb.symm (base_conv _ _)
        unfold convPrint intText
        rw [hpp]
        simp only [TOS.fmt, hl', Bool.false_eq_true, if_false]

/-- **C42** (partial): an integer is written as its digits, with sign or prefix, filled up to the width. What is missing:
widths of ten or more, widths together with `left`, `showpos` or `showbase`, and `showbase` in decimal: see
`width_violated` and `width_left_violated`. -/
theorem writeInt_partial {s : TOS} (h : s.Ok) (hf : s.fmt.Plain) {t : ITy} (ht : t ∈ ITy.all) {v : Int} (hv : t.fits v)
    (hl : s.text.length + (intText s.fmt t v).length + 1 < 2 ^ 31) :
    ∃ s', writeInt t v s = .ret () s' ∧ Wrote s s' (intText s.fmt t v) := by
  obtain ⟨k, e1, e2⟩ := parse_fmt ht hv s hf
  obtain ⟨s', e, w⟩ := vformat_ok h (intText s.fmt t v) hl
  refine ⟨s', ?_, w⟩
  rw [writeInt, M.bind_ret (look_eq _ _), e1]
  rw [← e2] at e
  exact e

/-- 255 in hexadecimal with the prefix, after a text that is already there. -/
example : ∃ s' : TOS, writeInt ⟨32, true⟩ 255 { os := { buf := [97, 0], pos := 1 }, flags := 512 + 2 } = .ret () s' ∧
    s'.text = [97, 48, 120, 102, 102] := by
  obtain ⟨s', e, w⟩ := writeInt_partial (s := { os := { buf := [97, 0], pos := 1 }, flags := 512 + 2 }) ⟨rfl, rfl, by decide, by decide, rfl⟩
    ⟨by decide, .inl rfl⟩ (t := ⟨32, true⟩) (by decide) (v := 255) (by unfold ITy.fits; decide) (by decide)
  exact ⟨s', e, by rw [w.text]; rfl⟩

end Ustl.Text
