import Verif.Chrono.Clock
/-! # Durations and times as text: theorems for C78 -/
namespace Ustl.Chrono
open Ustl.Stream (Byte M)
open Ustl.Text (TOS Wrote intText ITy Fmt digs digits digitsVal convPrint convText)

/-- A number written as `-12.0345`: the sign, the digits before the point, the digits after it. -/
def decVal (l : List Byte) : ℚ :=
  let r := if l.head? = some 45 then l.tail else l
  let i := r.takeWhile (· ≠ 46)
  let f := (r.dropWhile (· ≠ 46)).tail
  let v : ℚ := digitsVal 10 i + digitsVal 10 f / 10 ^ f.length
  if l.head? = some 45 then -v else v

theorem digs_len (k : Nat) : ∀ n : Nat, n < 10 ^ (k + 1) → (digs 10 false n).length ≤ k + 1 := by
  induction k with
  | zero =>
    intro n h
    rw [digs, dif_pos (by left; simpa using h)]
    simp
  | succ k ih =>
    intro n h
    rw [digs]
    split
    · simp
    · rw [List.length_append]
      have := ih (n / 10) (by rw [pow_succ] at h; omega)
      simp only [List.length_cons, List.length_nil]
      omega

theorem digitsVal_zeros (k : Nat) (l : List Byte) : digitsVal 10 (List.replicate k 48 ++ l) = digitsVal 10 l := by
  induction k with
  | zero => rfl
  | succ k ih =>
    rw [List.replicate_succ, List.cons_append]
    unfold digitsVal at *
    rw [List.foldl_cons]
    have : (0 : Nat) * 10 + (Ustl.Text.digitVal 48).getD 0 = 0 := by decide
    rw [this]
    exact ih

theorem isDigit_ne {c : Byte} (h : Ustl.Text.isDigit 10 c = true) : c ≠ 46 ∧ c ≠ 45 ∧ c ≠ 95 := by
  refine ⟨?_, ?_, ?_⟩ <;> (rintro rfl; revert h; decide)

theorem toS64 (v : Int) (h1 : -2 ^ 63 ≤ v) (h2 : v < 2 ^ 63) : Ustl.Text.toS 64 v = v := by
  unfold Ustl.Text.toS
  norm_num at h1 h2 ⊢
  omega

theorem format_eq (t : HrTime) (hn : t.Norm) (h1 : -2 ^ 63 ≤ t.sec) (h2 : t.sec < 2 ^ 63) :
    t.format = (if t.sec < 0 then [45] else []) ++ digs 10 false t.sec.natAbs ++ [46] ++
      (List.replicate (9 - (digs 10 false t.nsec.natAbs).length) 48 ++ digs 10 false t.nsec.natAbs) := by
  have hn0 := hn.1
  have hn1 := hn.2
  unfold HrTime.format convPrint convText
  simp only [if_true, toS64 t.sec h1 h2, toS64 t.nsec (by omega) (by omega), Bool.false_eq_true, if_false]
  rw [if_neg (show ¬ t.nsec < 0 by omega)]
  simp

theorem natAbs_q {x y : Int} (h : (x.natAbs : Int) = y) : (x.natAbs : ℚ) = (y : ℚ) := by
  rw [← h, Int.cast_natCast]

/-- The value of the text, for every normalised time. -/
theorem decVal_format (t : HrTime) (hn : t.Norm) (h1 : -2 ^ 63 ≤ t.sec) (h2 : t.sec < 2 ^ 63) :
    decVal t.format = if t.sec < 0 then (t.sec - t.nsec / 1000000000 : ℚ) else (t.sec + t.nsec / 1000000000 : ℚ) := by
  rw [format_eq t hn h1 h2]
  have hd : ∀ c ∈ digs 10 false t.sec.natAbs, Ustl.Text.isDigit 10 c = true := Ustl.Text.digs_isDigit 10 false (by decide) (by decide) _
  have hlen := digs_len 8 t.nsec.natAbs (by have := hn.1; have := hn.2; omega)
  have hne := Ustl.Text.digs_ne 10 false t.sec.natAbs
  have hv1 := Ustl.Text.digitsVal_digs 10 false (by decide) (by decide) t.sec.natAbs
  have hv2 := Ustl.Text.digitsVal_digs 10 false (by decide) (by decide) t.nsec.natAbs
  generalize hI : digs 10 false t.sec.natAbs = I at *
  generalize hF : digs 10 false t.nsec.natAbs = F at *
  have hvF : digitsVal 10 (List.replicate (9 - F.length) 48 ++ F) = t.nsec.natAbs := by rw [digitsVal_zeros, hv2]
  have hlF : (List.replicate (9 - F.length) 48 ++ F).length = 9 := by simp; omega
  generalize List.replicate (9 - F.length) 48 ++ F = G at *
  have key : ∀ X : List Byte, X = I ++ [46] ++ G →
      (X.takeWhile (· ≠ 46) = I ∧ (X.dropWhile (· ≠ 46)).tail = G) := by
    rintro X rfl
    have hI' : ∀ a ∈ I, (decide (a ≠ 46)) = true := fun a ha => by
      simpa using (isDigit_ne (hd a ha)).1
    rw [List.append_assoc, List.takeWhile_append_of_pos hI', List.dropWhile_append_of_pos hI']
    simp
  have hN : (t.nsec.natAbs : ℚ) = t.nsec := natAbs_q (by have := hn.1; omega)
  have hsplit : ∀ neg : Bool, decVal ((if neg then [45] else []) ++ I ++ [46] ++ G) =
      if neg then -((t.sec.natAbs : ℚ) + t.nsec / 1000000000) else (t.sec.natAbs : ℚ) + t.nsec / 1000000000 := by
    intro neg
    obtain ⟨k1, k2⟩ := key _ rfl
    cases neg with
    | true =>
      simp only [if_true, decVal]
      rw [show ([45] ++ I ++ [46] ++ G : List Byte) = 45 :: (I ++ [46] ++ G) by simp]
      simp only [List.head?_cons, if_true, List.tail_cons]
      rw [k1, k2, hv1, hvF, hlF, hN]
      norm_num
    | false =>
      simp only [decVal, Bool.false_eq_true, if_false, List.nil_append]
      have hh : (I ++ [46] ++ G).head? ≠ some 45 := by
        obtain ⟨c, I', rfl⟩ := List.exists_cons_of_ne_nil hne
        simp only [List.cons_append, List.head?_cons, ne_eq, Option.some.injEq]
        exact (isDigit_ne (hd c (by simp))).2.1
      rw [if_neg hh, if_neg hh, k1, k2, hv1, hvF, hlF, hN]
      norm_num
  by_cases hs : t.sec < 0
  · have hA : (t.sec.natAbs : ℚ) = -t.sec := by
      rw [natAbs_q (y := -t.sec) (by omega)]
      push_cast
      rfl
    have := hsplit true
    rw [if_pos rfl, if_pos rfl, hA] at this
    rw [if_pos hs, if_pos hs, this]
    ring
  · have hA : (t.sec.natAbs : ℚ) = t.sec := natAbs_q (by omega)
    have := hsplit false
    rw [if_neg (by decide), if_neg (by decide), hA] at this
    rw [if_neg hs, if_neg hs, this]

/-- **C78** (partial) `os << t` for an `hrtime_t` appends a decimal fraction, which is the time in seconds if it is not before the
epoch, or a whole number of seconds before it. What is missing: see `hrtime_text_violated`. -/
theorem hrtime_text_partial {s : TOS} (h : s.Ok) (t : HrTime) (hn : t.Norm) (h1 : -2 ^ 63 ≤ t.sec) (h2 : t.sec < 2 ^ 63)
    (hl : s.text.length + 40 < 2 ^ 31) :
    ∃ s' d, t.textWrite s = .ret () s' ∧ Wrote s s' d ∧
      (∃ i f : List Byte, d = (if t.sec < 0 then [45] else []) ++ i ++ [46] ++ f ∧ i ≠ [] ∧ f.length = 9 ∧
        ∀ c ∈ i ++ f, Ustl.Text.isDigit 10 c = true) ∧
      (0 ≤ t.sec ∨ t.nsec = 0 → decVal d = t.total / 1000000000) := by
  have hlen : t.format.length ≤ 30 := by
    rw [format_eq t hn h1 h2]
    have a1 := digs_len 18 t.sec.natAbs (by omega)
    have a2 := digs_len 8 t.nsec.natAbs (by have := hn.1; have := hn.2; omega)
    simp only [List.length_append, List.length_replicate, List.length_cons, List.length_nil]
    split <;> simp only [List.length_cons, List.length_nil] <;> omega
  obtain ⟨s', e, w⟩ := Ustl.Text.vformat_ok h t.format (by omega)
  refine ⟨s', _, e, w, ⟨_, _, format_eq t hn h1 h2, Ustl.Text.digs_ne 10 false _, ?_, ?_⟩, fun hc => ?_⟩
  · have a2 := digs_len 8 t.nsec.natAbs (by have := hn.1; have := hn.2; omega)
    simp only [List.length_append, List.length_replicate]
    omega
  · intro c hc
    simp only [List.mem_append, List.mem_replicate] at hc
    rcases hc with hc | hc | hc
    · exact Ustl.Text.digs_isDigit 10 false (by decide) (by decide) _ c hc
    · rw [hc.2]; decide
    · exact Ustl.Text.digs_isDigit 10 false (by decide) (by decide) _ c hc
  rw [decVal_format t hn h1 h2]
  unfold HrTime.total
  push_cast
  split
  · rename_i hs
    have hz : t.nsec = 0 := by omega
    rw [hz]
    ring
  · ring

example : HrTime.format ⟨5, 1000⟩ = "5.000001000".toUTF8.toList := by
  rw [format_eq _ ⟨by decide, by decide⟩ (by decide) (by decide)]
  simp [digs, Ustl.Text.digitChar]
  decide +kernel

/-- **C78 fails** for every time before the epoch with a fraction: minus half a second, `(-1, 500000000)`, is written as
`-1.500000000`. -/
theorem hrtime_text_violated (t : HrTime) (hn : t.Norm) (h1 : -2 ^ 63 ≤ t.sec) (h2 : t.sec < 0) (hz : t.nsec ≠ 0) :
    decVal t.format ≠ t.total / 1000000000 := by
  rw [decVal_format t hn h1 (by omega), if_pos h2]
  unfold HrTime.total
  push_cast
  intro e
  have : (t.nsec : ℚ) = 0 := by linarith
  exact hz (by exact_mod_cast this)

example : (HrTime.mk (-1) 500000000).Norm ∧ HrTime.format ⟨-1, 500000000⟩ = "-1.500000000".toUTF8.toList := by
  refine ⟨⟨by decide, by decide⟩, ?_⟩
  rw [format_eq _ ⟨by decide, by decide⟩ (by decide) (by decide)]
  simp [digs, Ustl.Text.digitChar]
  decide +kernel

/-! ## Durations -/

/-- The names of the units in texts. -/
def TUnit.name : TUnit → String
  | .ns => "ns" | .us => "us" | .ms => "ms" | .s => "s" | .min => "min" | .h => "hours" | .d => "days" | .w => "weeks"
  | .months => "months" | .years => "years" | .centuries => "centuries" | .millenia => "millenia"

/-- The text of a duration: the count in decimal, an underscore, the unit. -/
def TUnit.text (u : TUnit) (c : Int) : List Byte :=
  (if c < 0 then [45] else []) ++ digits 10 false c.natAbs ++ [95] ++ u.name.toUTF8.toList

theorem suffix_name (u : TUnit) : u.suffix = 95 :: u.name.toUTF8.toList := by
  cases u <;> decide +kernel

/-- **C78** `os << d` for a named duration, on a stream with the default settings, appends the count and the unit. -/
theorem duration_text {s : TOS} (h : s.Ok) (hf : s.fmt = {}) (u : TUnit) (d : Dur Int) (hd : Counts.ok d.count)
    (hl : s.text.length + 100 < 2 ^ 31) :
    ∃ s', u.textWrite d s = .ret () s' ∧ Wrote s s' (u.text d.count) := by
  have hfits : (ITy.mk 64 true).fits d.count := by
    unfold ITy.fits
    rw [if_pos rfl]
    exact hd
  have hI : intText {} ⟨64, true⟩ d.count = (if d.count < 0 then [45] else []) ++ digits 10 false d.count.natAbs := by
    simp [intText, Ustl.Text.intParts, Ustl.Text.numVal]
  have hdl : (intText {} ⟨64, true⟩ d.count).length ≤ 20 := by
    have h1 : -2 ^ 63 ≤ d.count := hd.1
    have h2 : d.count < 2 ^ 63 := hd.2
    have a1 := digs_len 18 d.count.natAbs (by omega)
    rw [Ustl.Text.digs_digits 10 false (by decide) (by decide)] at a1
    rw [hI, List.length_append]
    split <;> simp only [List.length_cons, List.length_nil] <;> omega
  obtain ⟨s1, e1, w1⟩ := Ustl.Text.writeInt_partial h (by rw [hf]; exact ⟨by simp, .inl rfl⟩) (t := ⟨64, true⟩) (by decide) hfits
    (by rw [hf]; omega)
  rw [hf] at w1
  have hsl : u.suffix.length ≤ 10 := by cases u <;> decide
  obtain ⟨s2, e2, w2⟩ := Ustl.Text.write_ok' w1.ok u.suffix (by rw [w1.text, List.length_append]; omega)
  refine ⟨s2, ?_, ⟨w2.ok, ?_, w2.flags.trans w1.flags, w2.width.trans w1.width, w2.fill.trans w1.fill, ?_⟩⟩
  · unfold TUnit.textWrite
    rw [M.bind_ret e1]
    exact e2
  · rw [w2.text, w1.text, hI, suffix_name]
    simp [TUnit.text]
  · have b1 := w1.len
    have b2 := w2.len
    rw [w2.text, List.length_append] at *
    omega

theorem digits_inj {a b : Nat} (h : digits 10 false a = digits 10 false b) : a = b := by
  rw [← Ustl.Text.digs_digits 10 false (by decide) (by decide), ← Ustl.Text.digs_digits 10 false (by decide) (by decide)] at h
  rw [← Ustl.Text.digitsVal_digs 10 false (by decide) (by decide) a, h, Ustl.Text.digitsVal_digs 10 false (by decide) (by decide)]

/-- **C78** the text says the duration: no two different counts or units have the same text. -/
theorem duration_text_inj (u v : TUnit) (a b : Int) (h : u.text a = v.text b) : u = v ∧ a = b := by
  have hdig : ∀ n : Nat, ∀ c ∈ digits 10 false n, c ≠ 45 ∧ c ≠ 95 := by
    intro n c hc
    rw [← Ustl.Text.digs_digits 10 false (by decide) (by decide)] at hc
    exact (isDigit_ne (Ustl.Text.digs_isDigit 10 false (by decide) (by decide) n c hc)).2
  have hne : ∀ n : Nat, digits 10 false n ≠ [] := by
    intro n
    rw [← Ustl.Text.digs_digits 10 false (by decide) (by decide)]
    exact Ustl.Text.digs_ne 10 false n
  have hsp : ∀ (w : TUnit) (c : Int), (w.text c).takeWhile (· ≠ 95) = (if c < 0 then [45] else []) ++ digits 10 false c.natAbs ∧
      (w.text c).dropWhile (· ≠ 95) = 95 :: w.name.toUTF8.toList := by
    intro w c
    have hp : ∀ x ∈ (if c < 0 then [45] else []) ++ digits 10 false c.natAbs, decide (x ≠ 95) = true := by
      intro x hx
      rw [List.mem_append] at hx
      rcases hx with hx | hx
      · split at hx
        · have : x = 45 := by simpa using hx
          subst this; decide
        · exact absurd hx (by simp)
      · simpa using (hdig _ x hx).2
    unfold TUnit.text
    rw [List.append_assoc, List.takeWhile_append_of_pos hp, List.dropWhile_append_of_pos hp]
    simp
  have h1 := (hsp u a).1
  have h2 := (hsp u a).2
  rw [h] at h1 h2
  rw [(hsp v b).1] at h1
  rw [(hsp v b).2] at h2
  constructor
  · have h2 := (List.cons.inj h2).2
    revert h2
    have : ∀ u v : TUnit, v.name.toUTF8.toList = u.name.toUTF8.toList → u = v := by
      intro u v
      cases u <;> cases v <;> decide +kernel
    exact this u v
  · have head : ∀ n : Nat, (digits 10 false n).head? ≠ some 45 := by
      intro n hc
      obtain ⟨c, l, e⟩ := List.exists_cons_of_ne_nil (hne n)
      have := (hdig n c (by rw [e]; simp)).1
      rw [e] at hc
      simp at hc
      exact this hc
    by_cases ha : a < 0 <;> by_cases hb : b < 0
    · rw [if_pos ha, if_pos hb] at h1
      have := digits_inj (List.append_cancel_left h1)
      omega
    · rw [if_pos ha, if_neg hb, List.nil_append] at h1
      exact absurd (by rw [h1]; rfl) (head b.natAbs)
    · rw [if_neg ha, if_pos hb, List.nil_append] at h1
      exact absurd (by rw [← h1]; rfl) (head a.natAbs)
    · rw [if_neg ha, if_neg hb, List.nil_append, List.nil_append] at h1
      have := digits_inj h1
      omega

example : TUnit.text .min (-90) = "-90_min".toUTF8.toList ∧ (TOS.ofString [] (fun _ => 0)).fmt = {} := by
  constructor <;> decide +kernel

end Ustl.Chrono
