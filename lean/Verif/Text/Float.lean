import Verif.Text.OutProps
import Verif.Text.Manip
/-! # Floating-point numbers written as text (C99)

A finite `float`, `double` or `long double` is a sign and a fraction `num / den` (its denominator is a power of two, which plays no part here). Infinities, NaNs and
`scientific` are not modelled: what the C library prints for `%E` is a parameter. -/
namespace Ustl.Text
open Ustl.Stream

/-! ## The C library (C11 7.21.6.1), the conversion `f` correctly rounded as IEEE 754 and glibc have it -/

/-- `num / den` rounded to an integer, halves to even. -/
def roundHE (num den : Nat) : Nat :=
  if 2 * (num % den) < den then num / den
  else if den < 2 * (num % den) then num / den + 1
  else if (num / den) % 2 = 0 then num / den else num / den + 1

/-- `%.{p}f`: the sign, and the digits with the decimal point. -/
def fixedText (k : Conv) (p : Nat) (neg : Bool) (num den : Nat) : List Byte × List Byte :=
  let n := roundHE (num * 10 ^ p) den
  let fp := digs 10 false (n % 10 ^ p)
  (if neg then [45] else if k.plus then [43] else if k.space then [32] else [],
   digs 10 false (n / 10 ^ p) ++ if p = 0 then (if k.hash then [46] else []) else 46 :: (List.replicate (p - fp.length) 48 ++ fp))

/-- What `vsnprintf` prints for the conversion `f`. -/
def printF (k : Conv) (p : Nat) (neg : Bool) (num den : Nat) : List Byte :=
  let (sg, ds) := fixedText k p neg num den
  let fill := k.width - (sg.length + ds.length)
  if k.minus then sg ++ ds ++ List.replicate fill 32
  else if k.zero then sg ++ List.replicate fill 48 ++ ds
  else List.replicate fill 32 ++ sg ++ ds

/-- A format string that is one floating-point conversion specification: `%`, flags, width, point, precision, `l` or `L` or nothing, one of `f E`. -/
def parseF (f : List Byte) : Option (Conv × Nat) :=
  match f with
  | 37 :: r =>
    let (k, r1) := parseFlags r {}
    let w := digitsVal 10 (r1.takeWhile (isDigit 10))
    match r1.dropWhile (isDigit 10) with
    | 46 :: r2 =>
      let p := digitsVal 10 (r2.takeWhile (isDigit 10))
      let r3 := r2.dropWhile (isDigit 10)
      let r4 := if r3.head? = some 108 ∨ r3.head? = some 76 then r3.tail else r3
      match r4 with
      | [c] => if c = 102 ∨ c = 69 then some ({ k with width := w, conv := c }, p) else none
      | _ => none
    | _ => none
  | _ => none

/-! ## The repository -/

/-- The floating-point types. -/
inductive FTy | flt | dbl | ldbl
deriving DecidableEq, Repr

/-- `printf_typestring`. Models sostream.h:94-95, 102-104. -/
def FTy.str : FTy → List Byte
  | .flt => [102]
  | .dbl => [108, 102]
  | .ldbl => [76, 102]

/-- `fmtstring` for a floating-point type. Models sostream.cc:74-103. -/
def fmtStringF (flags width : Nat) (fill : Byte) (prec : Nat) (t : FTy) : List Byte :=
  [37]
  ++ (if width ≠ 0 then (if fill = 48 then [48] else []) ++ encodeDec width else [])
  ++ (if has flags 4096 then [45] else [])
  ++ 46 :: encodeDec prec
  ++ t.str.dropLast
  ++ [if has flags 2048 then 69 else t.str.getLastD 0]

/-- `iformat (v)`, `os << v` for a floating-point number; `prec` is `_precision`, which only `precision (n)` and `setprecision (n)` change. `sci` is what the C library
prints for `%E`. Models sostream.h:37-39, 111-117, 206-211, sostream.cc:142-149. -/
def writeFloat (sci : Conv → Nat → List Byte) (prec : Nat) (t : FTy) (neg : Bool) (num den : Nat) : M TOS Unit := do
  match parseF (← look (fun s : TOS => fmtStringF s.flags s.width s.fill prec t)) with
  | none => ub
  | some (k, p) => vformat (if k.conv = 69 then sci k p else printF k p neg num den)

/-! ## The specification -/

/-- `t` is the number `num / den` in decimal with `p` decimals, rounded to the nearest (halves to even): an optional minus, an integer without superfluous zeros, and
after a point `p` digits. -/
def Decimal (p : Nat) (neg : Bool) (num den : Nat) (sg body : List Byte) : Prop :=
  sg = (if neg then [45] else []) ∧
  ∃ ip fp : List Byte, body = ip ++ (if p = 0 then [] else 46 :: fp) ∧ fp.length = p ∧ (∀ c ∈ ip ++ fp, 48 ≤ c ∧ c ≤ 57) ∧ ip ≠ [] ∧ (ip.head? = some 48 → ip = [48]) ∧
    let n := digitsVal 10 (ip ++ fp)
    2 * (n * den) ≤ 2 * (num * 10 ^ p) + den ∧ 2 * (num * 10 ^ p) ≤ 2 * (n * den) + den ∧
    (2 * (n * den) = 2 * (num * 10 ^ p) + den ∨ 2 * (num * 10 ^ p) = 2 * (n * den) + den → n % 2 = 0)

/-! ## Lemmas -/

theorem roundHE_spec (num den : Nat) (hd : 0 < den) :
    2 * (roundHE num den * den) ≤ 2 * num + den ∧ 2 * num ≤ 2 * (roundHE num den * den) + den ∧
    (2 * (roundHE num den * den) = 2 * num + den ∨ 2 * num = 2 * (roundHE num den * den) + den → roundHE num den % 2 = 0) := by
  have hm := Nat.div_add_mod num den
  have hl := Nat.mod_lt num hd
  unfold roundHE
  generalize num / den = q at *
  generalize num % den = r at *
  have e : den * q = q * den := Nat.mul_comm _ _
  have e1 : (q + 1) * den = q * den + den := Nat.succ_mul _ _
  generalize hX : q * den = X at *
  split
  · rw [hX]; refine ⟨by omega, by omega, fun h => ?_⟩; omega
  · split
    · rw [e1]; refine ⟨by omega, by omega, fun h => ?_⟩; omega
    · split
      · rw [hX]; refine ⟨by omega, by omega, fun h => ?_⟩; omega
      · rw [e1]; refine ⟨by omega, by omega, fun h => ?_⟩; omega

theorem digit_iff {c : Byte} : isDigit 10 c = true ↔ 48 ≤ c ∧ c ≤ 57 := by
  constructor
  · intro h
    unfold isDigit digitVal at h
    by_cases h1 : 48 ≤ c ∧ c ≤ 57
    · exact h1
    · exfalso
      have a1 : (decide (48 ≤ c) && decide (c ≤ 57)) = false := by
        cases hh : (decide (48 ≤ c) && decide (c ≤ 57)) with
        | false => rfl
        | true => simp at hh; exact absurd hh h1
      rw [a1] at h
      simp only [Bool.false_eq_true, if_false] at h
      split at h
      · rename_i d hd
        split at hd
        · rename_i hc
          simp at hc
          have := UInt8.le_iff_toNat_le.1 hc.1
          simp at this hd h
          omega
        · split at hd
          · rename_i hc
            simp at hc
            have := UInt8.le_iff_toNat_le.1 hc.1
            simp at this hd h
            omega
          · cases hd
      · cases h
  · rintro ⟨h1, h2⟩
    unfold isDigit digitVal
    have a1 : (decide (48 ≤ c) && decide (c ≤ 57)) = true := by simp [h1, h2]
    rw [a1]
    have := UInt8.le_iff_toNat_le.1 h2
    simp at this ⊢
    omega

theorem digs_len : ∀ (p n : Nat), n < 10 ^ (p + 1) → (digs 10 false n).length ≤ p + 1
  | 0, n, h => by rw [digs, dif_pos (by left; simpa using h)]; simp
  | p + 1, n, h => by
    rw [digs]
    split
    · simp
    · have := digs_len p (n / 10) (by rw [Nat.div_lt_iff_lt_mul (by decide)]; rw [Nat.pow_succ] at h; exact h)
      simp; omega

theorem digitsVal_app (b : Nat) (l r : List Byte) : digitsVal b (l ++ r) = digitsVal b l * b ^ r.length + digitsVal b r := by
  have key : ∀ (r : List Byte) (a : Nat), r.foldl (fun a c => a * b + (digitVal c).getD 0) a = a * b ^ r.length + r.foldl (fun a c => a * b + (digitVal c).getD 0) 0 := by
    intro r
    induction r with
    | nil => intro a; simp
    | cons c r ih =>
      intro a
      rw [List.foldl_cons, ih, List.foldl_cons, ih (0 * b + _), List.length_cons, Nat.pow_succ, Nat.add_mul, Nat.zero_mul, Nat.zero_add, Nat.add_assoc, Nat.mul_assoc,
        Nat.mul_comm b]
  rw [digitsVal_append, key]
  rfl

theorem digitsVal_zeros (k : Nat) (l : List Byte) : digitsVal 10 (List.replicate k 48 ++ l) = digitsVal 10 l := by
  have : ∀ k, digitsVal 10 (List.replicate k 48) = 0 := by
    intro k
    induction k with
    | zero => rfl
    | succ k ih => rw [List.replicate_succ', digitsVal_append, ih]; rfl
  rw [digitsVal_app, this]
  simp

/-- The body of the text is the decimal number. -/
theorem fixed_decimal (k : Conv) (hp : k.plus = false) (hsp : k.space = false) (hh : k.hash = false) (p : Nat) (neg : Bool) (num den : Nat) (hd : 0 < den) :
    Decimal p neg num den (fixedText k p neg num den).1 (fixedText k p neg num den).2 := by
  unfold fixedText
  simp only [hp, hsp, hh]
  have hr := roundHE_spec (num * 10 ^ p) den hd
  generalize roundHE (num * 10 ^ p) den = n at *
  refine ⟨by cases neg <;> rfl, digs 10 false (n / 10 ^ p), if p = 0 then [] else List.replicate (p - (digs 10 false (n % 10 ^ p)).length) 48 ++ digs 10 false (n % 10 ^ p), ?_, ?_, ?_, digs_ne _ _ _, ?_, ?_⟩
  · split <;> simp
  · split
    · rename_i h; simp [h]
    · rename_i h
      obtain ⟨q, rfl⟩ : ∃ q, p = q + 1 := ⟨p - 1, by omega⟩
      have := digs_len q (n % 10 ^ (q + 1)) (Nat.mod_lt _ (Nat.pow_pos (by decide)))
      simp; omega
  · intro c hc
    rw [← digit_iff]
    rcases List.mem_append.1 hc with hc | hc
    · exact digs_isDigit 10 false (by decide) (by decide) _ c hc
    · split at hc
      · cases hc
      · rcases List.mem_append.1 hc with hc | hc
        · rw [(List.mem_replicate.1 hc).2]; decide
        · exact digs_isDigit 10 false (by decide) (by decide) _ c hc
  · intro h
    rcases Nat.eq_zero_or_pos (n / 10 ^ p) with h0 | h0
    · rw [h0, digs_zero 10 false (by decide)]
    · exfalso
      obtain ⟨c, l, hc, hne⟩ := digs_head 10 false (by decide) (by decide) _ h0
      rw [hc] at h
      exact hne (Option.some.inj h)
  · have e : digitsVal 10 (digs 10 false (n / 10 ^ p) ++ if p = 0 then [] else List.replicate (p - (digs 10 false (n % 10 ^ p)).length) 48 ++ digs 10 false (n % 10 ^ p)) = n := by
      split
      · rename_i h
        rw [List.append_nil, digitsVal_digs 10 false (by decide) (by decide), h]
        simp
      · rename_i h
        obtain ⟨q, rfl⟩ : ∃ q, p = q + 1 := ⟨p - 1, by omega⟩
        have hlen := digs_len q (n % 10 ^ (q + 1)) (Nat.mod_lt _ (Nat.pow_pos (by decide)))
        rw [digitsVal_app, digitsVal_zeros, digitsVal_digs 10 false (by decide) (by decide), digitsVal_digs 10 false (by decide) (by decide)]
        have : (List.replicate (q + 1 - (digs 10 false (n % 10 ^ (q + 1))).length) (48 : Byte) ++ digs 10 false (n % 10 ^ (q + 1))).length = q + 1 := by
          simp; omega
        rw [this]
        exact Nat.div_add_mod' _ _
    simp only [e]
    exact hr

/-- Reading the format string. -/
theorem parseF_ok {r wd pd : List Byte} {k : Conv} {sci : Bool} (t : FTy) (h : parseFlags r {} = (k, wd ++ 46 :: (pd ++ (t.str.dropLast ++ [if sci then 69 else t.str.getLastD 0]))))
    (hw : ∀ c ∈ wd, isDigit 10 c = true) (hp : ∀ c ∈ pd, isDigit 10 c = true) :
    parseF (37 :: r) = some ({ k with width := digitsVal 10 wd, conv := if sci then 69 else 102 }, digitsVal 10 pd) := by
  have tw : ∀ (l : List Byte) (c : Byte) (q : List Byte), (∀ c ∈ l, isDigit 10 c = true) → isDigit 10 c = false →
      (l ++ c :: q).takeWhile (isDigit 10) = l ∧ (l ++ c :: q).dropWhile (isDigit 10) = c :: q := by
    intro l c q hl hc
    rw [List.takeWhile_append_of_pos hl, List.dropWhile_append_of_pos hl, List.takeWhile_cons_of_neg (by simp [hc]), List.dropWhile_cons_of_neg (by simp [hc])]
    simp
  obtain ⟨x, q, hx, hxd⟩ : ∃ x q, t.str.dropLast ++ [if sci then 69 else t.str.getLastD 0] = x :: q ∧ isDigit 10 x = false := by
    cases t <;> cases sci <;> exact ⟨_, _, rfl, by decide⟩
  unfold parseF
  simp only [h]
  rw [(tw wd 46 _ hw (by decide)).1, (tw wd 46 _ hw (by decide)).2]
  simp only [hx]
  rw [(tw pd x q hp hxd).1, (tw pd x q hp hxd).2]
  cases t <;> cases sci <;> simp [FTy.str] at hx <;> (try obtain ⟨rfl, rfl⟩ := hx) <;> simp

/-- The digits of `encode_dec` are the decimal digits, backwards. -/
theorem encodeDec_eq (n : Nat) : encodeDec n = (digs 10 false n).reverse := by
  induction n using Nat.strongRecOn with
  | ind n ih =>
    rw [encodeDec, digs]
    by_cases h : n < 10
    · rw [dif_pos h, dif_pos (.inl h)]; simp [digitChar, h]
    · rw [dif_neg h, dif_neg (by omega), ih _ (by omega), List.reverse_append]
      have : n % 10 < 10 := Nat.mod_lt _ (by decide)
      simp [digitChar, this]

theorem encodeDec_digit (n : Nat) : ∀ c ∈ encodeDec n, isDigit 10 c = true := by
  intro c hc
  rw [encodeDec_eq, List.mem_reverse] at hc
  exact digs_isDigit 10 false (by decide) (by decide) _ c hc

/-- The number that the digits of `n` make when read backwards: 12 is 21, 10 is 1. -/
def mirrored (n : Nat) : Nat := digitsVal 10 (digs 10 false n).reverse

theorem mirrored_small {n : Nat} (h : n < 10) : mirrored n = n := by
  unfold mirrored
  rw [digs, dif_pos (.inl h)]
  simp [digitsVal, digitVal_char false (show n < 16 by omega)]

/-! ## Theorems -/

/-- The settings for which the format string is right: no width, or one of one digit without `left`. -/
def PlainF (s : TOS) : Prop := s.flags.testBit Flag.scientific.pos = false ∧ (s.width = 0 ∨ s.width < 10 ∧ s.flags.testBit Flag.left.pos = false)

theorem parse_fmtF (s : TOS) (hf : PlainF s) (prec : Nat) (t : FTy) :
    parseF (fmtStringF s.flags s.width s.fill prec t) =
      some ({ minus := s.flags.testBit Flag.left.pos, zero := decide (s.width ≠ 0 ∧ s.fill = 48), width := s.width, conv := 102 }, mirrored prec) := by
  obtain ⟨hs, hw⟩ := hf
  have b1 : has s.flags 4096 = s.flags.testBit 12 := has_bit _ 12
  have b2 : has s.flags 2048 = s.flags.testBit 11 := has_bit _ 11
  have hs' : s.flags.testBit 11 = false := hs
  have hm : mirrored prec = digitsVal 10 (encodeDec prec) := by rw [encodeDec_eq]; rfl
  unfold fmtStringF
  rw [b1, b2, hs', hm]
  rcases Nat.eq_zero_or_pos s.width with h0 | h0
  · rw [if_neg (by omega)]
    have := parseF_ok (r := (if s.flags.testBit 12 then [45] else []) ++ 46 :: (encodeDec prec ++ (t.str.dropLast ++ [if false then 69 else t.str.getLastD 0])))
      (wd := []) (pd := encodeDec prec) (k := { minus := s.flags.testBit 12 }) (sci := false) t (by
        cases s.flags.testBit 12 <;> simp [parseFlags]) (by simp) (encodeDec_digit prec)
    simp only [List.append_assoc, List.cons_append, List.nil_append] at this ⊢
    rw [this]
    simp [h0, digitsVal, Flag.pos]
  · rcases hw with hw | ⟨hw, hl⟩
    · omega
    · have hl' : s.flags.testBit 12 = false := hl
      rw [if_pos (by omega), hl']
      simp only [Bool.false_eq_true, if_false]
      have he : encodeDec s.width = [UInt8.ofNat (48 + s.width)] := by rw [encodeDec, dif_pos hw]
      rw [he]
      have hs2 : s.width ≠ 0 := by omega
      have hd : ∀ w, w < 10 → 0 < w → let c := UInt8.ofNat (48 + w); c ≠ 45 ∧ c ≠ 43 ∧ c ≠ 32 ∧ c ≠ 35 ∧ c ≠ 48 ∧ isDigit 10 c = true ∧ digitsVal 10 [c] = w := by decide
      obtain ⟨d1, d2, d3, d4, d5, d6, d7⟩ := hd _ hw h0
      generalize UInt8.ofNat (48 + s.width) = c at *
      have := parseF_ok (r := (if s.fill = 48 then [48] else []) ++ c :: 46 :: (encodeDec prec ++ (t.str.dropLast ++ [if false then 69 else t.str.getLastD 0])))
        (wd := [c]) (pd := encodeDec prec) (k := { zero := decide (s.fill = 48) }) (sci := false) t (by
          by_cases hf : s.fill = 48 <;> simp [hf, parseFlags, d1, d2, d3, d4, d5]) (by simpa using d6) (encodeDec_digit prec)
      simp only [List.append_assoc, List.cons_append, List.nil_append, Bool.false_eq_true, if_false] at this ⊢
      rw [this, d7]
      simp [Flag.pos, hl', hs2]

theorem fixed_len (k : Conv) (p : Nat) (neg : Bool) {num den K : Nat} (hd : 0 < den) (hK : num < 10 ^ K * den) :
    (fixedText k p neg num den).1.length ≤ 1 ∧ (fixedText k p neg num den).2.length ≤ K + 1 + (p + 1) := by
  have hp : 0 < 10 ^ p := Nat.pow_pos (by decide)
  have hn : roundHE (num * 10 ^ p) den ≤ 10 ^ K * 10 ^ p := by
    have h1 : num * 10 ^ p / den < 10 ^ K * 10 ^ p := by
      rw [Nat.div_lt_iff_lt_mul hd]
      calc num * 10 ^ p < 10 ^ K * den * 10 ^ p := Nat.mul_lt_mul_of_pos_right hK hp
        _ = 10 ^ K * 10 ^ p * den := by rw [Nat.mul_assoc, Nat.mul_comm den, Nat.mul_assoc]
    unfold roundHE
    generalize 10 ^ K * 10 ^ p = X at *
    split
    · omega
    · split
      · omega
      · split <;> omega
  have hq : roundHE (num * 10 ^ p) den / 10 ^ p < 10 ^ (K + 1) := by
    have : roundHE (num * 10 ^ p) den / 10 ^ p ≤ 10 ^ K := Nat.div_le_of_le_mul (by rw [Nat.mul_comm (10 ^ p) (10 ^ K)]; exact hn)
    have hK0 : 0 < 10 ^ K := Nat.pow_pos (by decide)
    rw [Nat.pow_succ]
    omega
  have l1 := digs_len K _ hq
  unfold fixedText
  refine ⟨by simp only; split; simp; split; simp; split <;> simp, ?_⟩
  simp only [List.length_append]
  split
  · split <;> simp <;> omega
  · rename_i h
    obtain ⟨q, rfl⟩ : ∃ q, p = q + 1 := ⟨p - 1, by omega⟩
    have := digs_len q (roundHE (num * 10 ^ (q + 1)) den % 10 ^ (q + 1)) (Nat.mod_lt _ hp)
    simp
    omega

/-- What is written, whatever the precision: the number of decimals is the precision read backwards. -/
theorem float_mirrored (sci : Conv → Nat → List Byte) {s : TOS} (h : s.Ok) (hf : PlainF s) (prec : Nat) (t : FTy) (neg : Bool) (num den : Nat) (hd : 0 < den)
    {K : Nat} (hK : num < 10 ^ K * den) (hl : s.text.length + K + mirrored prec + 20 < 2 ^ 31) :
    ∃ sg body s', Decimal (mirrored prec) neg num den sg body ∧ writeFloat sci prec t neg num den s = .ret () s' ∧
      Wrote s s' (if s.width ≠ 0 ∧ s.fill = 48 then sg ++ List.replicate (s.width - (sg.length + body.length)) 48 ++ body
        else List.replicate (s.width - (sg.length + body.length)) 32 ++ sg ++ body) := by
  have hparse := parse_fmtF s hf prec t
  generalize hk : ({ minus := s.flags.testBit Flag.left.pos, zero := decide (s.width ≠ 0 ∧ s.fill = 48), width := s.width, conv := 102 } : Conv) = k at hparse
  have k1 : k.plus = false ∧ k.space = false ∧ k.hash = false ∧ k.conv = 102 ∧ k.width = s.width ∧ k.zero = decide (s.width ≠ 0 ∧ s.fill = 48) ∧ k.minus = s.flags.testBit Flag.left.pos := by
    rw [← hk]; exact ⟨rfl, rfl, rfl, rfl, rfl, rfl, rfl⟩
  obtain ⟨kp, ks, kh, kc, kw, kz, km⟩ := k1
  have hdec := fixed_decimal k kp ks kh (mirrored prec) neg num den hd
  have hlen := fixed_len k (mirrored prec) neg hd hK
  have hw9 : s.width < 10 := by rcases hf.2 with h | ⟨h, _⟩ <;> omega
  have hpr : printF k (mirrored prec) neg num den =
      (if s.width ≠ 0 ∧ s.fill = 48 then (fixedText k (mirrored prec) neg num den).1 ++ List.replicate (s.width - ((fixedText k (mirrored prec) neg num den).1.length + (fixedText k (mirrored prec) neg num den).2.length)) 48 ++ (fixedText k (mirrored prec) neg num den).2
        else List.replicate (s.width - ((fixedText k (mirrored prec) neg num den).1.length + (fixedText k (mirrored prec) neg num den).2.length)) 32 ++ (fixedText k (mirrored prec) neg num den).1 ++ (fixedText k (mirrored prec) neg num den).2) := by
    unfold printF
    generalize fixedText k (mirrored prec) neg num den = x
    obtain ⟨sg, body⟩ := x
    simp only [kw, kz, km]
    rcases Nat.eq_zero_or_pos s.width with h0 | h0
    · simp [h0]
    · rcases hf.2 with hh | ⟨_, hh⟩
      · omega
      · rw [hh]
        simp only [Bool.false_eq_true, if_false, decide_eq_true_eq]
  generalize fixedText k (mirrored prec) neg num den = x at *
  obtain ⟨sg, body⟩ := x
  have hl2 : s.text.length + (printF k (mirrored prec) neg num den).length + 1 < 2 ^ 31 := by
    rw [hpr]
    simp only at hlen
    split <;> simp <;> omega
  obtain ⟨s', e, w⟩ := vformat_ok h (printF k (mirrored prec) neg num den) hl2
  refine ⟨sg, body, s', hdec, ?_, by rw [← hpr]; exact w⟩
  rw [writeFloat, M.bind_ret (look_eq _ _), hparse]
  simp only [kc]
  exact e

/-- **C99**: a floating-point number is written in decimal, rounded to the nearest number with as many decimals as the precision says, behind spaces or, with the fill
character 0, zeros after the sign up to the width. (`K` bounds the size of the number: 4933 for every type.) Missing: precisions of two and more digits
(`precision_violated`), widths of two and more digits, `left` with a width (`left_width_violated`), `scientific`, infinities and NaNs. -/
theorem float_written_partial (sci : Conv → Nat → List Byte) {s : TOS} (h : s.Ok) (hf : PlainF s) {prec : Nat} (hp : prec < 10) (t : FTy) (neg : Bool) (num den : Nat) (hd : 0 < den)
    {K : Nat} (hK : num < 10 ^ K * den) (hl : s.text.length + K + 30 < 2 ^ 31) :
    ∃ sg body s', Decimal prec neg num den sg body ∧ writeFloat sci prec t neg num den s = .ret () s' ∧
      Wrote s s' (if s.width ≠ 0 ∧ s.fill = 48 then sg ++ List.replicate (s.width - (sg.length + body.length)) 48 ++ body
        else List.replicate (s.width - (sg.length + body.length)) 32 ++ sg ++ body) := by
  have := float_mirrored sci h hf prec t neg num den hd hK (by rw [mirrored_small hp]; omega)
  rwa [mirrored_small hp] at this

/-- **C99** is false of precisions of two different digits: `a b` decimals are asked for, `b a` are written (12 gives 21, 10 gives 1). -/
theorem precision_violated (sci : Conv → Nat → List Byte) {s : TOS} (h : s.Ok) (hf : PlainF s) (hw : s.width = 0) {a b : Nat} (ha : 0 < a) (ha9 : a < 10) (hb9 : b < 10) (hab : a ≠ b) (t : FTy) (neg : Bool)
    (num den : Nat) (hd : 0 < den) {K : Nat} (hK : num < 10 ^ K * den) (hl : s.text.length + K + 130 < 2 ^ 31) :
    ∃ sg body s', writeFloat sci (10 * a + b) t neg num den s = .ret () s' ∧ s'.text = s.text ++ (sg ++ body) ∧ Decimal (10 * b + a) neg num den sg body ∧
      ∀ sg', ¬ Decimal (10 * a + b) neg num den sg' body := by
  have hm : mirrored (10 * a + b) = 10 * b + a := by
    have : ∀ a, a < 10 → ∀ b, b < 10 → 0 < a → digs 10 false (10 * a + b) = [digitChar false a, digitChar false b] := by
      intro a ha9 b hb9 ha
      rw [digs, dif_neg (by omega), digs, dif_pos (by omega)]
      have e1 : (10 * a + b) / 10 = a := by omega
      have e2 : (10 * a + b) % 10 = b := by omega
      rw [e1, e2]; rfl
    unfold mirrored
    rw [this a ha9 b hb9 ha]
    simp [digitsVal, digitVal_char false (show a < 16 by omega), digitVal_char false (show b < 16 by omega), Nat.mul_comm]
  obtain ⟨sg, body, s', hdec, e, w⟩ := float_mirrored sci h hf (10 * a + b) t neg num den hd hK (by omega)
  rw [hm] at hdec
  refine ⟨sg, body, s', e, ?_, hdec, ?_⟩
  · rw [w.text]; simp [hw]
  · intro sg' hdec'
    have key : ∀ p q : Nat, p ≠ 0 → Decimal p neg num den sg body → Decimal q neg num den sg' body → p = q := by
      intro p q hp h1 h2
      obtain ⟨-, ip, fp, e1, l1, d1, -⟩ := h1
      obtain ⟨-, ip', fp', e2, l2, d2, -⟩ := h2
      rw [if_neg hp] at e1
      have nd : ∀ l : List Byte, (∀ c ∈ l, 48 ≤ c ∧ c ≤ 57) → ∀ x ∈ l, x ≠ 46 := by
        rintro l hl x hx rfl
        have := (hl 46 hx).1
        revert this; decide
      have hq : q ≠ 0 := by
        intro hq
        rw [if_pos hq, List.append_nil] at e2
        have : (46 : Byte) ∈ ip' := by rw [← e2, e1]; simp
        exact nd _ d2 46 (List.mem_append_left _ this) rfl
      rw [if_neg hq] at e2
      have hip : ip = body.takeWhile (· ≠ 46) := by
        rw [e1, List.takeWhile_append_of_pos (by intro c hc; simpa using nd _ d1 c (List.mem_append_left _ hc))]
        simp
      have hip' : ip' = body.takeWhile (· ≠ 46) := by
        rw [e2, List.takeWhile_append_of_pos (by intro c hc; simpa using nd _ d2 c (List.mem_append_left _ hc))]
        simp
      have : ip.length = ip'.length := by rw [hip, hip']
      have hL := congrArg List.length (e1.symm.trans e2)
      simp at hL
      omega
    by_cases h0 : 10 * b + a = 0
    · omega
    · have := key _ _ h0 hdec hdec'
      omega

theorem flags_digits (x : List Byte) : ∀ (l : List Byte) (k : Conv), (∀ c ∈ l, isDigit 10 c = true) → (∃ c ∈ l, c ≠ 48) →
    ∃ k' d, parseFlags (l ++ x) k = (k', d ++ x) ∧ ∀ c ∈ d, isDigit 10 c = true
  | [], _, _, ⟨_, hc, _⟩ => absurd hc (by simp)
  | c :: l, k, hl, hne => by
    by_cases h : c = 48
    · subst h
      obtain ⟨k', d, e, hd⟩ := flags_digits x l { k with zero := true } (fun c hc => hl c (by simp [hc])) (by
        obtain ⟨y, hy, hy0⟩ := hne
        rcases List.mem_cons.1 hy with rfl | hy
        · exact absurd rfl hy0
        · exact ⟨y, hy, hy0⟩)
      exact ⟨k', d, by simpa [parseFlags] using e, hd⟩
    · have hc := hl c (by simp)
      have n1 : c ≠ 45 := by rintro rfl; revert hc; decide
      have n2 : c ≠ 43 := by rintro rfl; revert hc; decide
      have n3 : c ≠ 32 := by rintro rfl; revert hc; decide
      have n4 : c ≠ 35 := by rintro rfl; revert hc; decide
      exact ⟨k, c :: l, by simp [parseFlags, h, n1, n2, n3, n4], hl⟩

/-- **C99** is false of `left` with a width: the flag comes after the width, which the C library does not define. -/
theorem left_width_violated (sci : Conv → Nat → List Byte) (s : TOS) (hw : s.width ≠ 0) (hl : s.flags.testBit Flag.left.pos = true) (prec : Nat) (t : FTy) (neg : Bool) (num den : Nat) :
    writeFloat sci prec t neg num den s = .oob := by
  have b1 : has s.flags 4096 = true := (has_bit _ 12).trans hl
  have hp : parseF (fmtStringF s.flags s.width s.fill prec t) = none := by
    unfold fmtStringF
    rw [if_pos hw, b1, if_pos rfl]
    simp only [List.append_assoc, List.cons_append, List.nil_append]
    generalize encodeDec prec ++ (t.str.dropLast ++ [if has s.flags 2048 then 69 else t.str.getLastD 0]) = rest
    obtain ⟨k', d, e, hd⟩ := flags_digits (45 :: 46 :: rest) ((if s.fill = 48 then [48] else []) ++ encodeDec s.width) {} (by
      intro c hc
      rcases List.mem_append.1 hc with hc | hc
      · split at hc
        · rw [List.mem_singleton.1 hc]; decide
        · cases hc
      · exact encodeDec_digit _ c hc) (by
      obtain ⟨c, l, hc, hne⟩ := digs_head 10 false (by decide) (by decide) s.width (by omega)
      exact ⟨c, List.mem_append_right _ (by rw [encodeDec_eq, hc]; simp), hne⟩)
    rw [List.append_assoc] at e
    unfold parseF
    simp only [e]
    rw [List.dropWhile_append_of_pos hd]
    rw [List.dropWhile_cons_of_neg (by decide)]
    simp
  rw [writeFloat, M.bind_ret (look_eq _ _), hp]
  rfl

theorem encodeDec_len : ∀ (p n : Nat), n < 10 ^ (p + 1) → (encodeDec n).length ≤ p + 1 := by
  intro p n h
  rw [encodeDec_eq, List.length_reverse]
  exact digs_len p n h

/-- **C99**: the format string always fits the 16 characters there are for it, for integers too: `_width` has 16 bits, `_precision` 8. -/
theorem format_fits (flags width : Nat) (fill : Byte) (prec : Nat) (hw : width < 2 ^ 16) (hp : prec < 2 ^ 8) :
    (∀ t : FTy, (fmtStringF flags width fill prec t).length + 1 ≤ 16) ∧ ∀ t : ITy, (fmtString flags width fill t).length + 1 ≤ 16 := by
  have h1 := encodeDec_len 4 width (by omega)
  have h2 := encodeDec_len 2 prec (by omega)
  have h3 : (if width ≠ 0 then (if fill = 48 then [48] else []) ++ encodeDec width else []).length ≤ 6 := by
    split
    · split <;> simp <;> omega
    · simp
  have h4 : ∀ (c : Bool) (b : Byte), (if c then [b] else []).length ≤ 1 := by intro c b; cases c <;> simp
  have h5 := h4 (has flags 4096) 45
  have h6 := h4 (has flags 8) 43
  have h7 := h4 (has flags 2) 35
  constructor
  · intro t
    have h8 : t.str.dropLast.length ≤ 1 := by cases t <;> decide
    unfold fmtStringF
    simp only [List.length_append, List.length_cons, List.length_nil]
    omega
  · intro t
    have h8 : (typeString t).dropLast.length ≤ 2 := by
      unfold typeString
      simp
      split
      · simp
      · split <;> simp
    unfold fmtString
    simp only [List.length_append, List.length_cons, List.length_nil]
    omega

/-- A stream that holds `a`, with the width 6. -/
example : ∃ sg body s', Decimal 2 false 1 8 sg body ∧ writeFloat (fun _ _ => []) 2 .dbl false 1 8 { os := { buf := [97, 0], pos := 1 }, width := 6 } = .ret () s' ∧
    s'.text = 97 :: (List.replicate (6 - (sg.length + body.length)) 32 ++ sg ++ body) := by
  obtain ⟨sg, body, s', hdec, e, w⟩ := float_written_partial (fun _ _ => []) (s := { os := { buf := [97, 0], pos := 1 }, width := 6 }) ⟨rfl, rfl, by decide, by decide, rfl⟩
    ⟨by decide, .inr ⟨by decide, by decide⟩⟩ (prec := 2) (by decide) .dbl false 1 8 (by decide) (K := 0) (by decide) (by decide)
  exact ⟨sg, body, s', hdec, e, by rw [w.text]; rfl⟩

/-- 0.125 with 2 decimals is 0.12, the even one of its neighbours; it is not 0.13. -/
example : Decimal 2 false 1 8 [] [48, 46, 49, 50] ∧ ¬ Decimal 2 false 1 8 [] [48, 46, 49, 51] := by
  refine ⟨⟨rfl, [48], [49, 50], rfl, rfl, by decide, by decide, by decide, by decide⟩, ?_⟩
  rintro ⟨-, ip, fp, e, l, -, hne, -, h⟩
  obtain ⟨x, y, rfl⟩ : ∃ x y, fp = [x, y] := by
    match fp, l with
    | [x, y], _ => exact ⟨x, y, rfl⟩
  match ip, hne with
  | [a], _ => simp at e; obtain ⟨rfl, rfl, rfl⟩ := e; revert h; decide
  | a :: b :: c, _ => simp at e; obtain ⟨_, _, e⟩ := e; have := congrArg List.length e; simp at this

/-- Twelve decimals are asked for: 21 are written. -/
example : mirrored 12 = 21 ∧ mirrored 10 = 1 ∧ mirrored 11 = 11 := by decide +kernel

end Ustl.Text
