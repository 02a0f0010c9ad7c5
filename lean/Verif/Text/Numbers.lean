import Verif.Text.Lines
/-! # Numbers as text: what `vsnprintf` prints is what `strtol` reads -/
namespace Ustl.Text
open Ustl.Stream

theorem digitVal_char (up : Bool) {d : Nat} (h : d < 16) : digitVal (digitChar up d) = some d := by
  have : ∀ up : Bool, ∀ d < 16, digitVal (digitChar up d) = some d := by decide
  exact this up d h

theorem digitChar_zero (up : Bool) {d : Nat} (h : d < 16) (h0 : d ≠ 0) : digitChar up d ≠ 48 := by
  have : ∀ up : Bool, ∀ d < 16, d ≠ 0 → digitChar up d ≠ 48 := by decide
  exact this up d h h0

theorem isDigit_char (up : Bool) {b d : Nat} (hb : b ≤ 16) (h : d < b) : isDigit b (digitChar up d) = true := by
  unfold isDigit; rw [digitVal_char up (by omega)]; simpa using h

theorem digs_isDigit (b : Nat) (up : Bool) (hb2 : 2 ≤ b) (hb : b ≤ 16) (n : Nat) : ∀ c ∈ digs b up n, isDigit b c = true := by
  induction n using Nat.strongRecOn with
  | ind n ih =>
    intro c hc
    rw [digs] at hc
    split at hc
    · rename_i h
      simp at hc; subst hc
      exact isDigit_char up hb (by omega)
    · rename_i h
      simp at hc
      rcases hc with hc | rfl
      · exact ih _ (Nat.div_lt_self (by omega) (by omega)) c hc
      · exact isDigit_char up hb (Nat.mod_lt _ (by omega))

theorem digitsVal_append (b : Nat) (l r : List Byte) :
    digitsVal b (l ++ r) = r.foldl (fun a c => a * b + (digitVal c).getD 0) (digitsVal b l) := by
  simp [digitsVal, List.foldl_append]

theorem digitsVal_digs (b : Nat) (up : Bool) (hb2 : 2 ≤ b) (hb : b ≤ 16) (n : Nat) : digitsVal b (digs b up n) = n := by
  induction n using Nat.strongRecOn with
  | ind n ih =>
    rw [digs]
    split
    · rename_i h
      simp [digitsVal, digitVal_char up (show n < 16 by omega)]
    · rename_i h
      rw [digitsVal_append, ih _ (Nat.div_lt_self (by omega) (by omega))]
      have hm := Nat.mod_lt n (show b > 0 by omega)
      simp [digitVal_char up (show n % b < 16 by omega)]
      exact Nat.div_add_mod' n b

theorem digs_ne (b : Nat) (up : Bool) (n : Nat) : digs b up n ≠ [] := by
  rw [digs]; split <;> simp

theorem digs_head (b : Nat) (up : Bool) (hb2 : 2 ≤ b) (hb : b ≤ 16) (n : Nat) (hn : 0 < n) :
    ∃ d l, digs b up n = d :: l ∧ d ≠ 48 := by
  induction n using Nat.strongRecOn with
  | ind n ih =>
    rw [digs]
    split
    · rename_i h
      exact ⟨_, [], rfl, digitChar_zero up (by omega) (by omega)⟩
    · rename_i h
      obtain ⟨d, l, e, hd⟩ := ih (n / b) (Nat.div_lt_self (by omega) (by omega)) (Nat.div_pos (by omega) (by omega))
      exact ⟨d, l ++ [digitChar up (n % b)], by rw [e]; rfl, hd⟩

theorem digs_zero (b : Nat) (up : Bool) (hb2 : 2 ≤ b) : digs b up 0 = [48] := by
  rw [digs, dif_pos (by omega)]; rfl

/-- The digits are those of Lean's `Nat.toDigits`. -/
theorem digs_toDigits (b : Nat) (hb2 : 2 ≤ b) (hb : b ≤ 16) (n : Nat) :
    digs b false n = (Nat.toDigits b n).map fun c => UInt8.ofNat c.toNat := by
  have hc : ∀ d < 16, digitChar false d = UInt8.ofNat d.digitChar.toNat := by decide
  induction n using Nat.strongRecOn with
  | ind n ih =>
    rw [digs]
    split
    · rename_i h
      rw [Nat.toDigits_of_lt_base (by omega), hc _ (by omega)]; rfl
    · rename_i h
      have hm := Nat.mod_lt n (show b > 0 by omega)
      rw [Nat.toDigits_of_base_le (by omega) (by omega), ih _ (Nat.div_lt_self (by omega) (by omega)), hc _ (by omega)]
      simp

/-! ## strtol -/

theorem isDigit_not_space {b : Nat} {c : Byte} (h : isDigit b c = true) : isSpace c = false := by
  have this : ∀ c : Byte, isSpace c = true → digitVal c = none := by
    intro c hc
    have : c.toNat = 32 ∨ 9 ≤ c.toNat ∧ c.toNat ≤ 13 := by
      simp only [isSpace, Bool.or_eq_true, decide_eq_true_eq, Bool.and_eq_true, UInt8.le_iff_toNat_le] at hc
      rcases hc with rfl | hc
      · exact .inl rfl
      · exact .inr hc
    unfold digitVal
    simp only [Bool.and_eq_true, decide_eq_true_eq, UInt8.le_iff_toNat_le]
    have h48 : (48 : Byte).toNat = 48 := rfl
    have h97 : (97 : Byte).toNat = 97 := rfl
    have h65 : (65 : Byte).toNat = 65 := rfl
    rw [if_neg (by omega), if_neg (by omega), if_neg (by omega)]
  cases hs : isSpace c with
  | false => rfl
  | true => rw [isDigit, this c hs] at h; cases h

theorem takeWhile_run {p : Byte → Bool} {l : List Byte} {c : Byte} {r : List Byte} (hl : ∀ x ∈ l, p x = true) (hc : p c = false) :
    (l ++ c :: r).takeWhile p = l ∧ (l ++ c :: r).dropWhile p = c :: r := by
  induction l with
  | nil => simp [hc]
  | cons a l ih =>
    have := ih (fun x hx => hl x (by simp [hx]))
    simp [hl a (by simp), this]

/-- The sign of a number: none, minus or plus. -/
inductive Sign | none | minus | plus
deriving DecidableEq, Repr

/-- How it is written. -/
def Sign.raw : Sign → List Byte
  | .none => []
  | .minus => [45]
  | .plus => [43]

/-- The signed value. -/
def Sign.app (g : Sign) (n : Nat) : Int := if g = .minus then -(n : Int) else n

theorem strtol_core (base b : Nat) (g : Sign) (body ds r : List Byte) (c : Byte) (hg : g = .none → ∀ x ∈ body.head?, x ≠ 45 ∧ x ≠ 43)
    (hsp : ∀ x ∈ body.head?, isSpace x = false)
    (hp : prefixed base body = (b, ds ++ c :: r)) (hd : ∀ x ∈ ds, isDigit b x = true) (hne : ds ≠ []) (hc : isDigit b c = false)
    (hs : body ≠ [48, 120] ∧ body ≠ [48, 88]) :
    strtol (g.raw ++ body) base = some (clip (g.app (digitsVal b ds)), (g.raw ++ body).length - (c :: r).length) := by
  have hbody : body ≠ [] := by
    rintro rfl
    simp [prefixed] at hp
  obtain ⟨x, t, rfl⟩ : ∃ x t, body = x :: t := by
    cases body with
    | nil => exact absurd rfl hbody
    | cons x t => exact ⟨x, t, rfl⟩
  have hx := hsp x (by simp)
  have e1 : (g.raw ++ x :: t).dropWhile isSpace = g.raw ++ x :: t := by
    cases g with
    | none => simp [Sign.raw, hx]
    | minus => rfl
    | plus => rfl
  have e2 : signed (g.raw ++ x :: t) = (decide (g = .minus), x :: t) := by
    cases g with
    | none =>
      have := hg rfl x (by simp)
      simp only [Sign.raw, List.nil_append]
      unfold signed
      split <;> simp_all
    | minus => rfl
    | plus => rfl
  have e3 := takeWhile_run (r := r) hd hc
  unfold strtol
  simp only [e1, e2, hp, e3.1, e3.2]
  rw [if_neg (by simp [hs.1, hs.2]), if_neg hne]
  simp only [Sign.app, decide_eq_true_eq]

theorem prefixed_other {base : Nat} (h0 : base ≠ 0) (h16 : base ≠ 16) (s : List Byte) : prefixed base s = (base, s) := by
  unfold prefixed
  split <;> simp [h0, h16]

theorem prefixed_nonzero {base : Nat} {x : Byte} (h : x ≠ 48) (s : List Byte) :
    prefixed base (x :: s) = (if base = 0 then 10 else base, x :: s) := by
  unfold prefixed
  split <;> simp_all

theorem prefixed_zero {base : Nat} {c : Byte} (h : c ≠ 120 ∧ c ≠ 88) (s : List Byte) :
    prefixed base (48 :: c :: s) = (if base = 0 then 8 else base, 48 :: c :: s) := by
  cases s with
  | nil => rfl
  | cons d s => simp [prefixed, h.1, h.2]

theorem not_x {c : Byte} (h : digitVal c = none) : c ≠ 120 ∧ c ≠ 88 := by
  constructor <;> (rintro rfl; cases h)

theorem head_digs {b : Nat} {up : Bool} (hb2 : 2 ≤ b) (hb : b ≤ 16) {n : Nat} {t : List Byte} {x : Byte}
    (h : x ∈ (digs b up n ++ t).head?) : isDigit b x = true := by
  cases e : digs b up n with
  | nil => exact absurd e (digs_ne _ _ _)
  | cons d l =>
    rw [e] at h
    simp at h
    subst h
    exact digs_isDigit b up hb2 hb n _ (by rw [e]; simp)

theorem digit_not_sign {b : Nat} {x : Byte} (h : isDigit b x = true) : x ≠ 45 ∧ x ≠ 43 := by
  constructor <;> (rintro rfl; cases h)

/-- The digits of a number in base 10 (as base 0: the text decides), 8 or 16. -/
theorem strtol_digs (base b : Nat) (up : Bool) (hb : base = 0 ∧ b = 10 ∨ base = 8 ∧ b = 8 ∨ base = 16 ∧ b = 16) (g : Sign) (n : Nat)
    (c : Byte) (hc : digitVal c = none) (r : List Byte) :
    strtol (g.raw ++ (digs b up n ++ c :: r)) base = some (clip (g.app n), (g.raw ++ digs b up n).length) := by
  have hb2 : 2 ≤ b := by omega
  have hb16 : b ≤ 16 := by omega
  have hcd : ∀ k, isDigit k c = false := by intro k; simp [isDigit, hc]
  have hlen : (g.raw ++ (digs b up n ++ c :: r)).length - (c :: r).length = (g.raw ++ digs b up n).length := by simp; omega
  have hx := not_x hc
  have hsp : (digs b up n ++ c :: r) ≠ [48, 120] ∧ (digs b up n ++ c :: r) ≠ [48, 88] := by
    constructor <;>
    · intro e
      have h1 := digs_ne b up n
      cases e' : digs b up n with
      | nil => exact h1 e'
      | cons d l =>
        rw [e'] at e
        cases l with
        | nil => simp at e; simp_all
        | cons _ l => simp at e
  have key : ∀ b', prefixed base (digs b up n ++ c :: r) = (b', digs b up n ++ c :: r) → (∀ x ∈ digs b up n, isDigit b' x = true) →
      digitsVal b' (digs b up n) = n →
      strtol (g.raw ++ (digs b up n ++ c :: r)) base = some (clip (g.app n), (g.raw ++ digs b up n).length) := by
    intro b' hp hd hv
    rw [strtol_core base b' g _ _ r c (fun _ x hx => digit_not_sign (head_digs hb2 hb16 hx))
      (fun x hx => isDigit_not_space (head_digs hb2 hb16 hx)) hp hd (digs_ne _ _ _) (hcd _) hsp, hv, hlen]
  rcases Nat.eq_zero_or_pos n with rfl | hn
  · have e0 := digs_zero b up hb2
    refine key (if base = 0 then 8 else base) ?_ ?_ ?_
    · rw [e0]; exact prefixed_zero hx r
    · rw [e0]; intro x hx; simp at hx; subst hx
      rcases hb with ⟨rfl, _⟩ | ⟨rfl, _⟩ | ⟨rfl, _⟩ <;> decide
    · rw [e0]; simp [digitsVal, digitVal]
  · obtain ⟨d, l, e, hd⟩ := digs_head b up hb2 hb16 n hn
    refine key b ?_ (digs_isDigit b up hb2 hb16 n) (digitsVal_digs b up hb2 hb16 n)
    rw [e, List.cons_append, prefixed_nonzero hd]
    rcases hb with ⟨rfl, rfl⟩ | ⟨rfl, rfl⟩ | ⟨rfl, rfl⟩ <;> rfl

/-- A hexadecimal number with the prefix. -/
theorem strtol_hexPrefix (up : Bool) (x : Byte) (hx : x = 120 ∨ x = 88) (n : Nat) (c : Byte) (hc : digitVal c = none) (r : List Byte) :
    strtol ([48, x] ++ (digs 16 up n ++ c :: r)) 16 = some (clip n, ([48, x] ++ digs 16 up n).length) := by
  have hcd : ∀ k, isDigit k c = false := by intro k; simp [isDigit, hc]
  have hp : prefixed 16 ([48, x] ++ (digs 16 up n ++ c :: r)) = (16, digs 16 up n ++ c :: r) := by
    cases e : digs 16 up n with
    | nil => exact absurd e (digs_ne _ _ _)
    | cons d l =>
      have : isDigit 16 d = true := digs_isDigit 16 up (by decide) (by decide) n _ (by rw [e]; simp)
      simp [prefixed, hx, this]
  have := strtol_core 16 16 .none _ _ r c (by intro _ y hy; simp at hy; subst hy; decide) (by intro y hy; simp at hy; subst hy; decide)
    hp (digs_isDigit 16 up (by decide) (by decide) n) (digs_ne _ _ _) (hcd _) (by
      constructor <;> (intro e; have := congrArg List.length e; simp at this))
  rw [digitsVal_digs 16 up (by decide) (by decide)] at this
  have hlen : ([48, x] ++ (digs 16 up n ++ c :: r)).length - (c :: r).length = ([48, x] ++ digs 16 up n).length := by simp; omega
  have e0 : ∀ l : List Byte, Sign.none.raw ++ l = l := fun _ => rfl
  rw [e0, hlen] at this
  rw [this]
  rfl

/-- An octal number with the prefix. -/
theorem strtol_octPrefix (up : Bool) (n : Nat) (c : Byte) (hc : digitVal c = none) (r : List Byte) :
    strtol (48 :: (digs 8 up n ++ c :: r)) 8 = some (clip n, (48 :: digs 8 up n).length) := by
  have hcd : ∀ k, isDigit k c = false := by intro k; simp [isDigit, hc]
  have hd : ∀ y ∈ 48 :: digs 8 up n, isDigit 8 y = true := by
    intro y hy
    simp at hy
    rcases hy with rfl | hy
    · decide
    · exact digs_isDigit 8 up (by decide) (by decide) n y hy
  have hv : digitsVal 8 (48 :: digs 8 up n) = n := by
    have : digitsVal 8 (48 :: digs 8 up n) = digitsVal 8 (digs 8 up n) := by
      show List.foldl _ _ _ = _
      simp [digitsVal, digitVal]
    rw [this, digitsVal_digs 8 up (by decide) (by decide)]
  have hp : prefixed 8 (48 :: (digs 8 up n ++ c :: r)) = (8, (48 :: digs 8 up n) ++ c :: r) := prefixed_other (by decide) (by decide) _
  have := strtol_core 8 8 .none _ _ r c (by intro _ y hy; simp at hy; subst hy; decide) (by intro y hy; simp at hy; subst hy; decide)
    hp hd (by simp) (hcd _) (by
      have := digs_ne 8 up n
      constructor <;>
      · intro e
        have e' := congrArg List.length e
        have : 0 < (digs 8 up n).length := List.length_pos_iff.2 this
        simp at e'
        omega)
  have hlen : (48 :: (digs 8 up n ++ c :: r)).length - (c :: r).length = (48 :: digs 8 up n).length := by simp; omega
  have e0 : ∀ l : List Byte, Sign.none.raw ++ l = l := fun _ => rfl
  rw [e0, hlen, hv] at this
  rw [this]
  rfl

end Ustl.Text
