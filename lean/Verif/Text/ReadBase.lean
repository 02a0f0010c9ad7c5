import Verif.Text.Manip
import Verif.Text.RoundTrip
/-! # The base of numbers that are read (C97)

The settings of an `istringstream`, and what they make of the digits that follow. -/
namespace Ustl.Text
open Ustl.Stream

/-- The calls that change the settings of an `istringstream`. -/
inductive InOp
  /-- `iread (ios::hex)` and the like -/
  | flag (f : Flag)
  /-- `setf (a | b | …)` -/
  | setf (fs : List Flag)
  /-- `unsetf (a | b | …)` -/
  | unsetf (fs : List Flag)
  /-- `setf (a | …, b | …)` -/
  | setfMask (fs ms : List Flag)
  /-- `flags (a | b | …)` -/
  | flags (fs : List Flag)
deriving DecidableEq, Repr

/-- `setf (f)` on `_flags`. Models sistream.h:30. -/
def inSetf (f flags : Nat) : Nat := flags ||| f

/-- `unsetf (f)`: `~f` has 32 bits. Models sistream.h:31. -/
def inUnsetf (f flags : Nat) : Nat := flags &&& (f ^^^ (2 ^ 32 - 1))

/-- `setf (f, m)`. Models sistream.h:32. -/
def inSetfMask (f m flags : Nat) : Nat := inSetf f (inUnsetf m flags)

/-- `iread (fmtflags_bits)`. Models sistream.h:86-92. -/
def inFlag (f flags : Nat) : Nat :=
  let flags := if has f basefield then inSetfMask f basefield flags
    else if has f floatfield then inSetfMask f floatfield flags
    else if has f adjustfield then inSetfMask f adjustfield flags
    else flags
  inSetf f flags

/-- What a call does to `_flags`. Models sistream.h:29-32, 86-92. -/
def InOp.run : InOp → Nat → Nat
  | .flag f, v => inFlag (2 ^ f.pos) v
  | .setf fs, v => inSetf (mask fs) v
  | .unsetf fs, v => inUnsetf (mask fs) v
  | .setfMask fs ms, v => inSetfMask (mask fs) (mask ms) v
  | .flags fs, _ => mask fs

/-- Several calls on a stream. -/
def setUp (ops : List InOp) (s : TIS) : TIS := { s with flags := ops.foldl (fun v op => op.run v) s.flags }

/-! ## The specification -/

/-- Which settings are on after a call: the base, the float format and the alignment exclude each other when set by name. -/
def InOp.on (op : InOp) (on : Flag → Bool) : Flag → Bool := fun x => match op with
  | .flag f => x == f || (on x && !(f.rivals.contains x))
  | .setf fs => on x || fs.contains x
  | .unsetf fs => on x && !(fs.contains x)
  | .setfMask fs ms => (on x && !(ms.contains x)) || fs.contains x
  | .flags fs => fs.contains x

/-- After several calls. -/
def onAll (ops : List InOp) (on : Flag → Bool) : Flag → Bool := ops.foldl (fun o op => op.on o) on

/-! ## Settings -/

theorem inFlag_bit (f x : Flag) (v : Nat) : (inFlag (2 ^ f.pos) v).testBit x.pos = (x == f || (v.testBit x.pos && !(f.rivals.contains x))) := by
  have key : ∀ m : Nat, ∀ ms : List Flag, m = mask ms → f.rivals = ms →
      (inSetf (2 ^ f.pos) (inSetfMask (2 ^ f.pos) m v)).testBit x.pos = (x == f || (v.testBit x.pos && !(f.rivals.contains x))) := by
    intro m ms hm hr
    unfold inSetfMask inSetf inUnsetf
    rw [Nat.testBit_or, Nat.testBit_or, Nat.testBit_and, not_testBit, two_testBit, hm, mask_testBit, hr]
    cases v.testBit x.pos <;> cases ms.contains x <;> cases x == f <;> rfl
  have none : f.rivals = [] → (inSetf (2 ^ f.pos) v).testBit x.pos = (x == f || (v.testBit x.pos && !(f.rivals.contains x))) := by
    intro hr
    unfold inSetf
    rw [Nat.testBit_or, two_testBit, hr]
    cases v.testBit x.pos <;> cases x == f <;> rfl
  obtain ⟨h1, h2, h3⟩ := has_field f
  unfold inFlag
  rw [h1, h2, h3]
  cases f
  case dec => exact key basefield _ rfl rfl
  case oct => exact key basefield _ rfl rfl
  case hex => exact key basefield _ rfl rfl
  case fixed => exact key floatfield _ rfl rfl
  case scientific => exact key floatfield _ rfl rfl
  case left => exact key adjustfield _ rfl rfl
  case right => exact key adjustfield _ rfl rfl
  case internal => exact key adjustfield _ rfl rfl
  all_goals exact none rfl

theorem op_bit (op : InOp) (v : Nat) (x : Flag) : (op.run v).testBit x.pos = op.on (fun y => v.testBit y.pos) x := by
  cases op with
  | flag f => exact inFlag_bit f x v
  | setf fs => show (v ||| mask fs).testBit _ = _; rw [Nat.testBit_or, mask_testBit]; rfl
  | unsetf fs => show (v &&& (mask fs ^^^ (2 ^ 32 - 1))).testBit _ = _; rw [Nat.testBit_and, not_testBit, mask_testBit]; rfl
  | setfMask fs ms =>
    show (v &&& (mask ms ^^^ (2 ^ 32 - 1)) ||| mask fs).testBit _ = _
    rw [Nat.testBit_or, Nat.testBit_and, not_testBit, mask_testBit, mask_testBit]; rfl
  | flags fs => exact mask_testBit fs x

/-- **C97**: after any calls the settings that are on are those the calls ask for, and nothing else of the stream changed. -/
theorem in_settings : ∀ (ops : List InOp) (s : TIS),
    (∀ x, (setUp ops s).flags.testBit x.pos = onAll ops (fun y => s.flags.testBit y.pos) x) ∧ { setUp ops s with flags := s.flags } = s
  | [], s => ⟨fun _ => rfl, rfl⟩
  | op :: ops, s => by
    obtain ⟨h1, _⟩ := in_settings ops { s with flags := op.run s.flags }
    refine ⟨fun x => ?_, rfl⟩
    show (setUp ops { s with flags := op.run s.flags }).flags.testBit x.pos = onAll ops (op.on fun y => s.flags.testBit y.pos) x
    rw [h1 x]
    congr 1
    funext y
    exact op_bit op s.flags y

example : (setUp [.flag .hex, .flag .oct, .setf [.left]] (.mk' [])).flags = 256 + 4096 := rfl

/-! ## Numbers -/

theorem readBase_on (v : Nat) : readBase v = if v.testBit Flag.hex.pos then 16 else if v.testBit Flag.oct.pos then 8 else 0 := by
  unfold readBase
  rw [show hexFlag = 2 ^ Flag.hex.pos from rfl, show octFlag = 2 ^ Flag.oct.pos from rfl, has_bit, has_bit]

/-- The base the settings ask for: the bases of `hex`, `oct`, and 10. -/
def asked (on : Flag → Bool) : Nat := if on .hex then 16 else if on .oct then 8 else 10

theorem digit_head {b : Nat} (hb : b ≤ 16) {x : Byte} (h : isDigit b x = true) : isDigit 16 x = true := by
  unfold isDigit at h ⊢
  cases hd : digitVal x with
  | none => rw [hd] at h; cases h
  | some d => rw [hd] at h; simp at h ⊢; omega

theorem not_digit {b : Nat} (hb : b ≤ 16) {x : Byte} (h : isDigit b x = true) : x ≠ 45 ∧ x ≠ 43 ∧ isSpace x = false ∧ x ≠ 120 ∧ x ≠ 88 ∧ x ≠ 0 := by
  have h := digit_head hb h
  refine ⟨?_, ?_, ?_, ?_, ?_, ?_⟩
  · rintro rfl; revert h; decide
  · rintro rfl; revert h; decide
  · cases hs : isSpace x with
    | false => rfl
    | true =>
      unfold isSpace at hs
      unfold isDigit digitVal at h
      simp at hs
      have : x.toNat = 32 ∨ (9 ≤ x.toNat ∧ x.toNat ≤ 13) := by
        rcases hs with rfl | ⟨h1, h2⟩
        · exact .inl rfl
        · exact .inr ⟨UInt8.le_iff_toNat_le.1 h1, UInt8.le_iff_toNat_le.1 h2⟩
      have e1 : ¬ (48 ≤ x ∧ x ≤ 57) := fun ⟨a, _⟩ => by have := UInt8.le_iff_toNat_le.1 a; simp at this; omega
      have e2 : ¬ (97 ≤ x ∧ x ≤ 122) := fun ⟨a, _⟩ => by have := UInt8.le_iff_toNat_le.1 a; simp at this; omega
      have e3 : ¬ (65 ≤ x ∧ x ≤ 90) := fun ⟨a, _⟩ => by have := UInt8.le_iff_toNat_le.1 a; simp at this; omega
      simp [e1, e2, e3] at h
  · rintro rfl; revert h; decide
  · rintro rfl; revert h; decide
  · rintro rfl; revert h; decide

/-- `strtol` on digits. -/
theorem strtol_plain {base b : Nat} (hb : b ≤ 16) (g : Sign) {x : Byte} {ds : List Byte} {c : Byte} {r : List Byte}
    (hx : isDigit b x = true) (hds : ∀ y ∈ ds, isDigit b y = true) (hc : digitVal c = none)
    (hbase : ∀ t, (∀ y ∈ t.head?, y ≠ 120 ∧ y ≠ 88) → t ≠ [] → prefixed base (x :: t) = (b, x :: t)) :
    strtol (g.raw ++ (x :: ds) ++ c :: r) base = some (clip (g.app (digitsVal b (x :: ds))), (g.raw ++ (x :: ds)).length) := by
  obtain ⟨n1, n2, n3, n4, n5, _⟩ := not_digit hb hx
  have hh : ∀ y ∈ (ds ++ c :: r).head?, y ≠ 120 ∧ y ≠ 88 := by
    intro y hy
    cases ds with
    | nil => simp at hy; subst hy; exact not_x hc
    | cons z ds => simp at hy; subst hy; have := not_digit hb (hds z (by simp)); exact ⟨this.2.2.2.1, this.2.2.2.2.1⟩
  have hp : prefixed base ((x :: ds) ++ c :: r) = (b, (x :: ds) ++ c :: r) := hbase _ hh (by simp)
  have := strtol_core base b g ((x :: ds) ++ c :: r) (x :: ds) r c (by intro _ y hy; simp at hy; subst hy; exact ⟨n1, n2⟩)
    (by intro y hy; simp at hy; subst hy; exact n3) hp
    (by intro y hy; rcases List.mem_cons.1 hy with rfl | hy; exacts [hx, hds y hy]) (by simp) (by simp [isDigit, hc])
    (by
      constructor <;>
      · intro he
        cases ds with
        | nil => simp at he; have := not_x hc; simp [he.2.1] at this
        | cons z ds => simp at he)
  rw [← List.append_assoc] at this
  rw [this]
  congr 2
  simp
  omega

/-- **C97**: with the settings `ops` asked for, a number is read in their base: `g` is its sign, `x :: ds` its digits, `c` what ends it. For a decimal number the first
digit must not be 0, unless it is the only one. Missing: decimal numbers that begin with 0 (`dec_violated`). -/
theorem read_base_partial (ops : List InOp) {s : TIS} (h : s.Ok) (t : ITy) (g : Sign) {pre ds rest : List Byte} {x : Byte} {b : Nat}
    (hb : b = asked (onAll ops fun y => s.flags.testBit y.pos)) (hx : isDigit b x = true) (hds : ∀ y ∈ ds, isDigit b y = true)
    (h10 : b = 10 → x = 48 → ds = [])
    (hu : s.unread = pre ++ (g.raw ++ (x :: ds)) ++ rest) (hpre : ∀ d ∈ pre, s.isDelim d = true)
    (hsign : s.isDelim 45 = false ∧ s.isDelim 43 = false) (hdig : ∀ c, isDigit 16 c = true → s.isDelim c = false)
    (hend : ∃ c r, rest ++ s.after = c :: r ∧ digitVal c = none) :
    ∃ s', readInt t (setUp ops s) = .ret (t.conv (toS (if t.bits = 64 then 64 else 32) (clip (g.app (digitsVal b (x :: ds)))))) s' ∧ s'.Ok ∧ s'.unread = rest := by
  obtain ⟨hon, -⟩ := in_settings ops s
  generalize onAll ops (fun y => s.flags.testBit y.pos) = on at hb hon
  generalize hs2 : setUp ops s = s2
  have e : s2 = { s with flags := s2.flags } := by rw [← hs2]; rfl
  have hok : s2.Ok := by rw [e]; exact ⟨h.1, h.2, h.3, h.4⟩
  have hbb : b ≤ 16 := by rw [hb]; unfold asked; split <;> (try split) <;> omega
  have hbase : readBase s2.flags = if b = 10 then 0 else b := by
    rw [readBase_on, ← hs2, hon, hon, hb]
    unfold asked
    split
    · rfl
    · split <;> rfl
  obtain ⟨c, r, er, hc⟩ := hend
  have hst : strtol (g.raw ++ (x :: ds) ++ c :: r) (readBase s2.flags) = some (clip (g.app (digitsVal b (x :: ds))), (g.raw ++ (x :: ds)).length) := by
    by_cases hx48 : x = 48 ∧ b = 10
    · have hd0 := h10 hx48.2 hx48.1
      subst hd0
      have := strtol_plain (base := 0) (b := 8) (by decide) g (x := 48) (ds := []) (c := c) (r := r) (by decide) (by simp) hc (by
        intro t ht hne
        cases t with
        | nil => exact absurd rfl hne
        | cons y t => exact prefixed_zero (ht y (by simp)) t)
      rw [hbase, if_pos hx48.2, hx48.1, this, hx48.2]
      rfl
    · apply strtol_plain hbb g hx hds hc
      intro t ht hne
      rw [hbase]
      cases t with
      | nil => exact absurd rfl hne
      | cons y t =>
        by_cases hx0 : x = 48
        · rw [hx0, prefixed_zero (ht y (by simp)) t, if_neg (fun h => hx48 ⟨hx0, h⟩), if_neg]
          rw [hb]; unfold asked; split <;> (try split) <;> omega
        · rw [prefixed_nonzero hx0]
          by_cases h10' : b = 10
          · simp [h10']
          · rw [if_neg h10', if_neg]
            rw [hb]; unfold asked; split <;> (try split) <;> omega
  obtain ⟨a, txt, ea, ha⟩ : ∃ a txt, g.raw ++ (x :: ds) = a :: txt ∧ (s.isDelim a = false ∧ a ≠ 0) := by
    cases g with
    | none => exact ⟨x, ds, rfl, hdig x (digit_head hbb hx), (not_digit hbb hx).2.2.2.2.2⟩
    | minus => exact ⟨45, x :: ds, rfl, hsign.1, by decide⟩
    | plus => exact ⟨43, x :: ds, rfl, hsign.2, by decide⟩
  rw [ea] at hu hst
  have hu2 : s2.unread = pre ++ a :: txt ++ rest := by rw [e]; exact hu
  have haft : s2.after = s.after := by rw [e]
  rw [← er, ← haft, ← List.append_assoc] at hst
  have hdel : ∀ d, s2.isDelim d = s.isDelim d := by intro d; rw [e]; rfl
  have := readNumber_ok hok (if t.bits = 64 then 64 else 32) hu2 (fun d hd => by rw [hdel]; exact hpre d hd) (by rw [hdel]; exact ha.1) ha.2 hst
  have hadv := hok.adv hu2
  rw [List.length_append] at hadv
  refine ⟨_, by rw [readInt, M.bind_ret this]; rfl, ?_, ?_⟩
  · split
    · exact hadv.1.eof
    · exact hadv.1
  · split
    · exact hadv.2
    · exact hadv.2

/-- "ff;" after `iread (hex)`. -/
example : ∃ s', readInt ⟨32, true⟩ (setUp [.flag .oct, .flag .hex] (.mk' [32, 102, 102, 59])) = .ret 255 s' ∧ s'.Ok ∧ s'.unread = [59] := by
  have h := read_base_partial [.flag .oct, .flag .hex] (s := .mk' [32, 102, 102, 59]) ⟨by decide, by decide, rfl, rfl⟩ ⟨32, true⟩ .none (pre := [32]) (ds := [102]) (rest := [59]) (x := 102) (b := 16)
    rfl (by decide) (by decide) (by decide) rfl (by decide) (reads_default _ _).sign (reads_default _ _).digit ⟨59, [0], rfl, rfl⟩
  rw [show (⟨32, true⟩ : ITy).conv _ = 255 from (by decide +kernel)] at h
  exact h

/-- **C97** is false of `dec`: whatever was set before, after `iread (dec)` (or `setf (dec, basefield)`) a number that begins with 0 is read in base 8: 010 is 8. -/
theorem dec_violated (ops : List InOp) {s : TIS} (h : s.Ok) (t : ITy) {pre ds rest : List Byte}
    (hds : ∀ y ∈ ds, isDigit 8 y = true) (hu : s.unread = pre ++ (48 :: ds) ++ rest) (hpre : ∀ d ∈ pre, s.isDelim d = true) (h48 : s.isDelim 48 = false)
    (hend : ∃ c r, rest ++ s.after = c :: r ∧ digitVal c = none) :
    onAll (ops ++ [.flag .dec]) (fun y => s.flags.testBit y.pos) .dec = true ∧
    ∃ s', readInt t (setUp (ops ++ [.flag .dec]) s) = .ret (t.conv (toS (if t.bits = 64 then 64 else 32) (clip (digitsVal 8 (48 :: ds))))) s' := by
  obtain ⟨hon, -⟩ := in_settings (ops ++ [.flag .dec]) s
  have hlast : onAll (ops ++ [.flag .dec]) (fun y => s.flags.testBit y.pos) = InOp.on (.flag .dec) (onAll ops (fun y => s.flags.testBit y.pos)) := by
    simp [onAll, List.foldl_append]
  rw [hlast] at hon ⊢
  refine ⟨rfl, ?_⟩
  generalize hs2 : setUp (ops ++ [.flag .dec]) s = s2 at hon
  have e : s2 = { s with flags := s2.flags } := by rw [← hs2]; rfl
  have hok : s2.Ok := by rw [e]; exact ⟨h.1, h.2, h.3, h.4⟩
  have hbase : readBase s2.flags = 0 := by
    rw [readBase_on, hon, hon]
    simp [InOp.on, Flag.rivals]
  obtain ⟨c, r, er, hc⟩ := hend
  have hst := strtol_plain (base := 0) (b := 8) (by decide) .none (x := 48) (ds := ds) (c := c) (r := r) (by decide) hds hc (by
    intro t ht hne
    cases t with
    | nil => exact absurd rfl hne
    | cons y t => exact prefixed_zero (ht y (by simp)) t)
  have hu2 : s2.unread = pre ++ 48 :: ds ++ rest := by rw [e]; exact hu
  have haft : s2.after = s.after := by rw [e]
  simp only [Sign.raw, List.nil_append] at hst
  rw [← hbase, ← er, ← haft, ← List.append_assoc] at hst
  have hdel : ∀ d, s2.isDelim d = s.isDelim d := by intro d; rw [e]; rfl
  have := readNumber_ok hok (if t.bits = 64 then 64 else 32) hu2 (fun d hd => by rw [hdel]; exact hpre d hd) (by rw [hdel]; exact h48) (by decide) hst
  exact ⟨_, by rw [readInt, M.bind_ret this]; rfl⟩

/-- "010" after `iread (dec)`. -/
example : ∃ s', readInt ⟨32, true⟩ (setUp [.flag .dec] (.mk' [48, 49, 48])) = .ret 8 s' := by
  have h := (dec_violated [] (s := .mk' [48, 49, 48]) ⟨by decide, by decide, rfl, rfl⟩ ⟨32, true⟩ (pre := []) (ds := [49, 48]) (rest := []) (by decide) rfl (by decide)
    ((reads_default _ _).digit 48 (by decide)) ⟨0, [], rfl, rfl⟩).2
  rw [show (⟨32, true⟩ : ITy).conv _ = 8 from (by decide +kernel)] at h
  exact h

end Ustl.Text
