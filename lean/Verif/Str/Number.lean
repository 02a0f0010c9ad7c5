import Verif.Str.NumModel
import Verif.Str.Props
import Verif.Text.Numbers
import Mathlib.Data.Nat.Digits.Defs
/-!
# C67: `to_string` and `stoi`, `stol`, `stoul`, `stoll`, `stoull`
-/
namespace Ustl.Str
open Ustl.Memblock
open Ustl.Text (isSpace digitVal isDigit digitsVal clip prefixed signed parseConv convPrint convText toS toU digs Sign Conv)

variable {lit : Nat × Nat}

/-! ## Specification -/

/-- The decimal numeral of an integer, as Lean writes it. -/
def numeral (v : Int) : List Byte :=
  (if v < 0 then [45] else []) ++ (Nat.toDigits 10 v.natAbs).map fun c => UInt8.ofNat c.toNat

/-- The values of the type (64-bit `long`). -/
def NumTy.has : NumTy → Int → Prop
  | .int, v => -(2 ^ 31) ≤ v ∧ v < 2 ^ 31
  | .unsigned, v => 0 ≤ v ∧ v < 2 ^ 32
  | .long, v | .llong, v => -(2 ^ 63) ≤ v ∧ v < 2 ^ 63
  | .ulong, v | .ullong, v => 0 ≤ v ∧ v < 2 ^ 64

/-- `x` or `X` and a hexadecimal digit follow. -/
def hexAfter : List Byte → Bool
  | x :: d :: _ => (x = 120 || x = 88) && isDigit 16 d
  | _ => false

/-- The prefix `pre` before the digits `ds` (followed by `rest`), and the base `b` it selects when `base` was asked for. -/
inductive Prefix (base : Int) (ds rest : List Byte) : Nat → List Byte → Prop
  | given (b : Nat) : base = b → 2 ≤ b → b ≤ 36 → (b = 16 → ds = [48] → hexAfter rest = false) → Prefix base ds rest b []
  | hex (x : Byte) : base = 0 ∨ base = 16 → x = 120 ∨ x = 88 → Prefix base ds rest 16 [48, x]
  | oct : base = 0 → ds.head? = some 48 → (ds = [48] → hexAfter rest = false) → Prefix base ds rest 8 []
  | dec : base = 0 → ds.head? ≠ some 48 → Prefix base ds rest 10 []

/-- The text begins with a number: white space, an optional sign, an optional prefix, and as many digits as there are. `v` is its
value and `n` how many characters it takes. -/
def Begins (s : List Byte) (base : Int) (g : Sign) (v n : Nat) : Prop :=
  ∃ ws pre ds rest b, s = ws ++ g.raw ++ pre ++ ds ++ rest ∧ n = (ws ++ g.raw ++ pre ++ ds).length ∧
    (∀ c ∈ ws, isSpace c = true) ∧ Prefix base ds rest b pre ∧ ds ≠ [] ∧ (∀ c ∈ ds, isDigit b c = true) ∧
    (∀ c ∈ rest.head?, isDigit b c = false) ∧ v = Nat.ofDigits b (ds.reverse.map fun c => (digitVal c).getD 0)

/-! ## Proofs -/

theorem digitsVal_ofDigits (b : Nat) (ds : List Byte) :
    digitsVal b ds = Nat.ofDigits b (ds.reverse.map fun c => (digitVal c).getD 0) := by
  have : ∀ (l : List Byte), l.foldr (fun c a => a * b + (digitVal c).getD 0) 0 = Nat.ofDigits b (l.map fun c => (digitVal c).getD 0) := by
    intro l
    induction l with
    | nil => rfl
    | cons c l ih => rw [List.foldr_cons, ih, List.map_cons, Nat.ofDigits_cons, Nat.mul_comm, Nat.add_comm]
  rw [← this, List.foldr_reverse]; rfl

theorem zero_notDigit (b : Nat) : isDigit b 0 = false := rfl

theorem digit_ne_zero {b : Nat} {c : Byte} (h : isDigit b c = true) : c ≠ 0 := by
  rintro rfl; cases h

theorem space_ne_zero {c : Byte} (h : isSpace c = true) : c ≠ 0 := by
  rintro rfl; cases h

theorem nonzero_prefix (p rest s r : List Byte) (hp : ∀ c ∈ p, c ≠ 0) (he : p ++ rest = s ++ 0 :: r) :
    ∃ rest', rest = rest' ++ 0 :: r ∧ s = p ++ rest' := by
  induction p generalizing s with
  | nil => exact ⟨s, he, rfl⟩
  | cons a p ih =>
    cases s with
    | nil =>
      simp at he
      exact absurd he.1 (hp a (by simp))
    | cons c s =>
      simp at he
      obtain ⟨rest', e1, e2⟩ := ih s (fun c hc => hp c (by simp [hc])) he.2
      exact ⟨rest', e1, by simp [he.1, e2]⟩

theorem hexAfter_append (l r : List Byte) : hexAfter (l ++ 0 :: r) = hexAfter l := by
  match l with
  | [] => cases r <;> simp [hexAfter]
  | [x] => simp [hexAfter, zero_notDigit]
  | x :: d :: l => simp [hexAfter]

theorem signed_cases (s : List Byte) : ∃ g : Sign, s = g.raw ++ (signed s).2 ∧ (signed s).1 = decide (g = .minus) ∧
    (g = .none → s = (signed s).2) := by
  unfold signed
  split
  · exact ⟨.minus, rfl, rfl, fun h => by cases h⟩
  · exact ⟨.plus, rfl, rfl, fun h => by cases h⟩
  · exact ⟨.none, rfl, rfl, fun _ => rfl⟩

/-- What `prefixed` does, as the specification has it. -/
theorem prefixed_cases (base : Nat) (s : List Byte) (hb : base = 0 ∨ 2 ≤ base ∧ base ≤ 36) :
    ∃ pre, s = pre ++ (prefixed base s).2 ∧
      ((prefixed base s).2.takeWhile (isDigit (prefixed base s).1) ≠ [] →
        Prefix base ((prefixed base s).2.takeWhile (isDigit (prefixed base s).1))
          ((prefixed base s).2.dropWhile (isDigit (prefixed base s).1)) (prefixed base s).1 pre) := by
  have giv : ∀ b : Nat, (b = 0 → False) → base = b → ∀ ds rest, (b = 16 → ds = [48] → hexAfter rest = false) → Prefix base ds rest b [] := by
    intro b hb0 e ds rest hh
    rcases hb with h | h
    · exact absurd (e ▸ h) hb0
    · exact .given b (by rw [e]) (e ▸ h.1) (e ▸ h.2) hh
  unfold prefixed
  split
  · rename_i x d rest
    split
    · rename_i h
      refine ⟨[48, x], rfl, fun _ => .hex x ?_ h.1⟩
      rcases h.2.2 with h | h <;> simp [h]
    · rename_i h
      refine ⟨[], rfl, fun _ => ?_⟩
      have key : (base = 0 ∨ base = 16) → ∀ b, (48 :: x :: d :: rest).takeWhile (isDigit b) = [48] →
          hexAfter ((48 :: x :: d :: rest).dropWhile (isDigit b)) = false := by
        intro h0 b e
        have e2 := List.takeWhile_append_dropWhile (p := isDigit b) (l := 48 :: x :: d :: rest)
        rw [e] at e2
        simp only [List.cons_append, List.nil_append, List.cons.injEq, true_and] at e2
        rw [e2]
        simp only [hexAfter]
        cases hx : (decide (x = 120) || decide (x = 88)) with
        | false => rfl
        | true =>
          cases hd : isDigit 16 d with
          | false => rfl
          | true =>
            simp at hx
            exact absurd ⟨hx, hd, h0⟩ h
      by_cases h0 : base = 0
      · subst h0
        simp only [if_true]
        refine .oct rfl ?_ (key (.inl rfl) 8)
        simp [isDigit, digitVal]
      · simp only [if_neg h0]
        exact giv base h0 rfl _ _ (fun e => key (.inr e) base)
  · rename_i l hl
    refine ⟨[], rfl, fun _ => ?_⟩
    have key : ∀ b, (48 :: l).takeWhile (isDigit b) = [48] → hexAfter ((48 :: l).dropWhile (isDigit b)) = false := by
      intro b e
      have e2 := List.takeWhile_append_dropWhile (p := isDigit b) (l := 48 :: l)
      rw [e] at e2
      simp only [List.cons_append, List.nil_append, List.cons.injEq, true_and] at e2
      rw [e2]
      match l, hl with
      | [], _ => rfl
      | [_], _ => rfl
      | x :: d :: l, hl => exact absurd rfl (hl x d l)
    by_cases h0 : base = 0
    · subst h0
      simp only [if_true]
      refine .oct rfl ?_ (key 8)
      simp [isDigit, digitVal]
    · simp only [if_neg h0]
      exact giv base h0 rfl _ _ (fun _ => key base)
  · rename_i h1 h2
    refine ⟨[], rfl, fun hne => ?_⟩
    have nz : s.head? ≠ some 48 := by
      cases s with
      | nil => simp
      | cons a l =>
        intro h
        simp at h
        subst h
        exact h2 l rfl
    by_cases h0 : base = 0
    · subst h0
      simp only [if_true] at hne ⊢
      refine .dec rfl ?_
      cases s with
      | nil => simp at hne
      | cons a l =>
        rw [List.takeWhile_cons]
        split
        · simpa using nz
        · simp
    · simp only [if_neg h0] at hne ⊢
      refine giv base h0 rfl _ _ (fun _ e => ?_)
      cases s with
      | nil => simp at hne
      | cons a l =>
        rw [List.takeWhile_cons] at e
        split at e
        · simp at e; exact absurd (by simp [e.1]) nz
        · cases e

/-- `prefixed` on a text the specification describes. -/
theorem prefixed_of {base : Nat} {ds rest pre : List Byte} {b : Nat} (hp : Prefix base ds rest b pre) (hne : ds ≠ [])
    (hd : ∀ c ∈ ds, isDigit b c = true) (hr : ∀ c ∈ rest.head?, isDigit b c = false) :
    prefixed base (pre ++ (ds ++ rest)) = (b, ds ++ rest) := by
  cases hp with
  | given _ h1 h2 h3 h4 =>
    have e : base = b := by omega
    subst e
    by_cases h16 : base = 16
    · subst h16
      obtain ⟨a, l, rfl⟩ := List.exists_cons_of_ne_nil hne
      simp only [List.nil_append, List.cons_append]
      by_cases ha : a = 48
      · subst ha
        match l with
        | [] =>
          have h5 := h4 rfl rfl
          match rest with
          | [] => rfl
          | [_] => rfl
          | x :: d :: t =>
            simp only [hexAfter, Bool.and_eq_false_iff, Bool.or_eq_false_iff, decide_eq_false_iff_not] at h5
            simp only [List.nil_append, prefixed]
            rw [if_neg]
            · rfl
            · rintro ⟨q1, q2, _⟩
              rcases h5 with h5 | h5
              · exact q1.elim h5.1 h5.2
              · rw [q2] at h5; cases h5
        | x :: l =>
          have hx : x ≠ 120 ∧ x ≠ 88 := by
            have := hd x (by simp)
            constructor <;> (rintro rfl; cases this)
          exact Ustl.Text.prefixed_zero hx _
      · exact Ustl.Text.prefixed_nonzero ha _
    · exact Ustl.Text.prefixed_other (by omega) h16 _
  | hex x h1 h2 =>
    obtain ⟨a, l, rfl⟩ := List.exists_cons_of_ne_nil hne
    have ha := hd a (by simp)
    have hb : base = 0 ∨ base = 16 := by omega
    show prefixed base (48 :: x :: a :: (l ++ rest)) = _
    simp only [prefixed]
    rw [if_pos ⟨h2, ha, hb⟩]
    rfl
  | oct h1 h2 h3 =>
    have e : base = 0 := by omega
    subst e
    obtain ⟨a, l, rfl⟩ := List.exists_cons_of_ne_nil hne
    simp at h2
    subst h2
    match l with
    | [] =>
      have h5 := h3 rfl
      match rest with
      | [] => rfl
      | [_] => rfl
      | x :: d :: t =>
        simp only [hexAfter, Bool.and_eq_false_iff, Bool.or_eq_false_iff, decide_eq_false_iff_not] at h5
        show prefixed 0 (48 :: x :: d :: t) = _
        simp only [prefixed]
        rw [if_neg]
        · rfl
        · rintro ⟨q1, q2, _⟩
          rcases h5 with h5 | h5
          · exact q1.elim h5.1 h5.2
          · rw [q2] at h5; cases h5
    | x :: l =>
      have hx : x ≠ 120 ∧ x ≠ 88 := by
        have := hd x (by simp)
        constructor <;> (rintro rfl; cases this)
      exact Ustl.Text.prefixed_zero hx _
  | dec h1 h2 =>
    have e : base = 0 := by omega
    subst e
    obtain ⟨a, l, rfl⟩ := List.exists_cons_of_ne_nil hne
    exact Ustl.Text.prefixed_nonzero (by simpa using h2) _

theorem takeWhile_mem {p : Byte → Bool} {l : List Byte} {c : Byte} (h : c ∈ l.takeWhile p) : p c = true := by
  induction l with
  | nil => cases h
  | cons a l ih =>
    rw [List.takeWhile_cons] at h
    split at h
    · rename_i ha
      rcases List.mem_cons.1 h with rfl | h
      · exact ha
      · exact ih h
    · cases h

theorem dropWhile_all {p : Byte → Bool} {l r : List Byte} (hl : ∀ x ∈ l, p x = true) : (l ++ r).dropWhile p = r.dropWhile p := by
  induction l with
  | nil => rfl
  | cons a l ih =>
    rw [List.cons_append, List.dropWhile_cons, if_pos (hl a (by simp)), ih (fun x hx => hl x (by simp [hx]))]

/-- A text followed by NUL that begins with a number: that number is what the scan finds. -/
theorem scan_begins {s r : List Byte} {base : Int} {g : Sign} {v n : Nat} (h : Begins s base g v n) :
    scan (s ++ 0 :: r) base = some (some (decide (g = .minus), v), n) := by
  obtain ⟨ws, pre, ds, rest, b, rfl, rfl, hw, hp, hne, hd, hr, rfl⟩ := h
  have hbase : 0 ≤ base ∧ (base = 0 ∨ 2 ≤ base) ∧ base ≤ 36 := by
    cases hp <;> omega
  obtain ⟨k, rfl⟩ : ∃ k : Nat, base = k := ⟨base.toNat, by omega⟩
  have hr' : ∀ c ∈ (rest ++ 0 :: r).head?, isDigit b c = false := by
    cases rest with
    | nil => intro c hc; simp at hc; subst hc; rfl
    | cons a t => intro c hc; exact hr c (by simpa using hc)
  have hp' : Prefix k ds (rest ++ 0 :: r) b pre := by
    cases hp with
    | given _ h1 h2 h3 h4 => exact .given b h1 h2 h3 (by rw [hexAfter_append]; exact h4)
    | hex x h1 h2 => exact .hex x h1 h2
    | oct h1 h2 h3 => exact .oct h1 h2 (by rw [hexAfter_append]; exact h3)
    | dec h1 h2 => exact .dec h1 h2
  have ep := prefixed_of hp' hne hd hr'
  obtain ⟨a, l, rfl⟩ := List.exists_cons_of_ne_nil hne
  have ha := hd a (by simp)
  -- the first character after the sign
  have hfirst : ∀ x ∈ (pre ++ (a :: l ++ (rest ++ 0 :: r))).head?, isDigit 36 x = true := by
    intro x hx
    cases hp with
    | hex y h1 h2 => simp at hx; subst hx; rfl
    | given _ h1 h2 h3 h4 =>
      simp at hx; subst hx
      unfold isDigit at ha ⊢
      cases hdv : digitVal a with
      | none => rw [hdv] at ha; cases ha
      | some d => rw [hdv] at ha; simp at ha ⊢; omega
    | oct h1 h2 h3 =>
      simp at hx; subst hx
      unfold isDigit at ha ⊢
      cases hdv : digitVal a with
      | none => rw [hdv] at ha; cases ha
      | some d => rw [hdv] at ha; simp at ha ⊢; omega
    | dec h1 h2 =>
      simp at hx; subst hx
      unfold isDigit at ha ⊢
      cases hdv : digitVal a with
      | none => rw [hdv] at ha; cases ha
      | some d => rw [hdv] at ha; simp at ha ⊢; omega
  generalize hB : pre ++ (a :: l ++ (rest ++ 0 :: r)) = B at ep hfirst
  have hBne : B ≠ [] := by rw [← hB]; simp
  have e0 : ws ++ g.raw ++ pre ++ (a :: l) ++ rest ++ 0 :: r = ws ++ (g.raw ++ B) := by rw [← hB]; simp
  obtain ⟨x, t, rfl⟩ := List.exists_cons_of_ne_nil hBne
  have hx := hfirst x (by simp)
  have e1 : (ws ++ (g.raw ++ x :: t)).dropWhile isSpace = g.raw ++ x :: t := by
    rw [dropWhile_all hw]
    cases g with
    | none => simp [Sign.raw, Ustl.Text.isDigit_not_space hx]
    | minus => rfl
    | plus => rfl
  have e2 : signed (g.raw ++ x :: t) = (decide (g = .minus), x :: t) := by
    cases g with
    | none =>
      have := Ustl.Text.digit_not_sign hx
      simp only [Sign.raw, List.nil_append]
      unfold signed
      split <;> simp_all
    | minus => rfl
    | plus => rfl
  have e3 : (a :: l ++ (rest ++ 0 :: r)).takeWhile (isDigit b) = a :: l ∧
      (a :: l ++ (rest ++ 0 :: r)).dropWhile (isDigit b) = rest ++ 0 :: r := by
    obtain ⟨c, q, e⟩ : ∃ c q, rest ++ 0 :: r = c :: q := List.exists_cons_of_ne_nil (by simp)
    rw [e]
    exact Ustl.Text.takeWhile_run hd (hr' c (by rw [e]; simp))
  rw [e0]
  unfold scan
  rw [if_neg (by omega)]
  simp only [e1, e2, Int.toNat_natCast, ep, e3.1, e3.2]
  have hz : (0 : Byte) ∈ x :: t := by rw [← hB]; simp
  rw [if_neg, if_neg (by simp), digitsVal_ofDigits]
  · refine congrArg some (congrArg (Prod.mk _) ?_)
    rw [← e0]
    simp only [List.length_append, List.length_cons]
    omega
  · rintro (h | ⟨_, h | h⟩)
    · simp at h
    · rw [h] at hz; simp at hz
    · rw [h] at hz; simp at hz

/-- The scan of a text followed by NUL never leaves the text, and finds nothing or a number the text begins with. -/
theorem scan_total {s r : List Byte} {base : Int} (hb : base = 0 ∨ 2 ≤ base ∧ base ≤ 36) :
    scan (s ++ 0 :: r) base = some (none, 0) ∨ ∃ g v n, Begins s base g v n ∧
      scan (s ++ 0 :: r) base = some (some (decide (g = .minus), v), n) := by
  obtain ⟨k, rfl⟩ : ∃ k : Nat, base = k := ⟨base.toNat, by omega⟩
  have h1 := List.takeWhile_append_dropWhile (p := isSpace) (l := s ++ 0 :: r)
  have hw : ∀ c ∈ (s ++ 0 :: r).takeWhile isSpace, isSpace c = true := fun c hc => takeWhile_mem hc
  obtain ⟨g, hg1, hg2, _⟩ := signed_cases ((s ++ 0 :: r).dropWhile isSpace)
  obtain ⟨pre, hp1, hp2⟩ := prefixed_cases k (signed ((s ++ 0 :: r).dropWhile isSpace)).2 (by omega)
  have hsc : scan (s ++ 0 :: r) k = if k < 0 ∨ k = 1 ∨ 36 < k then none else
      if (prefixed k (signed ((s ++ 0 :: r).dropWhile isSpace)).2).2.dropWhile
          (isDigit (prefixed k (signed ((s ++ 0 :: r).dropWhile isSpace)).2).1) = [] ∨ (k = 0 ∨ k = 16) ∧
          ((signed ((s ++ 0 :: r).dropWhile isSpace)).2 = [48, 120] ∨ (signed ((s ++ 0 :: r).dropWhile isSpace)).2 = [48, 88]) then none
      else if (prefixed k (signed ((s ++ 0 :: r).dropWhile isSpace)).2).2.takeWhile
          (isDigit (prefixed k (signed ((s ++ 0 :: r).dropWhile isSpace)).2).1) = [] then some (none, 0)
      else some (some ((signed ((s ++ 0 :: r).dropWhile isSpace)).1,
        digitsVal (prefixed k (signed ((s ++ 0 :: r).dropWhile isSpace)).2).1
          ((prefixed k (signed ((s ++ 0 :: r).dropWhile isSpace)).2).2.takeWhile
            (isDigit (prefixed k (signed ((s ++ 0 :: r).dropWhile isSpace)).2).1))),
        (s ++ 0 :: r).length - ((prefixed k (signed ((s ++ 0 :: r).dropWhile isSpace)).2).2.dropWhile
          (isDigit (prefixed k (signed ((s ++ 0 :: r).dropWhile isSpace)).2).1)).length) := by
    unfold scan
    rw [if_neg (by omega), if_neg (by omega)]
    have : ((k : Int) = 0 ∨ (k : Int) = 16) ↔ (k = 0 ∨ k = 16) := by omega
    simp only [Int.toNat_natCast, this]
  rw [if_neg (by omega)] at hsc
  generalize hS2 : (signed ((s ++ 0 :: r).dropWhile isSpace)).2 = s2 at *
  generalize hNeg : (signed ((s ++ 0 :: r).dropWhile isSpace)).1 = neg at *
  generalize hW : (s ++ 0 :: r).takeWhile isSpace = ws at *
  have h3 := List.takeWhile_append_dropWhile (p := isDigit (prefixed k s2).1) (l := (prefixed k s2).2)
  have hds : ∀ c ∈ (prefixed k s2).2.takeWhile (isDigit (prefixed k s2).1), isDigit (prefixed k s2).1 c = true :=
    fun c hc => takeWhile_mem hc
  have hrest : ∀ c ∈ ((prefixed k s2).2.dropWhile (isDigit (prefixed k s2).1)).head?, isDigit (prefixed k s2).1 c = false := by
    intro c hc
    have := List.head?_dropWhile_not (isDigit (prefixed k s2).1) (prefixed k s2).2
    rw [hc] at this
    simpa using this
  generalize hDs : (prefixed k s2).2.takeWhile (isDigit (prefixed k s2).1) = ds at *
  generalize hRe : (prefixed k s2).2.dropWhile (isDigit (prefixed k s2).1) = rest at *
  generalize hB : (prefixed k s2).1 = b at *
  have hsplit : (ws ++ g.raw ++ pre ++ ds) ++ rest = s ++ 0 :: r := by
    rw [← h1, hg1, hp1, ← h3]; simp
  have hz2 : (0 : Byte) ∈ s2 := by
    have hz : (0 : Byte) ∈ ws ++ (g.raw ++ s2) := by rw [← hg1, h1]; simp
    simp only [List.mem_append] at hz
    rcases hz with hz | hz | hz
    · exact absurd rfl (space_ne_zero (hw 0 hz))
    · cases g <;> simp [Sign.raw] at hz
    · exact hz
  by_cases hne : ds = []
  · left
    have hrne : rest ≠ [] := by
      intro h
      have : prefixed k s2 = (b, []) := by rw [← hB, Prod.ext_iff]; exact ⟨rfl, by simp [← h3, hne, h]⟩
      -- the prefix takes nothing but 0x, and leaves a digit after it
      unfold prefixed at this
      split at this
      · split at this <;> simp at this
      · simp at this
      · simp at this; rw [this.2] at hz2; simp at hz2
    rw [hsc, if_neg, if_pos hne]
    rintro (h | ⟨_, h | h⟩)
    · exact hrne h
    · rw [h] at hz2; simp at hz2
    · rw [h] at hz2; simp at hz2
  · right
    have hpre := hp2 hne
    have nz : ∀ c ∈ ws ++ g.raw ++ pre ++ ds, c ≠ 0 := by
      intro c hc
      simp only [List.mem_append] at hc
      rcases hc with ((hc | hc) | hc) | hc
      · exact space_ne_zero (hw c hc)
      · cases g <;> simp [Sign.raw] at hc <;> subst hc <;> decide
      · cases hpre with
        | hex x _ h => simp at hc; rcases hc with rfl | rfl <;> [decide; (rcases h with rfl | rfl <;> decide)]
        | given => cases hc
        | oct => cases hc
        | dec => cases hc
      · exact digit_ne_zero (hds c hc)
    obtain ⟨rest', e1, e2⟩ := nonzero_prefix _ _ _ _ nz hsplit
    have hbeg : Begins s k g (Nat.ofDigits b (ds.reverse.map fun c => (digitVal c).getD 0)) (ws ++ g.raw ++ pre ++ ds).length := by
      refine ⟨ws, pre, ds, rest', b, e2, rfl, hw, ?_, hne, hds, ?_, rfl⟩
      · rw [e1] at hpre
        cases hpre with
        | given _ h1 h2 h3 h4 => exact .given b h1 h2 h3 (by rw [hexAfter_append] at h4; exact h4)
        | hex x h1 h2 => exact .hex x h1 h2
        | oct h1 h2 h3 => exact .oct h1 h2 (by rw [hexAfter_append] at h3; exact h3)
        | dec h1 h2 => exact .dec h1 h2
      · intro c hc
        refine hrest c ?_
        rw [e1]
        cases rest' with
        | nil => cases hc
        | cons => exact hc
    exact ⟨g, _, _, hbeg, scan_begins hbeg⟩

theorem memFrom_srep {h : Heap Byte} {o : Obj} {s : List Byte} (r : SRep h o s) : ∃ t, memFrom h o.ptr = some (s ++ 0 :: t) := by
  have h1 := r.read
  unfold ld at h1
  rw [if_neg (by omega)] at h1
  unfold memFrom
  cases hp : o.ptr with
  | none => rw [hp] at h1; cases h1
  | some p =>
    obtain ⟨id, off⟩ := p
    rw [hp] at h1
    cases hb : h.blk id with
    | none => simp [hb] at h1
    | some b =>
      simp only [hb] at h1 ⊢
      split at h1
      · simp only [Option.some.injEq] at h1
        refine ⟨(b.bytes.drop off).drop (s.length + 1), ?_⟩
        rw [Option.some.injEq]
        have := List.take_append_drop (s.length + 1) (b.bytes.drop off)
        rw [h1] at this
        rw [← this]
        simp
      · cases h1

theorem stoX_begins {f : Option (Bool × Nat) → Int} {h : Heap Byte} {o : Obj} {s : List Byte} {base : Int} {g : Sign} {v n : Nat}
    (r : SRep h o s) (hs : Begins s base g v n) : stoX f h o base = some (f (some (decide (g = .minus), v)), n) := by
  obtain ⟨t, e⟩ := memFrom_srep r
  unfold stoX
  rw [e]
  simp only [scan_begins hs]

theorem stoX_nothing {f : Option (Bool × Nat) → Int} {h : Heap Byte} {o : Obj} {s : List Byte} {base : Int}
    (r : SRep h o s) (hb : base = 0 ∨ 2 ≤ base ∧ base ≤ 36) (hs : ¬ ∃ g v n, Begins s base g v n) :
    stoX f h o base = some (f none, 0) := by
  obtain ⟨t, e⟩ := memFrom_srep r
  unfold stoX
  rw [e]
  rcases scan_total (s := s) (r := t) hb with h1 | ⟨g, v, n, h1, _⟩
  · simp only [h1]
  · exact absurd ⟨g, v, n, h1⟩ hs

/-- **C67** what a text begins with is a part of the text, and there is at most one number it begins with. -/
theorem begins_unique {s : List Byte} {base : Int} {g : Sign} {v n : Nat} (hs : Begins s base g v n) : 0 < n ∧ n ≤ s.length ∧
    ∀ {g' : Sign} {v' n' : Nat}, Begins s base g' v' n' → (g' = .minus ↔ g = .minus) ∧ v' = v ∧ n' = n := by
  refine ⟨?_, ?_, ?_⟩
  · obtain ⟨ws, pre, ds, rest, b, _, rfl, _, _, hne, _⟩ := hs
    have := List.length_pos_iff.2 hne
    simp only [List.length_append]; omega
  · obtain ⟨ws, pre, ds, rest, b, rfl, rfl, _⟩ := hs
    simp only [List.length_append]; omega
  · intro g' v' n' h'
    have e := (scan_begins (r := []) hs).symm.trans (scan_begins h')
    simp only [Option.some.injEq, Prod.mk.injEq, decide_eq_decide] at e
    exact ⟨e.1.1.symm, e.1.2.symm, e.2.symm⟩

/-- **C67** `stol`, `stoll` of any string in any base from 2 to 36, or 0: the number the string begins with, clipped to the range of
the type, and how many characters it took; 0 and 0 if the string begins with no number. Nothing beyond the terminator is looked at. -/
theorem stol_spec {h : Heap Byte} {o : Obj} {s : List Byte} {base : Int} (r : SRep h o s) (hb : base = 0 ∨ 2 ≤ base ∧ base ≤ 36) :
    (∀ g v n, Begins s base g v n → stol h o base = some (max (-(2 ^ 63)) (min (g.app v) (2 ^ 63 - 1)), n)) ∧
    ((¬ ∃ g v n, Begins s base g v n) → stol h o base = some (0, 0)) := by
  refine ⟨fun g v n hs => ?_, fun hs => stoX_nothing r hb hs⟩
  rw [stol, stoX_begins r hs]
  simp only [longOf, clip, Sign.app, decide_eq_true_eq]

/-- **C67** `stoul`, `stoull`: the number, or the greatest value of the type if the digits are out of range; a minus negates it modulo
2^64, as in C. -/
theorem stoul_spec {h : Heap Byte} {o : Obj} {s : List Byte} {base : Int} (r : SRep h o s) (hb : base = 0 ∨ 2 ≤ base ∧ base ≤ 36) :
    (∀ g v n, Begins s base g v n → stoul h o base = some (if v < 2 ^ 64 then g.app v % 2 ^ 64 else 2 ^ 64 - 1, n)) ∧
    ((¬ ∃ g v n, Begins s base g v n) → stoul h o base = some (0, 0)) := by
  refine ⟨fun g v n hs => ?_, fun hs => stoX_nothing r hb hs⟩
  rw [stoul, stoX_begins r hs]
  simp only [ulongOf, Sign.app, decide_eq_true_eq]
  by_cases hv : v < 2 ^ 64
  · rw [if_neg (by omega), if_pos hv]
    by_cases hg : g = .minus
    · simp only [if_pos hg]
    · simp only [if_neg hg]
      congr 2; omega
  · rw [if_pos (by omega), if_neg hv]

/-- **C67 (partial)** `stoi`: the number, if it is in the range of `int`. Missing: the others (`stoi_violated`). -/
theorem stoi_partial {h : Heap Byte} {o : Obj} {s : List Byte} {base : Int} (r : SRep h o s) (hb : base = 0 ∨ 2 ≤ base ∧ base ≤ 36) :
    (∀ g v n, Begins s base g v n → -(2 ^ 31) ≤ g.app v → g.app v < 2 ^ 31 → stoi h o base = some (g.app v, n)) ∧
    ((¬ ∃ g v n, Begins s base g v n) → stoi h o base = some (0, 0)) := by
  refine ⟨fun g v n hs h1 h2 => ?_, fun hs => stoX_nothing r hb hs⟩
  rw [stoi, stoX_begins r hs]
  have e : longOf (some (decide (g = .minus), v)) = g.app v := by
    simp only [longOf, clip, Sign.app, decide_eq_true_eq] at h1 h2 ⊢
    omega
  simp only [e, toS]
  congr 2
  omega

/-- **C67** with a base that is not 0 and not from 2 to 36 nothing is promised: C leaves `strtol` undefined. -/
theorem sto_base (f : Option (Bool × Nat) → Int) (h : Heap Byte) (o : Obj) {base : Int} (hb : base < 0 ∨ base = 1 ∨ 36 < base) :
    stoX f h o base = none := by
  unfold stoX
  cases memFrom h o.ptr with
  | none => rfl
  | some m => simp only [scan, if_pos hb]

/-! ## to_string -/

theorem fmt_conv (t : NumTy) (v : Int) (hv : t.has v) : ∃ k, parseConv t.fmt = some k ∧ convPrint k v = numeral v := by
  have pr : ∀ (n : Nat) (c : Byte), convPrint { bits := n, conv := c } v =
      (convText { bits := n, conv := c } v).1 ++ (convText { bits := n, conv := c } v).2 := by
    intro n c
    simp [convPrint]
  have sg : ∀ n, toS n v = v → convPrint { bits := n, conv := 100 } v = numeral v := by
    intro n e
    rw [pr]
    simp only [convText, if_true, e, Bool.false_eq_true, if_false, numeral, Ustl.Text.digs_toDigits 10 (by decide) (by decide)]
  have us : ∀ n, (toU n v : Int) = v → convPrint { bits := n, conv := 117 } v = numeral v := by
    intro n e
    rw [pr]
    have h1 : ¬ v < 0 := by omega
    have h2 : v.natAbs = toU n v := by omega
    have : (117 : Byte) ≠ 100 := by decide
    simp only [convText, if_neg this, if_true, numeral, Ustl.Text.digs_toDigits 10 (by decide) (by decide), if_neg h1, h2]
  cases t with
  | int => exact ⟨{ bits := 32, conv := 100 }, rfl, sg 32 (by simp only [toS, NumTy.has] at *; omega)⟩
  | unsigned => exact ⟨{ bits := 32, conv := 117 }, rfl, us 32 (by simp only [toU, NumTy.has] at *; omega)⟩
  | long => exact ⟨{ bits := 64, conv := 100 }, rfl, sg 64 (by simp only [toS, NumTy.has] at *; omega)⟩
  | ulong => exact ⟨{ bits := 64, conv := 117 }, rfl, us 64 (by simp only [toU, NumTy.has] at *; omega)⟩
  | llong => exact ⟨{ bits := 64, conv := 100 }, rfl, sg 64 (by simp only [toS, NumTy.has] at *; omega)⟩
  | ullong => exact ⟨{ bits := 64, conv := 117 }, rfl, us 64 (by simp only [toU, NumTy.has] at *; omega)⟩

/-- **C67** `to_string` of any value of any of its integer types: a string with the decimal numeral (in at most two rounds of
formatting, though the buffer starts with 15 characters), or `bad_alloc` if the allocator refused; either way no other memory is
touched and none is lost. -/
theorem to_string_spec (t : NumTy) (v : Int) (hv : t.has v) (fuel : Nat) {h : Heap Byte} (hh : HOK h) (hl : HasLit lit h)
    (a : Option (Nat → Byte)) (asks : Nat → Option (Nat → Byte)) :
    (∃ h' o', toString lit t v (fuel + 2) h a asks = some (true, h', o') ∧ Eff h Obj.empty h' o' ∧ SRep h' o' (numeral v)) ∨
    ((a = none ∨ ∃ n, asks n = none) ∧ ∃ h', toString lit t v (fuel + 2) h a asks = some (false, h', Obj.empty) ∧
      Eff h Obj.empty h' Obj.empty) := by
  obtain ⟨k, hk, hp⟩ := fmt_conv t v hv
  unfold toString
  rw [hk]
  simp only [hp]
  rcases ctorFill_s 15 0 a hh with ⟨d1, d2⟩ | ⟨h1, o1, d1, d2, d3⟩
  · right
    rw [d2]
    exact ⟨.inl d1, h, rfl, Eff.refl hh (empty_ook h)⟩
  · rw [d1]
    simp only
    have hl1 : HasLit lit h1 := hl.keep fun _ _ h2 h3 => d2.toEff0.foreign hh (empty_ook h) h2 h3
    have hne : numeral v ≠ [] := by
      have := Nat.toDigits_ne_nil (b := 10) (n := v.natAbs)
      simp [numeral, this]
    rcases format_partial (lit := lit) fuel asks d2.hok d3 hl1 (.inr hne) with ⟨f1, h2, o2, f2, f3⟩ | ⟨h2, o2, f1, f2, f3⟩
    · right
      rw [f2]
      obtain ⟨h3, g1, g2, _⟩ := deallocate_spec f3.hok f3.ook
      simp only [g1]
      exact ⟨.inr f1, h3, rfl, (d2.trans f3).trans g2⟩
    · left
      rw [f1]
      exact ⟨h2, o2, rfl, d2.trans f2, f3⟩

theorem numeral_begins (v : Int) : Begins (numeral v) 10 (if v < 0 then .minus else .none) v.natAbs (numeral v).length := by
  have hd := Ustl.Text.digs_isDigit 10 false (by decide) (by decide) v.natAbs
  refine ⟨[], [], digs 10 false v.natAbs, [], 10, ?_, ?_, by simp, .given 10 rfl (by decide) (by decide) (by intro h; simp at h),
    Ustl.Text.digs_ne _ _ _, hd, by simp, ?_⟩
  · unfold numeral
    rw [Ustl.Text.digs_toDigits 10 (by decide) (by decide)]
    split <;> simp [Sign.raw]
  · unfold numeral
    rw [Ustl.Text.digs_toDigits 10 (by decide) (by decide)]
    split <;> simp [Sign.raw]
  · rw [← digitsVal_ofDigits, Ustl.Text.digitsVal_digs 10 false (by decide) (by decide)]

/-- **C67** a string that holds the numeral of a value reads back as the value, and all of it is read: `stoi` for the values of `int`,
`stol` and `stoll` for those of `long` and `unsigned`, `stoul` and `stoull` for those of `unsigned long` and `unsigned`. -/
theorem numeral_sto {h : Heap Byte} {o : Obj} {v : Int} (r : SRep h o (numeral v)) :
    (NumTy.int.has v → stoi h o 10 = some (v, o.size)) ∧ (NumTy.long.has v → stol h o 10 = some (v, o.size)) ∧
    (NumTy.ulong.has v → stoul h o 10 = some (v, o.size)) := by
  have hb := numeral_begins v
  rw [r.size]
  have ev : Sign.app (if v < 0 then .minus else .none) v.natAbs = v := by
    by_cases hv : v < 0
    · rw [if_pos hv]; simp only [Sign.app, if_true]; omega
    · rw [if_neg hv]
      have : Sign.app .none v.natAbs = (v.natAbs : Int) := rfl
      rw [this]; omega
  refine ⟨fun h1 => ?_, fun h1 => ?_, fun h1 => ?_⟩
  · have := (stoi_partial r (.inr (by omega))).1 _ _ _ hb (by rw [ev]; exact h1.1) (by rw [ev]; exact h1.2)
    rw [this, ev]
  · rw [(stol_spec r (.inr (by omega))).1 _ _ _ hb, ev]
    simp only [NumTy.has] at h1
    congr 2; omega
  · rw [(stoul_spec r (.inr (by omega))).1 _ _ _ hb, ev]
    simp only [NumTy.has] at h1
    rw [if_pos (by omega)]
    congr 2; omega

/-- **C67** the round trip: what `to_string` returns, given to the function of the same type, is the value again. -/
theorem to_string_round_trip (t : NumTy) (v : Int) (hv : t.has v) (fuel : Nat) {h : Heap Byte} (hh : HOK h) (hl : HasLit lit h)
    (junk : Nat → Byte) (junks : Nat → Nat → Byte) :
    ∃ h' o', toString lit t v (fuel + 2) h (some junk) (fun n => some (junks n)) = some (true, h', o') ∧
      match t with
      | .int => stoi h' o' 10 = some (v, o'.size)
      | .unsigned | .ulong | .ullong => stoul h' o' 10 = some (v, o'.size)
      | .long | .llong => stol h' o' 10 = some (v, o'.size) := by
  rcases to_string_spec t v hv fuel hh hl (some junk) (fun n => some (junks n)) with ⟨h', o', e1, e2, e3⟩ | ⟨h1, _⟩
  · refine ⟨h', o', e1, ?_⟩
    have k := numeral_sto e3
    cases t with
    | int => exact k.1 hv
    | unsigned => exact k.2.2 ⟨hv.1, by have := hv.2; omega⟩
    | long => exact k.2.1 hv
    | ulong => exact k.2.2 hv
    | llong => exact k.2.1 hv
    | ullong => exact k.2.2 hv
  · rcases h1 with h1 | ⟨n, h1⟩ <;> cases h1

/-! ## Disagreements and instances -/

/-- A string linked to foreign memory. -/
def exText (s : List Byte) : Heap Byte × Obj := (⟨fun k => if k = 0 then some ⟨false, s ++ [0, 49, 50]⟩ else none, 1⟩, ⟨some (0, 0), s.length, 0⟩)

theorem exText_srep (s : List Byte) : SRep (exText s).1 (exText s).2 s := by
  have h := CString.srep (h := (exText s).1) (p := (0, 0)) (n := s.length) ⟨_, rfl, rfl, by simp⟩
  have e : foreign (exText s).1 (0, 0) s.length = s := by simp [foreign, exText]
  rw [e] at h
  exact h

/-- **C67 violated** `stoi` of a number that is not an `int` is neither clipped nor refused: `stoi ("4294967297")` is 1 and
`stoi ("2147483648")` is -2147483648 (std::stoi throws `out_of_range`), and the position says all was read. -/
theorem stoi_violated :
    stoi (exText [52, 50, 57, 52, 57, 54, 55, 50, 57, 55]).1 (exText [52, 50, 57, 52, 57, 54, 55, 50, 57, 55]).2 10 = some (1, 10) ∧
    stoi (exText [50, 49, 52, 55, 52, 56, 51, 54, 52, 56]).1 (exText [50, 49, 52, 55, 52, 56, 51, 54, 52, 56]).2 10 =
      some (-2147483648, 10) := by
  constructor <;> decide +kernel

/-- `stol_spec` and the others on `" -0x1fg"` in base 0: -31, and 6 characters were read. -/
example : SRep (exText [32, 45, 48, 120, 49, 102, 103]).1 (exText [32, 45, 48, 120, 49, 102, 103]).2 [32, 45, 48, 120, 49, 102, 103] ∧
    Begins [32, 45, 48, 120, 49, 102, 103] 0 .minus 31 6 ∧
    stol (exText [32, 45, 48, 120, 49, 102, 103]).1 (exText [32, 45, 48, 120, 49, 102, 103]).2 0 = some (-31, 6) := by
  have hb : Begins [32, 45, 48, 120, 49, 102, 103] 0 .minus 31 6 :=
    ⟨[32], [48, 120], [49, 102], [103], 16, rfl, rfl, by decide, .hex 120 (.inl rfl) (.inl rfl), by decide, by decide, by decide, by decide⟩
  exact ⟨exText_srep _, hb, (stol_spec (exText_srep _) (.inl rfl)).1 _ _ _ hb⟩

/-- `"0x"` in base 16 is a 0 followed by an x; a text that begins with no number gives 0 and 0. -/
example : stol (exText [48, 120]).1 (exText [48, 120]).2 16 = some (0, 1) ∧ stol (exText [32, 43]).1 (exText [32, 43]).2 10 = some (0, 0) := by
  constructor <;> decide +kernel

/-- `to_string_spec` on a 20-character numeral, which the 15-character buffer does not hold. -/
example : ∃ h' o', toString (0, 0) .long (-(2 ^ 63)) 2 (exText []).1 (some fun _ => 7) (fun _ => some fun _ => 7) = some (true, h', o') ∧
    SRep h' o' [45, 57, 50, 50, 51, 51, 55, 50, 48, 51, 54, 56, 53, 52, 55, 55, 53, 56, 48, 56] := by
  have hh : HOK (exText []).1 := by
    intro k hk
    have : k ≠ 0 := by rintro rfl; exact absurd hk (by decide)
    simp [exText, this]
  rcases to_string_spec (lit := (0, 0)) .long (-(2 ^ 63)) (by simp [NumTy.has]) 0 hh ⟨_, rfl, rfl, rfl⟩ (some fun _ => 7)
    (fun _ => some fun _ => 7) with ⟨h', o', e1, _, e3⟩ | ⟨h1, _⟩
  · exact ⟨h', o', e1, e3⟩
  · rcases h1 with h1 | ⟨n, h1⟩ <;> cases h1

end Ustl.Str
