import Verif.StrFind.Props
/-!
# C27: the other comparisons: parts of strings, C strings, characters
-/
namespace Ustl.StrFind
open Ustl.Str (Byte)

/-! ## Model -/

/-- `iat (pos)` as an offset. Models ustring.h:92. -/
def iat (n pos : Nat) : Nat := min pos n

/-- The characters `[iat (pos), iat (pos + len))`; the sum is computed in 64 bits. Models ustring.h:92, 125. -/
def part (s : List Byte) (pos len : Nat) : Option (List Byte) :=
  let b := iat s.length pos
  let e := iat s.length ((pos + len) % 2 ^ 64)
  if e < b then none else some ((s.drop b).take (e - b))

/-- `compare (start, len, s)`. `none` is a negative range. Models ustring.h:125. -/
def comparePart (mc : List Byte → List Byte → Int) (s : List Byte) (pos len : Nat) (t : List Byte) : Option Int :=
  (part s pos len).map fun x => compare mc x t

/-- `compare (s1, l1, s, s2, l2)`. Models ustring.h:126. -/
def compareParts (mc : List Byte → List Byte → Int) (s : List Byte) (s1 l1 : Nat) (t : List Byte) (s2 l2 : Nat) : Option Int :=
  match part s s1 l1, part t s2 l2 with
  | some x, some y => some (compare mc x y)
  | _, _ => none

/-- `operator< (const char*)`: `c` is the text before its NUL. Models ustring.h:153, 127. -/
def ltPtr (mc : List Byte → List Byte → Int) (s c : List Byte) : Bool := 0 > compare mc s c

/-- `operator> (const char*)`. Models ustring.h:156, 127. -/
def gtPtr (mc : List Byte → List Byte → Int) (s c : List Byte) : Bool := 0 < compare mc s c

/-- `operator== (char)`. Models ustring.h:146. -/
def eqChar (s : List Byte) (c : Byte) : Bool := s.length == 1 && (match s with | x :: _ => c == x | [] => false)

/-- `operator< (char)`. Models ustring.h:154. -/
def ltChar (mc : List Byte → List Byte → Int) (s : List Byte) (c : Byte) : Bool := 0 > compare mc s [c]

/-- `operator== (const char* s1, const string& s2)`: `s2 == s1`. Models ustring.h:302. -/
def ptrEq (mc : List Byte → List Byte → Int) (c s : List Byte) : Bool := eqPtr mc s c

/-- `operator!= (const char*, const string&)`: `s2 != s1`. Models ustring.h:303, 149. -/
def ptrNe (mc : List Byte → List Byte → Int) (c s : List Byte) : Bool := !eqPtr mc s c

/-- `operator< (const char*, const string&)`: `s2 > s1`. Models ustring.h:304. -/
def ptrLt (mc : List Byte → List Byte → Int) (c s : List Byte) : Bool := gtPtr mc s c

/-- `operator> (const char*, const string&)`: `s2 < s1`. Models ustring.h:306. -/
def ptrGt (mc : List Byte → List Byte → Int) (c s : List Byte) : Bool := ltPtr mc s c

/-- `operator<= (const char*, const string&)`: `s2 >= s1`. There is no `operator>=` for a string and a `const char*` (the template of
uutility.h:204-206 needs both sides of one type), so the string is converted by `operator const value_type*` (ustring.h:131, 268-272) and
the two *pointers* are compared: the arguments are the addresses. Models ustring.h:305. -/
def ptrLe (cAddr sAddr : Nat) : Bool := sAddr ≥ cAddr

/-- `operator>= (const char*, const string&)`: `s2 <= s1`; as for `ptrLe`. Models ustring.h:307. -/
def ptrGe (cAddr sAddr : Nat) : Bool := sAddr ≤ cAddr

/-! ## Theorems -/

theorem part_eq (s : List Byte) {pos len : Nat} (h : pos + len < 2 ^ 64) : part s pos len = some ((s.drop pos).take len) := by
  unfold part iat
  rw [Nat.mod_eq_of_lt h]
  simp only
  rw [if_neg (by omega), Option.some.injEq]
  rcases Nat.lt_or_ge s.length pos with h1 | h1
  · rw [List.drop_of_length_le (by omega), List.drop_of_length_le (by omega)]; simp
  · rw [Nat.min_eq_left h1, List.take_eq_take_iff]; simp only [List.length_drop]; omega

/-- **C27 (partial)** comparing parts of strings is comparing the substrings: positions and lengths beyond the end are clamped. Missing: position
plus length over 64 bits (`compare_part_violated`), and strings over `2^31` characters (`compare_long_violated`). -/
theorem compare_part_partial {mc : List Byte → List Byte → Int} (hm : MemcmpOK mc) (s t : List Byte) {s1 l1 s2 l2 : Nat}
    (h1 : s1 + l1 < 2 ^ 64) (h2 : s2 + l2 < 2 ^ 64) (hs : s.length ≤ npos) (ht : t.length ≤ npos) :
    (∃ c, compareParts mc s s1 l1 t s2 l2 = some c ∧ (c < 0 ↔ LexLt ((s.drop s1).take l1) ((t.drop s2).take l2)) ∧
      (c = 0 ↔ (s.drop s1).take l1 = (t.drop s2).take l2) ∧ (0 < c ↔ LexLt ((t.drop s2).take l2) ((s.drop s1).take l1))) ∧
    (∃ c, comparePart mc s s1 l1 t = some c ∧ (c < 0 ↔ LexLt ((s.drop s1).take l1) t) ∧ (c = 0 ↔ (s.drop s1).take l1 = t) ∧
      (0 < c ↔ LexLt t ((s.drop s1).take l1))) := by
  have e1 : ((s.drop s1).take l1).length ≤ npos := by simp only [List.length_take, List.length_drop]; omega
  have e2 : ((t.drop s2).take l2).length ≤ npos := by simp only [List.length_take, List.length_drop]; omega
  exact ⟨⟨_, by rw [compareParts, part_eq s h1, part_eq t h2], compare_lex_partial hm _ _ e1 e2⟩,
    ⟨_, by rw [comparePart, part_eq s h1]; rfl, compare_lex_partial hm _ _ e1 ht⟩⟩

/-- **C27 violated** `compare (1, SIZE_MAX, s)`, where `std::string::npos` would mean "to the end", makes a negative range. -/
theorem compare_part_violated (mc : List Byte → List Byte → Int) (x y : Byte) (s t : List Byte) :
    comparePart mc (x :: y :: s) 1 (2 ^ 64 - 1) t = none := by
  have : (1 + (2 ^ 64 - 1)) % 2 ^ 64 = 0 := by decide
  simp only [comparePart, part, this, iat, Nat.zero_min, List.length_cons]
  rw [if_pos (by omega)]
  rfl

/-- **C27 (partial)** comparing with a C string on either side, by `==`, `!=`, `<`, `>`, is comparing the texts; so is comparing with a character. Missing:
`<=` and `>=` with the C string on the left (`ptr_le_violated`), and strings over `2^31` characters. -/
theorem ptr_cmp_partial {mc : List Byte → List Byte → Int} (hm : MemcmpOK mc) (s c : List Byte) (x : Byte) (hs : s.length ≤ npos)
    (hc : c.length ≤ npos) :
    (ltPtr mc s c = true ↔ LexLt s c) ∧ (gtPtr mc s c = true ↔ LexLt c s) ∧ (ptrEq mc c s = true ↔ c = s) ∧ (ptrNe mc c s = true ↔ c ≠ s) ∧
    (ptrLt mc c s = true ↔ LexLt c s) ∧ (ptrGt mc c s = true ↔ LexLt s c) ∧ (eqChar s x = true ↔ s = [x]) ∧
    (ltChar mc s x = true ↔ LexLt s [x]) := by
  have k := compare_lex_partial hm s c hs hc
  have kx := compare_lex_partial hm s [x] hs (by simp [npos])
  have ke := (eq_iff hm s c).2
  have l1 : ltPtr mc s c = true ↔ LexLt s c := by rw [← k.1]; simp [ltPtr]
  have l2 : gtPtr mc s c = true ↔ LexLt c s := by rw [← k.2.2]; simp [gtPtr]
  refine ⟨l1, l2, ?_, ?_, l2, l1, ?_, ?_⟩
  · rw [ptrEq, ke]; exact eq_comm
  · have : ptrNe mc c s = true ↔ ¬ eqPtr mc s c = true := by simp [ptrNe]
    rw [this, ke]; exact not_congr eq_comm
  · match s with
    | [] => simp [eqChar]
    | [y] =>
      simp only [eqChar, List.length_singleton, beq_self_eq_true, Bool.true_and, beq_iff_eq, List.cons.injEq, and_true]
      exact eq_comm
    | y :: z :: s => simp [eqChar]
  · rw [← kx.1]; simp [ltChar]

/-- **C27 violated** `"ab" <= s` and `"ab" >= s` compare addresses: where the string holds the same text at a lower (or higher) address, one of
them is false, and a different text at a higher address is "less" whatever it is. -/
theorem ptr_le_violated : (∃ cAddr sAddr, ptrLe cAddr sAddr = false) ∧ (∃ cAddr sAddr, ptrGe cAddr sAddr = false) ∧
    ∀ cAddr sAddr, cAddr ≠ sAddr → (ptrLe cAddr sAddr = !ptrGe cAddr sAddr) := by
  refine ⟨⟨1, 0, rfl⟩, ⟨0, 1, rfl⟩, ?_⟩
  intro a b h
  rcases Nat.lt_or_ge a b with h1 | h1
  · simp [ptrLe, ptrGe, Nat.le_of_lt h1, Nat.not_le.2 h1]
  · have h2 : b < a := by omega
    simp [ptrLe, ptrGe, Nat.le_of_lt h2, Nat.not_le.2 h2]

/-- The middle of one string against the end of another. -/
example : compareParts exMemcmp [97, 98, 99, 100] 1 2 [98, 99] 0 99 = some 0 ∧ comparePart exMemcmp [97, 98, 99] 1 1 [99] = some (-1) ∧
    ltPtr exMemcmp [97] [98] = true ∧ ptrLt exMemcmp [97] [98] = true ∧ eqChar [97] 97 = true := by decide

end Ustl.StrFind
