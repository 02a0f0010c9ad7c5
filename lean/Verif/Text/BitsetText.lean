import Verif.Text.History
import Verif.Bitset.Props
/-! # bitset as text (C81) -/
namespace Ustl.Text
open Ustl.Stream

/-- A character of a bit string. -/
def bitByte (c : Char) : Byte := UInt8.ofNat c.toNat

/-- `bitset::text_write`. Models ubitset.h:126. -/
def bitsWrite (size : Nat) (ws : List Bitset.Word) : M TOS Unit := match Bitset.toString' size ws with
  | none => ub
  | some cs => Text.write (cs.map bitByte)

/-- Set a bit, or not: `set (i, c == '1')`. Models uspecial.h:122. -/
def bitsPut (ws : List Bitset.Word) (i : Nat) (c : Byte) : M TIS (List Bitset.Word) := match Bitset.set ws i (c == 49) with
  | none => ub
  | some ws' => pure ws'

/-- The body of the loop, if the stream is good. Models uspecial.h:121-122. -/
def bitsStep (k : List Bitset.Word → M TIS (List Bitset.Word)) (i : Nat) (ws : List Bitset.Word) (c : Byte) (st : Nat) : M TIS (List Bitset.Word) :=
  if st = 0 then do
    let ws' ← bitsPut ws i c
    k ws'
  else pure ws

/-- One round of the loop of `bitset::text_read`. Models uspecial.h:121-122. -/
def bitsRound (k : List Bitset.Word → M TIS (List Bitset.Word)) (i : Nat) (ws : List Bitset.Word) : M TIS (List Bitset.Word) := do
  let c ← skipDelims
  let st ← look fun s : TIS => s.is.ios.state
  bitsStep k i ws c st

/-- The loop of `bitset::text_read`, from bit `n - 1` down. Models uspecial.h:121-122. -/
def bitsLoop : Nat → List Bitset.Word → M TIS (List Bitset.Word)
  | 0, ws => pure ws
  | i + 1, ws => bitsRound (bitsLoop i) i ws

/-- `bitset::text_read`. Models uspecial.h:116-123. -/
def bitsRead (size : Nat) (ws : List Bitset.Word) : M TIS (List Bitset.Word) := bitsLoop size ws

/-! ## Specification -/

/-- The text of `n` bits, the last one first. -/
def bitsText (c : Nat → Bool) : Nat → List Byte
  | 0 => []
  | n + 1 => (if c n then 49 else 48) :: bitsText c n

theorem bitsText_chars (c : Nat → Bool) (n : Nat) : (Bitset.chars c 0 n).map bitByte = bitsText c n := by
  induction n with
  | zero => rfl
  | succ n ih =>
    rw [Bitset.chars_add c n 1 0, List.map_append, ih]
    have : (Bitset.chars c (0 + n) 1).map bitByte = [if c n then 49 else 48] := by
      simp only [Bitset.chars, Nat.zero_add]
      cases c n <;> rfl
    rw [this]
    rfl

theorem bitsText_length (c : Nat → Bool) (n : Nat) : (bitsText c n).length = n := by
  induction n with
  | zero => rfl
  | succ n ih => rw [bitsText, List.length_cons, ih]

theorem bitsText_congr {c d : Nat → Bool} (n : Nat) (h : ∀ i, i < n → c i = d i) : bitsText c n = bitsText d n := by
  induction n with
  | zero => rfl
  | succ n ih => rw [bitsText, bitsText, h n (by omega), ih fun i hi => h i (by omega)]

/-- **C81**: a bitset is written as its bits, the last one first. -/
theorem bitset_text {size : Nat} (h0 : 0 < size) {ws : List Bitset.Word} {c : Nat → Bool} (hr : Bitset.Rep size ws c) {s : TOS} (h : s.Ok)
    (hl : s.text.length + size + 1 < 2 ^ 31) : ∃ s', bitsWrite size ws s = .ret () s' ∧ Wrote s s' (bitsText c size) := by
  have e : Bitset.toString' size ws = some (Bitset.chars c 0 size) := by
    have hw := Bitset.nWords_spec size h0
    unfold Bitset.toString'
    obtain ⟨e, he⟩ := Bitset.toStr_spec ws (List.replicate size '0') []
    simp only [List.append_nil, List.length_replicate] at he
    rw [he, hr.1, show min (32 * Bitset.nWords size) size = size by omega, show size - 32 * Bitset.nWords size = 0 by omega]
    simp only [List.take_zero, List.nil_append, Option.map_some]
    exact congrArg some (Bitset.chars_congr _ _ _ fun i hi => by rw [Nat.zero_add, hr.2 i hi])
  unfold bitsWrite
  rw [e]
  simp only
  rw [bitsText_chars]
  exact write_ok' h _ (by rw [bitsText_length]; omega)

theorem bitsStep_ok (k : List Bitset.Word → M TIS (List Bitset.Word)) {i : Nat} {ws ws' : List Bitset.Word} {c : Byte} {s' : TIS} {st : Nat}
    (hg : st = 0) (e2 : bitsPut ws i c s' = .ret ws' s') : bitsStep k i ws c st s' = k ws' s' := by
  unfold bitsStep
  rw [if_pos hg, M.bind_ret e2]

theorem bitsRound_ok (k : List Bitset.Word → M TIS (List Bitset.Word)) {i : Nat} {ws ws' : List Bitset.Word} {c : Byte} {s s' : TIS} (e1 : skipDelims s = .ret c s')
    (hg : s'.is.ios.state = 0) (e2 : bitsPut ws i c s' = .ret ws' s') : bitsRound k i ws s = k ws' s' := by
  have e : bitsRound k i ws = (skipDelims >>= fun c => look (fun s : TIS => s.is.ios.state) >>= fun st => bitsStep k i ws c st) := rfl
  rw [e]
  exact (M.bind_ret e1).trans ((M.bind_ret (look_eq _ _)).trans (bitsStep_ok k hg e2))

theorem bitsLoop_ok {size : Nat} (h0 : 0 < size) (c : Nat → Bool) : ∀ (n : Nat), n ≤ size → ∀ {ws : List Bitset.Word} {d : Nat → Bool}, Bitset.Rep size ws d →
    ∀ {s : TIS} {rest : List Byte}, s.Ok → s.is.ios.state = 0 → s.isDelim 48 = false → s.isDelim 49 = false → s.unread = bitsText c n ++ rest →
    ∃ ws', bitsLoop n ws s = .ret ws' (s.adv n) ∧ Bitset.Rep size ws' (fun i => if i < n then c i else d i) := by
  intro n
  induction n with
  | zero =>
    intro _ ws d hr s rest h _ _ _ _
    exact ⟨ws, rfl, hr.1, fun i hi => by rw [hr.2 i hi]; simp⟩
  | succ n ih =>
    intro hn ws d hr s rest h hg d0 d1 hu
    rw [bitsText, List.cons_append] at hu
    have hc : s.isDelim (if c n then 49 else 48) = false := by cases c n <;> simp [d0, d1]
    have e1 := skipDelims_ok h (ds := []) hu (by simp) hc
    simp only [List.length_nil, Nat.zero_add] at e1
    have ha := h.adv (l := [if c n then 49 else 48]) (by rw [hu]; rfl)
    simp only [List.length_singleton] at ha
    obtain ⟨ws1, e2, r2, _⟩ := Bitset.set_rep h0 hr (n := n) (by omega) (c n)
    obtain ⟨ws2, e3, r3⟩ := ih (by omega) r2 ha.1 hg d0 d1 ha.2
    have eput : bitsPut ws n (if c n then 49 else 48) (s.adv 1) = .ret ws1 (s.adv 1) := by
      unfold bitsPut
      have : ((if c n then 49 else 48 : Byte) == 49) = c n := by cases c n <;> rfl
      rw [this, e2]
      rfl
    refine ⟨ws2, ?_, r3.1, fun i hi => ?_⟩
    · rw [bitsLoop]
      rw [bitsRound_ok _ e1 hg eput, e3, TIS.adv_adv, Nat.add_comm 1 n]
    · rw [r3.2 i hi]
      dsimp only
      by_cases h1 : i < n
      · rw [if_pos h1, if_pos (by omega)]
      · by_cases h2 : i = n
        · rw [if_neg h1, if_pos h2, if_pos (by omega), h2]
        · rw [if_neg h1, if_neg h2, if_neg (by omega)]

/-- **C81**: reading the text of a bitset gives every bit its value, whatever the bitset was before, and takes exactly that text. -/
theorem bitset_read {size : Nat} (h0 : 0 < size) (c : Nat → Bool) {ws : List Bitset.Word} {d : Nat → Bool} (hr : Bitset.Rep size ws d)
    {s : TIS} {rest : List Byte} (h : s.Ok) (hg : s.is.ios.state = 0) (d0 : s.isDelim 48 = false) (d1 : s.isDelim 49 = false) (hu : s.unread = bitsText c size ++ rest) :
    ∃ ws' s', bitsRead size ws s = .ret ws' s' ∧ Bitset.Rep size ws' c ∧ s'.unread = rest := by
  obtain ⟨ws', e3, r3⟩ := bitsLoop_ok h0 c size (Nat.le_refl _) hr h hg d0 d1 hu
  refine ⟨ws', _, e3, ⟨r3.1, fun i hi => by rw [r3.2 i hi]; simp [hi]⟩, ?_⟩
  have := (h.adv hu).2
  rwa [bitsText_length] at this

/-- **C81**: what one bitset wrote, another of the same size reads back. -/
theorem bitset_roundtrip {size : Nat} (h0 : 0 < size) {ws vs : List Bitset.Word} {c d : Nat → Bool} (hr : Bitset.Rep size ws c) (hd : Bitset.Rep size vs d)
    (hl : size + 1 < 2 ^ 31) (j : Nat → Byte) : ∃ o o' t ws' s', bitsWrite size ws (.ofString [] j) = .ret () o ∧ str o = .ret t o' ∧
      bitsRead size vs (.mk' t) = .ret ws' s' ∧ Bitset.Rep size ws' c ∧ s'.unread = [] := by
  obtain ⟨k1, k2, _⟩ := new_ok j
  obtain ⟨o, e1, w⟩ := bitset_text h0 hr k1 (by rw [k2]; simpa using hl)
  obtain ⟨o', e2, _⟩ := str_ok w.ok
  rw [w.text, k2, List.nil_append] at e2
  have hok : (TIS.mk' (bitsText c size)).Ok := ⟨Nat.zero_le _, by
    show (bitsText c size).length < 2 ^ 32
    rw [bitsText_length]; omega, rfl, (by decide : (delimArray defaultDelims).length = 16)⟩
  have hu : (TIS.mk' (bitsText c size)).unread = bitsText c size ++ [] := by rw [List.append_nil]; rfl
  obtain ⟨ws', s', e3, r3, u3⟩ := bitset_read h0 c hd hok rfl rfl rfl hu
  exact ⟨o, o', _, ws', s', e1, e2, e3, r3, u3⟩

/-- **C81** (negative result): a text shorter than the bitset does not set the low bits, as `101` for 5 would, but the high ones: reading
`101` into a `bitset<8>` of zeros gives 160. -/
theorem bitset_short_violated : (match bitsRead 8 [0#32] (.mk' [49, 48, 49]) with
    | .ret ws _ => decide (ws = [160#32])
    | _ => false) = true := by decide +kernel

/-- **C81** (negative result): characters other than `0` and `1` do not end the number; they are taken for zeros. -/
theorem bitset_junk_violated : (match bitsRead 3 [255#32] (.mk' [50, 120, 49]) with
    | .ret ws s => decide (ws = [249#32] ∧ s.is.ios.state = 0)
    | _ => false) = true := by decide +kernel

example : ∃ o o' t ws' s', bitsWrite 40 [5#32, 1#32] (.ofString []) = .ret () o ∧ str o = .ret t o' ∧ bitsRead 40 [7#32, 0#32] (.mk' t) = .ret ws' s' ∧
    Bitset.Rep 40 ws' (Bitset.bit [5#32, 1#32]) ∧ s'.unread = [] :=
  bitset_roundtrip (by decide) (c := Bitset.bit [5#32, 1#32]) (d := Bitset.bit [7#32, 0#32]) ⟨rfl, fun _ _ => rfl⟩ ⟨rfl, fun _ _ => rfl⟩ (by decide) _

end Ustl.Text
