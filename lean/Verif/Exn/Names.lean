import Verif.Exn.Model
/-! # The names and the text of backtraces: theorems for C63 -/
namespace Ustl.Exn
open Ustl.Stream

/-- A demangler whose results fit into 255 characters. -/
def Short (dm : Demangler) : Prop := ∀ n d, dm n = some d → d.length < 256

/-- The lines of a symbol table: every name and a newline. -/
def lines : List (List Byte) → List Byte
  | [] => []
  | n :: r => n ++ [10] ++ lines r

/-- The text of a backtrace: for every frame its address, as `fmt` prints it, its name and a newline. -/
def textOf (fmt : List Byte → List Byte) : List (List Byte × List Byte) → List Byte
  | [] => []
  | (a, n) :: r => fmt a ++ n ++ [10] ++ textOf fmt r

theorem strchr_none {s : List Byte} {c : Byte} (h : c ∉ s) : strchr s c = none := by
  unfold strchr
  rw [List.findIdx?_eq_none_iff]
  intro x hx
  simp only [beq_eq_false_iff_ne, ne_eq]
  rintro rfl
  exact h hx

theorem strchr_at {a b : List Byte} {c : Byte} (h : c ∉ a) : strchr (a ++ c :: b) c = some a.length := by
  induction a with
  | nil => simp [strchr, List.findIdx?_cons]
  | cons x r ih =>
    have hx : x ≠ c := fun e => h (by simp [e])
    have hr := ih (fun e => h (by simp [e]))
    unfold strchr at hr ⊢
    rw [List.cons_append, List.findIdx?_cons]
    simp [hx, hr]

theorem mnStart_at {a b : List Byte} (h : (40 : Byte) ∉ a) : mnStart (a ++ 40 :: b) = a.length + 1 := by
  unfold mnStart; rw [strchr_at h]

theorem mnStart_none {s : List Byte} (h : (40 : Byte) ∉ s) : mnStart s = 0 := by
  unfold mnStart; rw [strchr_none h]

theorem cstr_self {m : List Byte} (h : (0 : Byte) ∉ m) : cstr m = m := by
  unfold cstr
  induction m with
  | nil => rfl
  | cons x r ih =>
    have hx : x ≠ 0 := fun e => h (by simp [e])
    rw [List.takeWhile_cons, if_pos (by simpa using hx), ih (fun e => h (by simp [e]))]

theorem cstr_end {m r : List Byte} (h : (0 : Byte) ∉ m) : cstr (m ++ 0 :: r) = m := by
  unfold cstr
  induction m with
  | nil => simp
  | cons x r ih =>
    have hx : x ≠ 0 := fun e => h (by simp [e])
    rw [List.cons_append, List.takeWhile_cons, if_pos (by simpa using hx), ih (fun e => h (by simp [e]))]

theorem demangle_some {dm : Demangler} (h : Short dm) (z : Nat) (n : List Byte) : ∃ r, demangle dm z n = some r := by
  unfold demangle
  split
  · exact ⟨_, rfl⟩
  · rename_i d hd
    rw [if_pos (h n d hd)]
    exact ⟨_, rfl⟩

/-- **C63** the name of a frame printed by the C library as `file(function+offset) [address]` is the function, demangled,
if the file name has no `(` and no `+`, and the function name no `+` and at most 255 characters. -/
theorem frame_name (dm : Demangler) (file fn rest : List Byte) (h1 : (40 : Byte) ∉ file) (h2 : (43 : Byte) ∉ file)
    (h3 : (43 : Byte) ∉ fn) (h0 : (0 : Byte) ∉ fn) (hn : fn.length ≤ 255)
    (hl : (file ++ 40 :: (fn ++ 43 :: rest)).length < W) :
    extractAbiName dm (some (file ++ 40 :: (fn ++ 43 :: rest))) = demangle dm 255 fn := by
  have e1 : mnStart (file ++ 40 :: (fn ++ 43 :: rest)) = file.length + 1 := mnStart_at h1
  have e2 : strchr (file ++ 40 :: (fn ++ 43 :: rest)) 43 = some (file.length + 1 + fn.length) := by
    have := strchr_at (a := file ++ 40 :: fn) (b := rest) (c := 43) (by simp [h2, h3])
    simpa [Nat.add_assoc, Nat.add_comm, Nat.add_left_comm] using this
  have hlen : (file ++ 40 :: (fn ++ 43 :: rest)).length = file.length + 1 + fn.length + 1 + rest.length := by
    simp; omega
  unfold extractAbiName
  simp only [e1, e2, Option.getD_some]
  have e3 : (file.length + 1 + fn.length + W - (file.length + 1)) % W = fn.length := by
    rw [show file.length + 1 + fn.length + W - (file.length + 1) = fn.length + W by omega, Nat.add_mod_right]
    exact Nat.mod_eq_of_lt (by omega)
  rw [e3, Nat.min_eq_left hn, if_pos (by omega)]
  have e4 : (((file ++ 40 :: (fn ++ 43 :: rest)) ++ [0]).drop (file.length + 1)).take fn.length = fn := by
    rw [show file ++ 40 :: (fn ++ 43 :: rest) ++ [0] = (file ++ [40]) ++ (fn ++ (43 :: rest ++ [0])) by simp,
      List.drop_left' (by simp), List.take_left' rfl]
  rw [e4, cstr_self h0]

/-- The hypotheses of `frame_name` are met by `a(f+1)`. -/
example : extractAbiName (fun _ => none) (some [97, 40, 102, 43, 49, 41]) = some [102] := by
  rw [show ([97, 40, 102, 43, 49, 41] : List Byte) = [97] ++ 40 :: ([102] ++ 43 :: [49, 41]) from rfl,
    frame_name _ _ _ _ (by decide) (by decide) (by decide) (by decide) (by decide) (by simp [W])]
  rfl

/-- **C63** a frame for which the C library prints no parentheses and no offset is named by the whole text (its first
255 characters). -/
theorem frame_name_plain (dm : Demangler) (s : List Byte) (h1 : (40 : Byte) ∉ s) (h2 : (43 : Byte) ∉ s)
    (h0 : (0 : Byte) ∉ s) (hl : s.length < W) :
    extractAbiName dm (some s) = demangle dm 255 (s.take 255) := by
  unfold extractAbiName
  simp only [mnStart_none h1, strchr_none h2, Option.getD_none]
  have e3 : (s.length + W - 0) % W = s.length := by
    rw [Nat.sub_zero, Nat.add_mod_right]; exact Nat.mod_eq_of_lt hl
  rw [e3, if_pos (by omega), List.drop_zero]
  rw [List.take_append_of_le_length (by omega), cstr_self (fun e => h0 (List.mem_of_mem_take e))]
  rw [show s.take (min s.length 255) = s.take 255 from ?_]
  by_cases h : s.length ≤ 255
  · rw [Nat.min_eq_left h, List.take_of_length_le (Nat.le_refl _), List.take_of_length_le h]
  · rw [Nat.min_eq_right (by omega)]

example : extractAbiName (fun _ => none) (some [97, 98]) = some [97, 98] := by
  rw [frame_name_plain _ _ (by decide) (by decide) (by decide) (by simp [W])]
  rfl

/-- **C63** extracting a name stays inside the text the C library gave, whatever it is, as long as no `+` comes before
the first `(`. -/
theorem frame_name_safe_partial (dm : Demangler) (hd : Short dm) (s : List Byte) (hl : s.length < W)
    (h : ∀ a b, s = a ++ 43 :: b → (40 : Byte) ∉ a → (40 : Byte) ∉ b) :
    ∃ n, extractAbiName dm (some s) = some n := by
  have key : mnStart s ≤ (strchr s 43).getD s.length ∧
      (strchr s 43).getD s.length ≤ s.length := by
    by_cases hp : (40 : Byte) ∈ s
    · obtain ⟨a, b, rfl, ha⟩ := List.eq_append_cons_of_mem hp
      rw [mnStart_at ha]
      by_cases hq : (43 : Byte) ∈ a ++ 40 :: b
      · obtain ⟨c, d, e, hc⟩ := List.eq_append_cons_of_mem hq
        rw [e, strchr_at hc]
        simp only [Option.getD_some, List.length_append, List.length_cons]
        rw [List.append_eq_append_iff] at e
        rcases e with ⟨x, e1, e2⟩ | ⟨x, e1, e2⟩
        · cases x with
          | nil => simp at e2
          | cons y r => rw [e1]; simp
        · exfalso
          cases x with
          | nil => simp at e2
          | cons y r =>
            simp only [List.cons_append, List.cons.injEq] at e2
            refine h c (r ++ 40 :: b) (by rw [e1, ← e2.1]; simp) (fun m => ha (by rw [e1]; simp [m])) (by simp)
      · rw [strchr_none hq]; simp
    · rw [mnStart_none hp]
      refine ⟨Nat.zero_le _, ?_⟩
      by_cases hq : (43 : Byte) ∈ s
      · obtain ⟨c, d, rfl, hc⟩ := List.eq_append_cons_of_mem hq
        rw [strchr_at hc]; simp
      · rw [strchr_none hq]; simp
  obtain ⟨k1, k2⟩ := key
  unfold extractAbiName
  simp only
  generalize mnStart s = x at k1 ⊢
  generalize (strchr s 43).getD s.length = y at k1 k2 ⊢
  have e3 : (y + W - x) % W = y - x := by
    rw [show y + W - x = (y - x) + W by omega, Nat.add_mod_right]
    exact Nat.mod_eq_of_lt (by omega)
  rw [e3, if_pos (by omega)]
  exact demangle_some hd _ _

example : Short (fun _ => some [102, 40, 41]) ∧
    ∃ n, extractAbiName (fun _ => some [102, 40, 41]) (some [97, 40, 102, 43, 49, 41]) = some n :=
  ⟨fun n d e => by cases e; decide, frame_name_safe_partial _ (fun n d e => by cases e; decide) _ (by simp [W]) (by
    intro a b e h
    have := strchr_at (b := b) (c := 40) h
    rcases a with _ | ⟨a0, _ | ⟨a1, _ | ⟨a2, _ | ⟨a3, a⟩⟩⟩⟩ <;> simp_all
    ) ⟩

/-- **C63** a `+` before the first `(`, as in every frame inside `libstdc++.so.6(...)`, makes the length of the name
negative, and so 255: that many bytes are copied, past the end of the text unless it happens to be that long. -/
theorem frame_name_violated (dm : Demangler) (a b : List Byte) (c : List Byte) (h1 : (40 : Byte) ∉ a)
    (h2 : (43 : Byte) ∉ a) (h3 : (40 : Byte) ∉ b) (hc : c.length < 254)
    (hl : (a ++ 43 :: (b ++ 40 :: c)).length < 2 ^ 63) :
    extractAbiName dm (some (a ++ 43 :: (b ++ 40 :: c))) = none := by
  have e2 : strchr (a ++ 43 :: (b ++ 40 :: c)) 43 = some a.length := strchr_at h2
  have e1 : mnStart (a ++ 43 :: (b ++ 40 :: c)) = a.length + 1 + b.length + 1 := by
    have := mnStart_at (a := a ++ 43 :: b) (b := c) (by simp [h1, h3])
    simpa [Nat.add_assoc, Nat.add_comm, Nat.add_left_comm] using this
  have hlen : (a ++ 43 :: (b ++ 40 :: c)).length = a.length + 1 + b.length + 1 + c.length := by
    simp; omega
  rw [hlen] at hl
  unfold extractAbiName
  simp only [e1, e2, Option.getD_some]
  have e3 : (a.length + W - (a.length + 1 + b.length + 1)) % W = W - (b.length + 2) := by
    rw [show a.length + W - (a.length + 1 + b.length + 1) = W - (b.length + 2) by omega]
    exact Nat.mod_eq_of_lt (by show 2 ^ 64 - _ < 2 ^ 64; omega)
  have e4 : min (W - (b.length + 2)) 255 = 255 := Nat.min_eq_right (by show 255 ≤ 2 ^ 64 - _; omega)
  rw [e3, e4, if_neg (by omega)]

/-- `libstdc++.so.6(foo+0x1) [0x2]`, as the hypotheses of `frame_name_violated` require. -/
example : ∃ a b c : List Byte, a ++ 43 :: (b ++ 40 :: c) =
    ("libstdc++.so.6(foo+0x1) [0x2]".toList.map (fun x => UInt8.ofNat x.toNat)) ∧
    (40 : Byte) ∉ a ∧ (43 : Byte) ∉ a ∧ (40 : Byte) ∉ b ∧ c.length < 254 :=
  ⟨"libstdc".toList.map (fun x => UInt8.ofNat x.toNat), "+.so.6".toList.map (fun x => UInt8.ofNat x.toNat),
    "foo+0x1) [0x2]".toList.map (fun x => UInt8.ofNat x.toNat), by decide, by decide, by decide, by decide, by decide⟩

/-- **C63** a demangled name longer than 255 characters is reallocated by the C++ runtime, from an array on the stack:
a frame of a function with such a name destroys the heap. -/
theorem demangle_violated (dm : Demangler) (nm d : List Byte) (z : Nat) (h : dm nm = some d) (hd : 256 ≤ d.length) :
    demangle dm z nm = none := by
  unfold demangle
  rw [h]
  simp only
  rw [if_neg (by omega)]

example : demangle (fun _ => some (List.replicate 300 120)) 255 [95, 90] = none :=
  demangle_violated _ _ (List.replicate 300 120) _ rfl (by rw [List.length_replicate]; decide)

/-- **C63** a name the runtime does not demangle is left alone, a demangled one is cut at the size of the buffer less
one: it is a prefix of the demangled name and fits with its final NUL. -/
theorem demangle_exact (dm : Demangler) (z : Nat) (nm r : List Byte) (hz : 0 < z) (h : demangle dm z nm = some r) :
    (dm nm = none → r = nm) ∧ (∀ d, dm nm = some d → r <+: d ∧ r.length + 1 ≤ z ∧ (d.length < z → r = d)) := by
  unfold demangle at h
  constructor
  · intro e
    rw [e] at h
    simpa using h.symm
  · intro d e
    rw [e] at h
    simp only at h
    split at h
    · cases h
      refine ⟨List.take_prefix _ _, by rw [List.length_take]; omega, fun g => ?_⟩
      rw [Nat.min_eq_left (by omega), List.take_of_length_le (Nat.le_refl _)]
    · cases h

example : demangle (fun _ => some [102, 40, 41]) 3 [95, 90] = some [102, 40] := rfl

/-- The function `nm` gives these frames these names. -/
def NamesBy (nm : List Byte → Option (List Byte)) : List (List Byte) → List (List Byte) → Prop
  | [], [] => True
  | s :: r, n :: m => nm s = some n ∧ NamesBy nm r m
  | _, _ => False

/-- The names of frames. -/
def Names (dm : Demangler) (frames names : List (List Byte)) : Prop :=
  NamesBy (fun s => extractAbiName dm (some s)) frames names

theorem symTotal_names {nm : List Byte → Option (List Byte)} : ∀ {fr ns : List (List Byte)}, NamesBy nm fr ns →
    symTotal nm fr = some ((lines ns).length + 1)
  | [], [], _ => rfl
  | s :: r, n :: m, ⟨h1, h2⟩ => by
    unfold symTotal
    rw [h1, symTotal_names h2]
    simp [lines]; omega
  | [], _ :: _, h => h.elim
  | _ :: _, [], h => h.elim

theorem symLoop_names {nm : List Byte → Option (List Byte)} {z : Nat} : ∀ {fr ns : List (List Byte)} {acc : List Byte}, NamesBy nm fr ns →
    z = acc.length + (lines ns).length + 1 → symLoop nm z fr acc = some (acc ++ lines ns)
  | [], [], acc, _, hz => by
    unfold symLoop
    rw [if_neg (by simp [lines] at hz; omega)]
    simp [lines]
  | s :: r, n :: m, acc, ⟨h1, h2⟩, hz => by
    unfold symLoop
    have hle : (lines (n :: m)).length = n.length + 1 + (lines m).length := by simp [lines]; omega
    rw [if_pos (by omega)]
    simp only [h1]
    rw [symLoop_names (acc := acc ++ n ++ [10]) h2 (by rw [hz, hle]; simp; omega)]
    simp [lines]
  | [], _ :: _, _, h, _ => h.elim
  | _ :: _, [], _, h, _ => h.elim

/-- **C63** the symbol table of a captured backtrace is one line per frame, the names in order, each with a newline, and
its size is the size recorded; the second loop never looks for a frame beyond the last. -/
theorem capture_symbols (dm : Demangler) (addrs : List Byte) (frames names : List (List Byte))
    (h : Names dm frames names) :
    Bt.capture dm addrs frames.length (some frames) =
      some ⟨addrs, some (lines names), frames.length, (lines names).length⟩ := by
  have h' : NamesBy (fun s => extractAbiName dm (some s)) frames names := h
  have e : getSymbols dm frames = some (lines names) := by
    unfold getSymbols
    rw [symTotal_names h']
    simp only
    rw [symLoop_names (acc := []) h' (by simp), List.nil_append]
  unfold Bt.capture
  simp only [e]

/-- Two frames: `a(f+1)` and `g`. -/
theorem exNames : Names (fun _ => none) [[97, 40, 102, 43, 49, 41], [103]] [[102], [103]] :=
  ⟨by
    show extractAbiName _ (some _) = _
    rw [show ([97, 40, 102, 43, 49, 41] : List Byte) = [97] ++ 40 :: ([102] ++ 43 :: [49, 41]) from rfl,
      frame_name _ _ _ _ (by decide) (by decide) (by decide) (by decide) (by decide) (by simp [W])]
    rfl, by
    show extractAbiName _ (some _) = _
    rw [frame_name_plain _ _ (by decide) (by decide) (by decide) (by simp [W])]
    rfl, trivial⟩

example (a : List Byte) : Bt.capture (fun _ => none) a 2 (some [[97, 40, 102, 43, 49, 41], [103]]) =
    some ⟨a, some [102, 10, 103, 10], 2, 4⟩ :=
  by
    have := capture_symbols _ a _ _ exNames
    simpa only [List.length_cons, List.length_nil, lines, List.cons_append, List.nil_append, List.append_nil] using this

/-- The addresses of `n` frames, in order. -/
def slots (addrs : List Byte) : Nat → List (List Byte)
  | 0 => []
  | n + 1 => addrs.take 8 :: slots (addrs.drop 8) n

theorem textLoop_lines {fmt : List Byte → List Byte} : ∀ {ns : List (List Byte)} {addrs out : List Byte},
    (∀ n ∈ ns, (0 : Byte) ∉ n ∧ (10 : Byte) ∉ n) →
    textLoop fmt addrs ns.length (lines ns) out = some (out ++ textOf fmt ((slots addrs ns.length).zip ns))
  | [], addrs, out, _ => by simp [textLoop, lines, textOf, slots]
  | n :: m, addrs, out, h => by
    have hn := h n (by simp)
    have e : strchr (cstr (lines (n :: m))) 10 = some n.length := by
      have e1 : cstr (lines (n :: m)) = lines (n :: m) := by
        refine cstr_self ?_
        clear hn
        generalize n :: m = l at h
        induction l with
        | nil => simp [lines]
        | cons x r ih =>
          have := (h x (by simp)).1
          have := ih (fun y hy => h y (by simp [hy]))
          simp only [lines, List.mem_append, List.mem_singleton]
          rintro ((h | h) | h)
          · contradiction
          · exact absurd h (by decide)
          · contradiction
      rw [e1]
      show strchr (n ++ [10] ++ lines m) 10 = _
      rw [List.append_assoc]
      exact strchr_at hn.2
    show textLoop fmt addrs (m.length + 1) (lines (n :: m)) out = _
    unfold textLoop
    simp only [e]
    have e2 : (lines (n :: m)).drop (n.length + 1) = lines m := List.drop_left' (by simp)
    have e3 : (lines (n :: m)).take (n.length + 1) = n ++ [10] := List.take_left' (by simp)
    rw [e2, e3, textLoop_lines (fun y hy => h y (by simp [hy]))]
    simp [slots, textOf]

/-- **C63** the text of a captured backtrace has one line per frame, in order: the address, as the format prints it, the
name and a newline, provided no name has a newline or a NUL in it. -/
theorem backtrace_text_partial (dm : Demangler) (fmt : List Byte → List Byte) (addrs : List Byte)
    (frames names : List (List Byte)) (h : Names dm frames names)
    (hn : ∀ n ∈ names, (0 : Byte) ∉ n ∧ (10 : Byte) ∉ n) :
    ∃ b, Bt.capture dm addrs frames.length (some frames) = some b ∧
      b.text fmt = some (textOf fmt ((slots addrs frames.length).zip names)) := by
  refine ⟨_, capture_symbols dm addrs frames names h, ?_⟩
  have hl : frames.length = names.length := by
    clear hn
    induction frames generalizing names with
    | nil => cases names with
      | nil => rfl
      | cons => exact h.elim
    | cons s r ih => cases names with
      | nil => exact h.elim
      | cons n m => simp [ih m h.2]
  rw [hl]
  unfold Bt.text
  cases names with
  | nil => simp [slots, textOf]
  | cons n m =>
    have := textLoop_lines (fmt := fmt) (addrs := addrs) (out := []) hn
    simpa using this

example (r : List Byte) : ∃ b, Bt.capture (fun _ => none) ([1, 0, 0, 0, 0, 0, 0, 0, 2, 0, 0, 0, 0, 0, 0, 0] ++ r) 2
      (some [[97, 40, 102, 43, 49, 41], [103]]) = some b ∧
    b.text (fun a => a.take 1) = some [1, 102, 10, 2, 103, 10] :=
  by
    have := backtrace_text_partial (fun _ => none) (fun a => a.take 1)
      ([1, 0, 0, 0, 0, 0, 0, 0, 2, 0, 0, 0, 0, 0, 0, 0] ++ r) _ _ exNames (by decide)
    simpa [slots, textOf] using this

/-- **C63** if the C library has no memory for the names, the backtrace keeps its frames but has no symbol table, and
printing it, copying it (as throwing the exception by value does) dereferences the null pointer. -/
theorem backtrace_text_violated (dm : Demangler) (fmt : List Byte → List Byte) (addrs : List Byte) (n : Nat)
    (self : Bt) (hn : 0 < n) :
    ∃ b, Bt.capture dm addrs n none = some b ∧ b.text fmt = none ∧ self.assign b = none := by
  refine ⟨_, rfl, ?_, rfl⟩
  cases n with
  | zero => omega
  | succ k => rfl

example : Bt.text (fun a => a) ⟨List.replicate 512 0, none, 3, 0⟩ = none := rfl

/-- **C63** copying a captured backtrace copies it exactly: the addresses, the symbols, the counts. -/
theorem backtrace_copy_partial (dm : Demangler) (addrs : List Byte) (frames names : List (List Byte)) (self : Bt)
    (h : Names dm frames names) (hn : ∀ n ∈ names, (0 : Byte) ∉ n) :
    ∃ b k, Bt.capture dm addrs frames.length (some frames) = some b ∧ self.assign b = some (b, k) := by
  refine ⟨_, self.syms.isSome, capture_symbols dm addrs frames names h, ?_⟩
  have e : cstr (lines names) = lines names := by
    refine cstr_self ?_
    clear h
    induction names with
    | nil => simp [lines]
    | cons x r ih =>
      have := hn x (by simp)
      have := ih (fun y hy => hn y (by simp [hy]))
      simp only [lines, List.mem_append, List.mem_singleton]
      rintro ((h | h) | h)
      · contradiction
      · exact absurd h (by decide)
      · contradiction
  unfold Bt.assign
  simp only [e]

/-- **C63** assigning to a backtrace that has a symbol table loses the old table: it is never freed. -/
theorem backtrace_assign_violated (self v : Bt) (t u : List Byte) (h : self.syms = some t) (hv : v.syms = some u) :
    ∃ r, self.assign v = some (r, true) := by
  unfold Bt.assign
  simp only [hv, h]
  exact ⟨_, rfl⟩

example : Bt.assign ⟨[], some [97], 0, 1⟩ ⟨[], some [98, 10], 1, 2⟩ = some (⟨[], some [98, 10], 1, 2⟩, true) := rfl

end Ustl.Exn
