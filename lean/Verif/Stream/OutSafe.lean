import Verif.Stream.Safe
/-! # Output streams stay inside their memory: theorems for C41 -/
namespace Ustl.Stream

/-- The position is inside the block (or at its end), and the block is in the address space. -/
def OS.Inv (s : OS) : Prop := s.pos ≤ s.buf.length ∧ s.buf.length + 8 ≤ W

/-- The outcome is not an access outside the block; the position is inside, the block is the same one, and the bytes
before the position `s` was at are unchanged. -/
inductive OStays {α : Type} (s : OS) : Out OS α → Prop where
  | ret {a : α} {s' : OS} : s'.Inv → s'.buf.length = s.buf.length → s'.base = s.base →
      s.pos ≤ s'.pos → s'.buf.take s.pos = s.buf.take s.pos → OStays s (.ret a s')
  | exn {s' : OS} : s'.Inv → s'.buf.length = s.buf.length → s'.base = s.base →
      s.pos ≤ s'.pos → s'.buf.take s.pos = s.buf.take s.pos → OStays s (.exn s')

/-- Started inside the block, the operation touches nothing outside, leaves the position inside and the bytes before
the starting position as they were, whether it returns or throws. -/
def OSafe {α : Type} (m : M OS α) : Prop := ∀ s : OS, s.Inv → OStays s (m s)

theorem take_take_eq {a b c : List Byte} {p q : Nat} (hpq : p ≤ q) (h1 : b.take q = c.take q) (h2 : c.take p = a.take p) :
    b.take p = a.take p := by
  have := congrArg (List.take p) h1
  rw [List.take_take, List.take_take, Nat.min_eq_left hpq] at this
  exact this.trans h2

theorem OStays.trans {α : Type} {s x : OS} {o : Out OS α} (h : OStays x o) (h1 : x.buf.length = s.buf.length)
    (h2 : x.base = s.base) (h3 : s.pos ≤ x.pos) (h4 : x.buf.take s.pos = s.buf.take s.pos) : OStays s o := by
  cases h with
  | ret a b c d e => exact .ret a (b.trans h1) (c.trans h2) (Nat.le_trans h3 d) (take_take_eq h3 e h4)
  | exn a b c d e => exact .exn a (b.trans h1) (c.trans h2) (Nat.le_trans h3 d) (take_take_eq h3 e h4)

theorem OSafe.pure {α : Type} (a : α) : OSafe (Pure.pure a : M OS α) := fun _ h => .ret h rfl rfl (Nat.le_refl _) rfl

theorem OSafe.bind {α β : Type} {m : M OS α} {f : α → M OS β} (hm : OSafe m) (hf : ∀ a, OSafe (f a)) :
    OSafe (m >>= f) := by
  intro s hs
  have h := hm s hs
  cases e : m s with
  | ret a s' =>
    rw [e] at h
    rw [M.bind_ret e]
    cases h with
    | ret h1 h2 h3 h4 h5 => exact (hf a s' h1).trans h2 h3 h4 h5
  | exn s' =>
    rw [e] at h
    rw [M.bind_exn e]
    cases h with
    | exn h1 h2 h3 h4 h5 => exact .exn h1 h2 h3 h4 h5
  | oob => rw [e] at h; cases h

theorem OSafe.over {α : Type} (a : α) (r : Nat) : OSafe (OS.over a r) := by
  intro s hs
  unfold OS.over
  cases s.ios.overrun r with
  | mk i b =>
    cases b with
    | false => exact .ret hs rfl rfl (Nat.le_refl _) rfl
    | true => exact .exn hs rfl rfl (Nat.le_refl _) rfl

theorem OSafe.verify (n : Nat) : OSafe (OS.verify n) := by
  intro s hs
  unfold OS.verify
  by_cases h : n ≤ s.remaining
  · rw [if_pos h]; exact .ret hs rfl rfl (Nat.le_refl _) rfl
  · rw [if_neg h]; exact OSafe.over _ _ s hs

theorem after_safe {s : OS} {d : List Byte} (hs : s.Inv) (h : s.pos + d.length ≤ s.buf.length) :
    OStays s (.ret () (s.after d)) := by
  refine .ret ⟨?_, ?_⟩ (OS.after_buf_length h) rfl ?_ ?_
  · rw [OS.after_buf_length h]; exact h
  · rw [OS.after_buf_length h]; exact hs.2
  · rw [OS.after_pos]; omega
  · have : (s.buf.take s.pos).length = s.pos := by rw [List.length_take]; omega
    unfold OS.after
    simp only [List.append_assoc]
    rw [List.take_left' this]

theorem write_over {s : OS} {d : List Byte} (hs : s.Inv) (h : s.buf.length < s.pos + d.length) :
    OS.write d s = (match OS.over false s.remaining s with
      | .ret _ x => .ret () x | .exn x => .exn x | .oob => .oob) := by
  have hv : OS.verify d.length s = OS.over false s.remaining s := by
    unfold OS.verify
    rw [if_neg]
    rw [OS.remaining_eq hs.1 (by have := hs.2; omega)]
    have := hs.1
    omega
  have h3 : ∀ b x, OS.over false s.remaining s = .ret b x → b = false := by
    intro b x hx
    unfold OS.over at hx
    generalize s.ios.overrun s.remaining = o at hx
    obtain ⟨i, t⟩ := o
    cases t with
    | true => cases hx
    | false => injection hx with h1 _; exact h1.symm
  unfold OS.write
  cases e : OS.over false s.remaining s with
  | ret b x =>
    rw [M.bind_ret (hv.trans e), h3 b x e, if_neg (by simp)]
    rfl
  | exn x => exact M.bind_exn (hv.trans e)
  | oob => exact M.bind_oob (hv.trans e)

theorem OSafe.write (d : List Byte) : OSafe (OS.write d) := by
  intro s hs
  rcases Nat.lt_or_ge s.buf.length (s.pos + d.length) with h | h
  · rw [write_over hs h]
    have ho := OSafe.over false s.remaining s hs
    cases e : OS.over false s.remaining s with
    | ret b x => rw [e] at ho; cases ho with | ret a b c d f => exact .ret a b c d f
    | exn x => rw [e] at ho; cases ho with | exn a b c d f => exact .exn a b c d f
    | oob => rw [e] at ho; cases ho
  · rw [OS.write_ok (by have := hs.2; omega) h]
    exact after_safe hs h

theorem OSafe.align (g : Nat) : OSafe (OS.align g) := fun s hs => OSafe.write _ s hs

theorem OSafe.all {α : Type} {w : α → M OS Unit} : ∀ (l : List α), (∀ x ∈ l, OSafe (w x)) → OSafe (writeAll w l)
  | [], _ => OSafe.pure _
  | x :: xs, h => OSafe.bind (h x (List.mem_cons_self ..)) (fun _ =>
      OSafe.all xs (fun y hy => h y (List.mem_cons_of_mem _ hy)))

theorem OSafe.str {v : List Byte} (h : v.length < 2 ^ 31) : OSafe (writeStr v) := by
  have hm : u32 v.length = v.length := Nat.mod_eq_of_lt (by omega)
  unfold writeStr
  rw [hm, Utf8.out_is_table _ h]
  refine OSafe.bind (OSafe.verify _) (fun b => ?_)
  cases b with
  | false => exact OSafe.pure _
  | true => exact OSafe.bind (OSafe.write _) (fun _ => OSafe.write _)

theorem OSafe.blk (v : List Byte) : OSafe (writeBlk v) :=
  OSafe.bind (OSafe.write _) (fun _ => OSafe.bind (OSafe.write _) (fun _ => OSafe.align _))

theorem OSafe.pair {α β : Type} {ga gb : Nat} {wa : α → M OS Unit} {wb : β → M OS Unit} {v : α × β}
    (h1 : OSafe (wa v.1)) (h2 : OSafe (wb v.2)) : OSafe (writePair ga gb wa wb v) :=
  OSafe.bind h1 (fun _ => OSafe.bind (OSafe.align _) (fun _ => OSafe.bind h2 (fun _ => OSafe.align _)))

theorem OSafe.vec {α : Type} {g : Nat} {w : α → M OS Unit} {v : List α} (h : ∀ x ∈ v, OSafe (w x)) :
    OSafe (writeVec g w v) := by
  unfold writeVec
  refine OSafe.bind (OSafe.write _) (fun _ => ?_)
  have rest : OSafe (writeAll w v >>= fun _ => OS.align 4) := OSafe.bind (OSafe.all v h) (fun _ => OSafe.align _)
  by_cases hg : g > 4
  · simp only [if_pos hg]; exact OSafe.bind (OSafe.align _) (fun _ => rest)
  · simp only [if_neg hg]; exact rest

/-- Strings inside `v` are shorter than 2^31 bytes. -/
def ShortStr : (t : Ty) → Val t → Prop
  | .int _, _ => True
  | .bool, _ => True
  | .raw _ _, _ => True
  | .str, v => List.length (α := Byte) v < 2 ^ 31
  | .blk, _ => True
  | .pair a b, v => let v : Val a × Val b := v; ShortStr a v.1 ∧ ShortStr b v.2
  | .arr _ t, v => let v : List (Val t) := v; ∀ x ∈ v, ShortStr t x
  | .vec t, v => let v : List (Val t) := v; ∀ x ∈ v, ShortStr t x

theorem OSafe.val : ∀ (t : Ty) (v : Val t), ShortStr t v → OSafe (Ustl.Stream.write t v)
  | .int n, v, _ => OSafe.write (leBytes n v)
  | .bool, v, _ => OSafe.write [bif v then 1 else 0]
  | .raw _ _, v, _ => OSafe.write v
  | .str, v, h => OSafe.str (v := v) h
  | .blk, v, _ => OSafe.blk v
  | .pair a b, v, h => OSafe.pair (α := Val a) (β := Val b) (v := v) (OSafe.val a _ h.1) (OSafe.val b _ h.2)
  | .arr _ t, v, h => OSafe.all (α := Val t) v (fun x hx => OSafe.val t x (h x hx))
  | .vec t, v, h => OSafe.vec (α := Val t) (v := v) (fun x hx => OSafe.val t x (h x hx))

/-! ## Sequences of operations -/

/-- `ostream::read (is)`: write all that is unread in `is`. Models mistream.cc:100-104; the unread bytes are read from
inside `is` (C40). -/
def OS.readFrom (is : IS) : M OS Unit := OS.write (is.buf.drop is.pos)

/-- The operations of an `ostream`. -/
inductive OOp where
  /-- `seek` -/
  | seek (p : Nat)
  /-- `skip` -/
  | skip (n : Nat)
  /-- `align` -/
  | align (g : Nat)
  /-- `seekp` -/
  | seekp (p : Int) (d : Dir)
  /-- `write (buffer, n)`, `iwrite` -/
  | write (d : List Byte)
  /-- `write_strz` -/
  | writeStrz (d : List Byte)
  /-- `os << v` -/
  | val (t : Ty) (v : Val t)
  /-- `read (is)` -/
  | readFrom (is : IS)
  /-- `insert (begin() + start, n)` -/
  | insert (start n : Nat)
  /-- `erase (begin() + start, n)` -/
  | erase (start n : Nat)
  /-- `clear` -/
  | clear (v : Nat)
  /-- `exceptions (v)` -/
  | exceptions (v : Nat)

/-- What is asked of the caller. For `insert` and `erase` this is more than the class documents: they check nothing,
neither against the block nor against the position. -/
def OOp.ok (s : OS) : OOp → Prop
  | .val t v => ShortStr t v
  | .insert start n => start + n ≤ s.buf.length ∧ s.pos + n ≤ s.buf.length
  | .erase start n => start + n ≤ s.buf.length ∧ n ≤ s.pos
  | _ => True

/-- One operation; an exception is caught by the caller, who goes on with the same stream. `none` is an access
outside the block. -/
def OOp.run : OOp → OS → Option OS
  | .seek p, s => go (OS.seek p s)
  | .skip n, s => go (OS.skip n s)
  | .align g, s => go (OS.align g s)
  | .seekp p d, s => go (OS.seekp p d s)
  | .write d, s => go (OS.write d s)
  | .writeStrz d, s => go (OS.writeStrz d s)
  | .val t v, s => go (Ustl.Stream.write t v s)
  | .readFrom is, s => go (OS.readFrom is s)
  | .insert a n, s => go (OS.insert a n s)
  | .erase a n, s => go (OS.erase a n s)
  | .clear v, s => some { s with ios := { s.ios with state := v } }
  | .exceptions v, s => some { s with ios := { s.ios with exc := v } }
where
  /-- the state after an outcome -/
  go {α : Type} : Out OS α → Option OS
    | .ret _ s => some s
    | .exn s => some s
    | .oob => none

/-- A sequence of operations. -/
def runAllO : List OOp → OS → Option OS
  | [], s => some s
  | o :: os, s => match o.run s with
    | none => none
    | some s' => runAllO os s'

/-- The caller does its part at each step. -/
def okAllO : List OOp → OS → Prop
  | [], _ => True
  | o :: os, s => o.ok s ∧ ∀ s', o.run s = some s' → okAllO os s'

theorem goO_safe {α : Type} {m : M OS α} (h : OSafe m) {s : OS} (hs : s.Inv) :
    ∃ s', OOp.run.go (m s) = some s' ∧ s'.Inv ∧ s'.buf.length = s.buf.length := by
  have := h s hs
  cases e : m s with
  | ret a x => rw [e] at this; cases this with | ret a b c d f => exact ⟨x, rfl, a, b⟩
  | exn x => rw [e] at this; cases this with | exn a b c d f => exact ⟨x, rfl, a, b⟩
  | oob => rw [e] at this; cases this

theorem seekO_safe (p : Nat) {s : OS} (hs : s.Inv) :
    ∃ s', OOp.run.go (OS.seek p s) = some s' ∧ s'.Inv ∧ s'.buf.length = s.buf.length := by
  unfold OS.seek
  by_cases h : p > s.buf.length
  · rw [if_pos h]; exact goO_safe (OSafe.over () s.buf.length) hs
  · rw [if_neg h]; exact ⟨_, rfl, ⟨by simp only; omega, hs.2⟩, rfl⟩

theorem insert_in {s : OS} {a n : Nat} (h1 : a + n ≤ s.buf.length) (h2 : s.pos + n ≤ s.buf.length) (hs : s.Inv) :
    OS.insert a n s = .ret () { s with
      buf := s.buf.take a ++ (s.buf.drop a).drop ((s.buf.drop a).length - n) ++ (s.buf.drop a).take ((s.buf.drop a).length - n)
      pos := s.pos + n } := by
  unfold OS.insert
  rw [if_pos h1]
  simp only
  rw [Nat.mod_eq_of_lt (by have := hs.2; omega)]

theorem erase_in {s : OS} {a n : Nat} (h1 : a + n ≤ s.buf.length) (h2 : n ≤ s.pos) (hs : s.Inv) :
    OS.erase a n s = .ret () { s with
      buf := s.buf.take a ++ (s.buf.drop a).drop n ++ (s.buf.drop a).take n, pos := s.pos - n } := by
  unfold OS.erase
  rw [if_pos h1]
  simp only
  have h3 : s.pos + W - n = (s.pos - n) + W := by omega
  have h4 := hs.1
  have h5 := hs.2
  rw [h3, Nat.add_mod_right, Nat.mod_eq_of_lt (by omega)]

theorem runO_safe (o : OOp) (s : OS) (ho : o.ok s) (hs : s.Inv) :
    ∃ s', o.run s = some s' ∧ s'.Inv ∧ s'.buf.length = s.buf.length := by
  cases o with
  | seek p => exact seekO_safe p hs
  | skip n => exact seekO_safe ((s.pos + n) % W) hs
  | align g => exact goO_safe (OSafe.align g) hs
  | seekp p d =>
    cases d with
    | beg => exact seekO_safe (u64 p) hs
    | cur => exact seekO_safe (u64 (s.pos + p)) hs
    | fin => exact seekO_safe (u64 (s.buf.length - p)) hs
  | write d => exact goO_safe (OSafe.write d) hs
  | writeStrz d => exact goO_safe (OSafe.write (d ++ [0])) hs
  | val t v => exact goO_safe (OSafe.val t v ho) hs
  | readFrom is => exact goO_safe (OSafe.write (is.buf.drop is.pos)) hs
  | insert a n =>
    have hi := insert_in ho.1 ho.2 hs
    have h1 := ho.1
    have h2 := ho.2
    have hl : (s.buf.take a ++ (s.buf.drop a).drop ((s.buf.drop a).length - n) ++
        (s.buf.drop a).take ((s.buf.drop a).length - n)).length = s.buf.length := by
      simp only [List.length_append, List.length_take, List.length_drop]; omega
    unfold OOp.run
    simp only
    rw [hi]
    refine ⟨_, rfl, ⟨?_, ?_⟩, hl⟩
    · simp only; rw [hl]; exact h2
    · simp only; rw [hl]; exact hs.2
  | erase a n =>
    have hi := erase_in ho.1 ho.2 hs
    have h1 := ho.1
    have h2 := hs.1
    have hl : (s.buf.take a ++ (s.buf.drop a).drop n ++ (s.buf.drop a).take n).length = s.buf.length := by
      simp only [List.length_append, List.length_take, List.length_drop]; omega
    unfold OOp.run
    simp only
    rw [hi]
    refine ⟨_, rfl, ⟨?_, ?_⟩, hl⟩
    · simp only; rw [hl]; omega
    · simp only; rw [hl]; exact hs.2
  | clear v => exact ⟨_, rfl, hs, rfl⟩
  | exceptions v => exact ⟨_, rfl, hs, rfl⟩

/-- **C41** for any exception mask and any sequence of writes (raw, values of any type nested in any way, strings,
other streams), skips, seeks, aligns, inserts and erases, with exceptions caught in between, nothing outside the block
is accessed and `pos () <= size ()` all along, provided inserts and erases stay inside the block and keep the position
inside (`OOp.ok`). -/
theorem ostream_safe : ∀ (ops : List OOp) (s : OS), okAllO ops s → s.pos ≤ s.buf.length → s.buf.length + 8 ≤ W →
    ∃ s', runAllO ops s = some s' ∧ s'.pos ≤ s'.buf.length ∧ s'.buf.length = s.buf.length
  | [], s, _, h1, _ => ⟨s, rfl, h1, rfl⟩
  | o :: os, s, ho, h1, h2 => by
    obtain ⟨x, hx, hi, hb⟩ := runO_safe o s ho.1 ⟨h1, h2⟩
    obtain ⟨y, hy, h3, h4⟩ := ostream_safe os x (ho.2 x hx) hi.1 hi.2
    refine ⟨y, ?_, h3, h4.trans hb⟩
    unfold runAllO; rw [hx]; exact hy

example : ∃ s', runAllO [.write [1, 2, 3], .clear 0, .align 4, .val (.vec (.int 2)) ([7, 8] : List Nat), .seek 2, .skip 100]
      { buf := List.replicate 16 0xEE } = some s' ∧ s'.pos ≤ s'.buf.length ∧
      s'.buf.length = (List.replicate 16 (0xEE : Byte)).length :=
  ostream_safe _ _ ⟨trivial, fun _ _ => ⟨trivial, fun _ _ => ⟨trivial, fun _ _ => ⟨(by intro x _; trivial), fun _ _ =>
    ⟨trivial, fun _ _ => ⟨trivial, fun _ _ => trivial⟩⟩⟩⟩⟩⟩ (by simp) (by simp [W])

/-- **C41** a write that fits stores exactly its bytes at the position, moves the position by their number, and changes
no other byte. -/
theorem write_exact (s : OS) (d : List Byte) (h : s.pos + d.length ≤ s.buf.length) (hl : s.buf.length + 8 ≤ W) :
    ∃ s', OS.write d s = .ret () s' ∧ s'.pos = s.pos + d.length ∧ s'.buf.length = s.buf.length ∧
      s'.ios = s.ios ∧ ∀ i, s'.buf[i]? = if s.pos ≤ i ∧ i < s.pos + d.length then d[i - s.pos]? else s.buf[i]? := by
  refine ⟨_, OS.write_ok (by omega) h, rfl, OS.after_buf_length h, rfl, ?_⟩
  intro i
  unfold OS.after
  simp only
  have hlen : (s.buf.take s.pos).length = s.pos := by rw [List.length_take]; omega
  rcases Nat.lt_or_ge i s.pos with h1 | h1
  · rw [if_neg (by omega), List.append_assoc, List.getElem?_append_left (by omega), List.getElem?_take, if_pos h1]
  · rcases Nat.lt_or_ge i (s.pos + d.length) with h2 | h2
    · rw [if_pos ⟨h1, h2⟩, List.append_assoc, List.getElem?_append_right (by omega), hlen,
        List.getElem?_append_left (by omega)]
    · rw [if_neg (by omega), List.getElem?_append_right (by simp; omega), List.length_append, hlen, List.getElem?_drop]
      congr 1
      omega

/-- **C41** a write beyond the end writes nothing: bytes and position stay, `failbit` is set, and it throws if
`exceptions ()` asks for `failbit`. -/
theorem write_beyond (s : OS) (d : List Byte) (h : s.buf.length < s.pos + d.length) (hp : s.pos ≤ s.buf.length)
    (hl : s.buf.length + 8 ≤ W) :
    ∃ i, i.state &&& 4 ≠ 0 ∧ i.exc = s.ios.exc ∧
      (OS.write d s = .ret () { s with ios := i } ∧ s.ios.exc &&& 4 = 0 ∨ OS.write d s = .exn { s with ios := i }) := by
  have hw := write_over ⟨hp, hl⟩ h
  generalize s.remaining = r at hw
  have hbit : ∀ v, v &&& 4 = 4 → (s.ios.state ||| v) &&& 4 ≠ 0 := by
    intro v hv h0
    rw [Nat.and_or_distrib_right, hv] at h0
    have : (s.ios.state &&& 4 ||| 4).testBit 2 = false := by rw [h0]; simp
    rw [Nat.testBit_or] at this
    simp [show Nat.testBit 4 2 = true by decide] at this
  have ho : OS.over false r s = (if (s.ios.exc &&& (if r % 2 ^ 32 ≠ 0 then 4 else 6)) ≠ 0
      then .exn { s with ios := ⟨s.ios.state ||| (if r % 2 ^ 32 ≠ 0 then 4 else 6), s.ios.exc⟩ }
      else .ret false { s with ios := ⟨s.ios.state ||| (if r % 2 ^ 32 ≠ 0 then 4 else 6), s.ios.exc⟩ }) := by
    unfold OS.over Ios.overrun
    simp only
    by_cases h : s.ios.exc &&& (if r % 2 ^ 32 ≠ 0 then 4 else 6) ≠ 0
    · rw [if_pos h, decide_eq_true h]
    · rw [if_neg h, decide_eq_false h]
  refine ⟨⟨s.ios.state ||| (if r % 2 ^ 32 ≠ 0 then 4 else 6), s.ios.exc⟩, ?_, rfl, ?_⟩
  · split <;> exact hbit _ (by decide)
  · by_cases hx : s.ios.exc &&& (if r % 2 ^ 32 ≠ 0 then 4 else 6) ≠ 0
    · right
      rw [if_pos hx] at ho
      rw [hw, ho]
    · left
      rw [if_neg hx] at ho
      refine ⟨by rw [hw, ho], ?_⟩
      have hx' : s.ios.exc &&& (if r % 2 ^ 32 ≠ 0 then 4 else 6) = 0 := Classical.not_not.1 hx
      by_cases h : r % 2 ^ 32 ≠ 0
      · rw [if_pos h] at hx'; exact hx'
      · rw [if_neg h] at hx'
        have e : (6 : Nat) &&& 4 = 4 := by decide
        rw [← e, ← Nat.and_assoc, hx', Nat.zero_and]

example : ∃ s : OS, s.buf.length < s.pos + [1, 2, (3 : Byte)].length ∧ s.pos ≤ s.buf.length :=
  ⟨{ buf := [1, 2, 3], pos := 1 }, by decide, by decide⟩

/-- **C41** `insert` inside the block opens a gap of `n` bytes at `start`: the bytes before stay, those from `start` on
move up by `n` (the last `n` bytes of the block, meant to be unwritten, are what fills the gap). -/
theorem insert_exact (s : OS) (start n : Nat) (h1 : start + n ≤ s.buf.length) (h2 : s.pos + n ≤ s.buf.length)
    (hl : s.buf.length + 8 ≤ W) :
    ∃ s', OS.insert start n s = .ret () s' ∧ s'.pos = s.pos + n ∧ s'.buf.length = s.buf.length ∧
      s'.buf.take start = s.buf.take start ∧ s'.buf.drop (start + n) = (s.buf.drop start).take (s.buf.length - start - n) := by
  refine ⟨_, insert_in h1 h2 ⟨by omega, hl⟩, rfl, ?_, ?_, ?_⟩
  · simp only [List.length_append, List.length_take, List.length_drop]; omega
  · simp only [List.append_assoc]
    rw [List.take_append_of_le_length (by simp; omega), List.take_take, Nat.min_self]
  · simp only
    rw [List.drop_append_of_le_length (by simp; omega), List.drop_of_length_le (by simp; omega), List.nil_append,
      List.length_drop]

example : OS.insert 1 2 { buf := [1, 2, 3, 0, 0], pos := 3 } = .ret () { buf := [1, 0, 0, 2, 3], pos := 5 } := by
  decide +kernel

/-- **C41** `erase` inside the written part closes the gap: the bytes after the erased ones move down. -/
theorem erase_exact (s : OS) (start n : Nat) (h1 : start + n ≤ s.pos) (hp : s.pos ≤ s.buf.length)
    (hl : s.buf.length + 8 ≤ W) :
    ∃ s', OS.erase start n s = .ret () s' ∧ s'.pos = s.pos - n ∧ s'.buf.length = s.buf.length ∧
      s'.buf.take s'.pos = s.buf.take start ++ (s.buf.drop (start + n)).take (s.pos - (start + n)) := by
  refine ⟨_, erase_in (by omega) (by omega) ⟨hp, hl⟩, rfl, ?_, ?_⟩
  · simp only [List.length_append, List.length_take, List.length_drop]; omega
  · simp only [List.append_assoc, List.drop_drop]
    rw [List.take_append, List.take_of_length_le (l := s.buf.take start) (by simp; omega), List.length_take,
      List.take_append_of_le_length (by simp only [List.length_drop]; omega)]
    congr 2
    omega

example : OS.erase 1 2 { buf := [1, 2, 3, 4, 0], pos := 4 } = .ret () { buf := [1, 4, 0, 2, 3], pos := 2 } := by
  decide +kernel

theorem OS.remaining_past {s : OS} (h : s.pos = s.buf.length + 1) : s.remaining = W - 1 := by
  have e1 : s.buf.length + W - s.pos = W - 1 := by rw [h]; omega
  have e2 : s.remaining = (s.buf.length + W - s.pos) % W := rfl
  exact e2.trans (modW_pred e1)

theorem OS.write_out {s : OS} {d : List Byte} (h : s.buf.length < s.pos + d.length) (hr : d.length ≤ s.remaining) :
    OS.write d s = .oob := by
  have hv : OS.verify d.length s = .ret true s := by unfold OS.verify; rw [if_pos hr]
  unfold OS.write
  rw [M.bind_ret hv, if_pos rfl]
  unfold OS.put store
  rw [if_neg (by omega)]

/-- **C41 fails** for `insert` with the position near the end: the insertion is inside the block, but nothing checks
that the position is still inside afterwards. It ends beyond the end, `remaining ()` wraps around, and the next write
passes its check and stores outside the block. -/
theorem insert_violated (b : List Byte) (i : Ios) (x c : Byte) (hl : b.length + 16 ≤ W) :
    ∃ s', OS.insert 0 1 { buf := x :: b, pos := (x :: b).length, ios := i } = .ret () s' ∧
      s'.pos = s'.buf.length + 1 ∧ OS.write [c] s' = .oob := by
  have hlen : (x :: b).length = b.length + 1 := rfl
  refine ⟨{ buf := (x :: b).drop b.length ++ (x :: b).take b.length, pos := b.length + 2, ios := i }, ?_, ?_, ?_⟩
  · unfold OS.insert
    have e : ((x :: b).length + 1) % W = b.length + 2 := by rw [hlen]; exact Nat.mod_eq_of_lt (by omega)
    rw [if_pos (show 0 + 1 ≤ (x :: b).length by rw [hlen]; omega)]
    simp only [List.take_zero, List.drop_zero, List.nil_append]
    rw [e, hlen, Nat.add_sub_cancel]
  · simp only [List.length_append, List.length_drop, List.length_take, hlen]; omega
  · have hp : (OS.mk ((x :: b).drop b.length ++ (x :: b).take b.length) 0 (b.length + 2) i).pos =
        (OS.mk ((x :: b).drop b.length ++ (x :: b).take b.length) 0 (b.length + 2) i).buf.length + 1 := by
      simp only [List.length_append, List.length_drop, List.length_take, hlen]; omega
    have h1 : 1 ≤ W - 1 := by simp [W]
    refine OS.write_out ?_ ?_
    · rw [hp]; exact Nat.lt_add_right 1 (Nat.lt_succ_self _)
    · exact Nat.le_trans h1 (Nat.le_of_eq (OS.remaining_past hp).symm)

end Ustl.Stream
