import Verif.Stream.Safe
/-! # What partial and refused reads deliver: theorems for C40 -/
namespace Ustl.Stream

/-- `n` bytes are the bytes at offset `q` of the block. -/
def IsSlice (buf : List Byte) (q : Nat) (v : List Byte) : Prop := q + v.length ≤ buf.length ∧ v = (buf.drop q).take v.length

theorem verify_true {s : IS} {n : Nat} (hs : s.Inv) (h : s.pos + n ≤ s.buf.length) : IS.verify n s = .ret true s := by
  have hl := hs.2
  unfold IS.verify
  rw [IS.remaining_eq hs.1 (by omega), if_pos (by omega)]

/-- The last step of `readsome`. -/
def IS.readRest (n : Nat) : M IS (List Byte) := fun s => IS.read [] (min n s.remaining) s

theorem readsome_many {s : IS} {n : Nat} (h : ¬ s.remaining < n) : IS.readsome n s = IS.read [] (min n s.remaining) s := by
  have e : IS.readsome n s = (if s.remaining < n then (IS.underflow n >>= fun _ => IS.readRest n) else IS.readRest n) s := rfl
  rw [if_neg h] at e
  exact e

theorem readsome_few {s : IS} {n : Nat} (h : s.remaining < n) : IS.readsome n s = (IS.underflow n >>= fun _ => IS.readRest n) s := by
  have e : IS.readsome n s = (if s.remaining < n then (IS.underflow n >>= fun _ => IS.readRest n) else IS.readRest n) s := rfl
  rw [if_pos h] at e
  exact e

/-- **C40** `readsome (s, n)` when `n` bytes remain: it stores exactly the next `n` and sets no error. -/
theorem readsome_exact (s : IS) (n : Nat) (h : s.pos + n ≤ s.buf.length) (hl : s.buf.length + 8 ≤ W) :
    IS.readsome n s = .ret ((s.buf.drop s.pos).take n) { s with pos := s.pos + n } := by
  have hs : s.Inv := ⟨by omega, hl⟩
  have hr : s.remaining = s.buf.length - s.pos := IS.remaining_eq hs.1 (by omega)
  rw [readsome_many (by omega), Nat.min_eq_left (by omega)]
  exact read_exact s [] n h hl

/-- **C40** `readsome (s, n)` when fewer than `n` bytes remain: `failbit` is set; either it throws and nothing moves
(possible only if `exceptions ()` asks for it), or it stores all the bytes that remain, no more, and ends at the end. -/
theorem readsome_short (s : IS) (n : Nat) (h : s.buf.length < s.pos + n) (hp : s.pos ≤ s.buf.length)
    (hl : s.buf.length + 8 ≤ W) :
    ∃ i, i.fail = true ∧ i.exc = s.ios.exc ∧
      (IS.readsome n s = .ret (s.buf.drop s.pos) { s with pos := s.buf.length, ios := i } ∧ s.ios.exc &&& 4 = 0 ∨
       IS.readsome n s = .exn { s with ios := i } ∧ s.ios.exc ≠ 0) := by
  have hr : s.remaining = s.buf.length - s.pos := IS.remaining_eq hp (by omega)
  have e := readsome_few (s := s) (n := n) (by omega)
  obtain ⟨i, _, h2, h3, h4⟩ := read_beyond s [] n h hp hl
  refine ⟨i, h2, h3, ?_⟩
  cases hv : IS.verify n s with
  | oob => have := ISafe.verify n s ⟨hp, hl⟩; rw [hv] at this; exact this.toOob.elim
  | exn x =>
    right
    have hu : IS.underflow n s = .exn x := M.bind_exn hv
    have e := e.trans (M.bind_exn hu)
    have hx : IS.read [] n s = .exn x := M.bind_exn hv
    rw [hx] at h4
    rcases h4 with ⟨h4, _⟩ | h4
    · cases h4
    · refine ⟨e.trans h4, ?_⟩
      intro h0
      unfold IS.verify at hv
      rw [if_neg (by omega)] at hv
      unfold IS.over Ios.overrun at hv
      simp [h0] at hv
  | ret b x =>
    left
    obtain ⟨q1, q2, q3, q4⟩ := verify_ret ⟨hp, hl⟩ hv
    have hb : b = false := by
      cases b with
      | false => rfl
      | true => have := (q3 rfl).2; omega
    subst hb
    have hx : IS.read [] n s = .ret [] x := by
      unfold IS.read
      rw [M.bind_ret hv]; rfl
    rw [hx] at h4
    rcases h4 with ⟨h4, h5⟩ | h4
    · injection h4 with _ h4
      have hu : IS.underflow n s = .ret x.remaining x := by
        exact M.bind_ret hv
      refine ⟨(e.trans (M.bind_ret hu)).trans ?_, h5⟩
      subst h4
      show IS.read [] (min n s.remaining) { s with ios := i } = _
      rw [hr, Nat.min_eq_right (by omega)]
      refine (read_exact { s with ios := i } [] (s.buf.length - s.pos) (by simp only; omega) hl).trans ?_
      simp only
      rw [List.take_of_length_le (by simp), show s.pos + (s.buf.length - s.pos) = s.buf.length by omega]
    · cases h4

example : IS.readsome 2 { buf := [1, 2, 3], pos := 1 } = .ret [2, 3] { buf := [1, 2, 3], pos := 3 } := by decide +kernel

example : (match IS.readsome 5 { buf := [1, 2, 3], pos := 1, ios := { exc := 0 } } with
  | .ret d s => decide (d = [2, 3] ∧ s.pos = 3 ∧ s.ios.fail = true) | _ => false) = true := by decide +kernel

theorem read_slice {old d : List Byte} {n : Nat} {s s' : IS} (hs : s.Inv) (hn : s.pos + n ≤ s.buf.length)
    (h : IS.read old n s = .ret d s') : IsSlice s.buf s.pos d := by
  rw [read_exact s old n hn hs.2] at h
  injection h with h _
  subst h
  refine ⟨by simp; omega, ?_⟩
  simp [Nat.min_eq_left (show n ≤ s.buf.length - s.pos by omega)]

theorem readStr_eq (junk old : List Byte) : readStr junk old =
    (IS.iread (junk.take 1) 1 >>= fun b0 => strTail junk old b0 (lenMore b0)) := rfl

theorem strBody_bounded {old v : List Byte} {n : Nat} {s s' : IS} (hs : s.Inv) (h : strBody old n s = .ret v s') :
    v = old ∨ IsSlice s.buf s.pos v := by
  obtain ⟨b, x, e, g⟩ := bind_ret_inv h
  obtain ⟨_, _, q3, _⟩ := verify_ret (n := n) hs e
  cases b with
  | false =>
    have h : (Out.ret old x : Out IS (List Byte)) = .ret v s' := g
    injection h with h _; exact Or.inl h.symm
  | true =>
    obtain ⟨rfl, q3⟩ := q3 rfl
    exact Or.inr (read_slice hs q3 g)

theorem strDecode_bounded {junk old b0 bs v : List Byte} {z : Nat} {s s' : IS} (hs : s.Inv)
    (h : strDecode junk old b0 z bs s = .ret v s') : v = old ∨ IsSlice s.buf s.pos v := by
  unfold strDecode at h
  generalize Utf8.read (b0 ++ bs ++ junk.drop (1 + z)) 0 = o at h
  cases o with
  | none => cases h
  | some it => exact strBody_bounded hs h

theorem strTail_bounded {junk old b0 v : List Byte} {z : Nat} {s s' : IS} (hs : s.Inv)
    (h : strTail junk old b0 z s = .ret v s') : v = old ∨ ∃ q, IsSlice s.buf q v := by
  obtain ⟨b, x, e, h⟩ := bind_ret_inv h
  have st : Stays s (.ret b x) := e ▸ ISafe.verify z s hs
  cases b with
  | false =>
    have h : (Out.ret old x : Out IS (List Byte)) = .ret v s' := h
    injection h with h _; exact Or.inl h.symm
  | true =>
    obtain ⟨bs, y, e2, h⟩ := bind_ret_inv (m := IS.read ((junk.drop 1).take z) z) (f := strDecode junk old b0 z) h
    have st2 : Stays x (.ret bs y) := e2 ▸ ISafe.read _ _ x st.toRet.1
    rcases strDecode_bounded st2.toRet.1 h with h | h
    · exact Or.inl h
    · rw [st2.toRet.2, st.toRet.2] at h
      exact Or.inr ⟨_, h⟩

theorem readStr_bounded {junk old v : List Byte} {s s' : IS} (hs : s.Inv) (h : readStr junk old s = .ret v s') :
    v = old ∨ ∃ q, IsSlice s.buf q v := by
  rw [readStr_eq] at h
  obtain ⟨b0, x, e1, h⟩ := bind_ret_inv h
  have st1 : Stays s (.ret b0 x) := e1 ▸ ISafe.iread _ _ s hs
  have := strTail_bounded st1.toRet.1 h
  rw [st1.toRet.2] at this
  exact this

/-- **C40** a hostile length cannot make a string outgrow the stream: whatever the bytes, after `is >> str` the string
is what it was or it is a run of bytes of the stream. -/
theorem string_read_bounded (junk old v : List Byte) (s s' : IS) (hp : s.pos ≤ s.buf.length)
    (hl : s.buf.length + 8 ≤ W) (h : read junk .str old s = .ret v s') :
    v = old ∨ ∃ q, IsSlice s.buf q v := readStr_bounded ⟨hp, hl⟩ h

theorem strBody_refused {old : List Byte} {n : Nat} {s : IS} (h : s.buf.length < s.pos + n) (hp : s.pos ≤ s.buf.length)
    (hl : s.buf.length + 8 ≤ W) : strBody old n s = IS.read old n s := by
  have hs : s.Inv := ⟨hp, hl⟩
  unfold strBody IS.read
  cases hv : IS.verify n s with
  | oob => have := ISafe.verify n s hs; rw [hv] at this; exact this.toOob.elim
  | exn x => rw [M.bind_exn hv, M.bind_exn hv]
  | ret b x =>
    have hb : b = false := by
      cases b with
      | false => rfl
      | true => have := ((verify_ret hs hv).2.2.1 rfl).2; omega
    subst hb
    rw [M.bind_ret hv, M.bind_ret hv]
    rfl

theorem iread_eq (old : List Byte) (n : Nat) : IS.iread old n = IS.read old n := by
  unfold IS.iread IS.read; rfl

theorem bind_at {α β : Type} {m : M IS α} {f : α → M IS β} {s s' : IS} {a : α} {o : Out IS β} (h : m s = .ret a s') (g : f a s' = o) :
    (m >>= f) s = o := (M.bind_ret h).trans g
theorem strTail_ok (b0 junk old : List Byte) (z : Nat) (bs : List Byte) (s1 s2 : IS) (o : Out IS (List Byte)) (e2 : IS.verify z s1 = .ret true s1)
  (e3 : IS.read ((junk.drop 1).take z) z s1 = .ret bs s2)
  (e5 : strDecode junk old b0 z bs s2 = o) : strTail junk old b0 z s1 = o := by
  unfold strTail
  refine bind_at e2 ?_
  rw [if_pos rfl]
  exact bind_at e3 e5
theorem readStr_ok (junk old b0 : List Byte) (s s1 : IS) (o : Out IS (List Byte)) (e1 : IS.iread (junk.take 1) 1 s = .ret b0 s1)
  (e5 : strTail junk old b0 (lenMore b0) s1 = o) : readStr junk old s = o := by
  exact (congrFun (readStr_eq junk old) s).trans (bind_at e1 e5)

theorem readStr_short {junk old : List Byte} {s : IS} {c : Byte} (hc : c.toNat < 128)
    (hp : s.pos < s.buf.length) (he : s.buf[s.pos] = c) (hl : s.buf.length + 8 ≤ W) :
    readStr junk old s = strBody old c.toNat { s with pos := s.pos + 1 } := by
  have hs : s.Inv := ⟨by omega, hl⟩
  have e1 : IS.iread (junk.take 1) 1 s = .ret [c] { s with pos := s.pos + 1 } := by
    have := read_exact s (junk.take 1) 1 (by omega) hl
    rw [List.drop_eq_getElem_cons hp, he] at this
    rw [iread_eq, this]
    rfl
  have hsq : Utf8.seqBytes c.toNat = 1 := by
    have : ∀ b : Fin 128, Utf8.seqBytes b.val = 1 := by decide +kernel
    exact this ⟨c.toNat, hc⟩
  have e2 : IS.verify 0 { s with pos := s.pos + 1 } = .ret true { s with pos := s.pos + 1 } :=
    verify_true ⟨hp, hl⟩ (by simp only; omega)
  have e3 : IS.read ((junk.drop 1).take 0) 0 { s with pos := s.pos + 1 } = .ret [] { s with pos := s.pos + 1 } := by
    exact (read_exact { s with pos := s.pos + 1 } _ 0 (by simp only; omega) hl).trans (by simp)
  have e4 : Utf8.read ([c] ++ [] ++ junk.drop (1 + 0)) 0 = some ⟨0, c.toNat⟩ := by
    have h0 : rd ([c] ++ [] ++ junk.drop (1 + 0)) 0 = some c := by simp [rd]
    have hm : c.toNat &&& (0xFF >>> 1) = c.toNat := by
      have : ∀ b : Fin 128, b.val &&& (0xFF >>> 1) = b.val := by decide +kernel
      exact this ⟨c.toNat, hc⟩
    unfold Utf8.read
    rw [h0]
    simp only
    rw [hsq, hm]
    rfl
  have hz : lenMore [c] = 0 := by simp [lenMore, hsq]
  have e5 : strDecode junk old [c] 0 [] = strBody old c.toNat := by
    unfold strDecode
    rw [e4]
    simp only
    rw [sext_eq (by omega)]
  refine readStr_ok junk old [c] s _ _ e1 ?_
  rw [hz]
  exact strTail_ok [c] junk old 0 [] _ _ _ e2 e3 (congrFun e5 _)

theorem readStr_refused {junk old : List Byte} {s : IS} {c : Byte} (hc : c.toNat < 128)
    (hp : s.pos < s.buf.length) (he : s.buf[s.pos] = c) (hn : s.buf.length < s.pos + 1 + c.toNat) (hl : s.buf.length + 8 ≤ W) :
    ∃ i, i.fail = true ∧ i.exc = s.ios.exc ∧ (readStr junk old s = .ret old { s with pos := s.pos + 1, ios := i } ∨
      readStr junk old s = .exn { s with pos := s.pos + 1, ios := i }) := by
  rw [readStr_short hc hp he hl, strBody_refused (s := { s with pos := s.pos + 1 }) hn hp hl]
  obtain ⟨i, _, q2, q3, q4⟩ := read_beyond { s with pos := s.pos + 1 } old c.toNat hn hp hl
  refine ⟨i, q2, q3, ?_⟩
  rcases q4 with ⟨q4, _⟩ | q4
  · exact Or.inl q4
  · exact Or.inr q4

theorem read_str (junk old : List Byte) : read junk .str old = readStr junk old := by
  rfl

/-- **C40** a string whose announced length exceeds what remains: `read` of a length byte `c` (a one-byte length) that
is too big leaves the string as it was, the position just after the length, and sets `failbit` (or throws). -/
theorem string_read_refused (junk old : List Byte) (s : IS) (c : Byte) (hc : c.toNat < 128)
    (hp : s.pos < s.buf.length) (he : s.buf[s.pos] = c) (hn : s.buf.length < s.pos + 1 + c.toNat) (hl : s.buf.length + 8 ≤ W) :
    ∃ i, i.fail = true ∧ i.exc = s.ios.exc ∧ (read junk .str old s = .ret old { s with pos := s.pos + 1, ios := i } ∨
      read junk .str old s = .exn { s with pos := s.pos + 1, ios := i }) := by
  rw [read_str]
  exact readStr_refused hc hp he hn hl

example : (match readStr (List.replicate 8 0) [65, 66] { buf := [5, 1, 2], ios := { exc := 0 } } with
  | .ret v s => decide ((v : List Byte) = [65, 66] ∧ s.pos = 1 ∧ s.ios.fail = true) | _ => false) = true := by decide +kernel

example : (match readStr (List.replicate 8 0) [65, 66] { buf := [2, 1, 2] } with
  | .ret v s => decide ((v : List Byte) = [1, 2] ∧ s.pos = 3 ∧ s.ios.fail = false) | _ => false) = true := by decide +kernel

theorem readBlk_eq (old : List Byte) : readBlk old = (IS.readInt 4 0 >>= fun n => blkBody old n) := by
  unfold readBlk; rfl

theorem blkBody_bounded {old v : List Byte} {n : Nat} {s s' : IS} (hs : s.Inv) (h : blkBody old n s = .ret v s') :
    v = old ∨ IsSlice s.buf s.pos v := by
  obtain ⟨b, x, e, g⟩ := bind_ret_inv h
  obtain ⟨_, _, q3, _⟩ := verify_ret (n := n) hs e
  cases b with
  | false =>
    have h : (Out.ret old x : Out IS (List Byte)) = .ret v s' := g
    injection h with h _; exact Or.inl h.symm
  | true =>
    obtain ⟨rfl, q3⟩ := q3 rfl
    obtain ⟨d, x3, e3, h⟩ := bind_ret_inv (m := IS.read (resize 0 old n) n) (f := fun d => IS.align 4 >>= fun _ => pure d) g
    obtain ⟨_, x4, e4, h⟩ := bind_ret_inv h
    have h : (Out.ret d x4 : Out IS (List Byte)) = .ret v s' := h
    injection h with h _
    subst h
    exact Or.inr (read_slice hs q3 e3)

theorem readBlk_bounded {old v : List Byte} {s s' : IS} (hs : s.Inv) (h : readBlk old s = .ret v s') :
    v = old ∨ ∃ q, IsSlice s.buf q v := by
  rw [readBlk_eq] at h
  obtain ⟨n, x, e1, h⟩ := bind_ret_inv h
  have st1 : Stays s (.ret n x) := e1 ▸ ISafe.readInt 4 0 s hs
  rcases blkBody_bounded st1.toRet.1 h with h | h
  · exact Or.inl h
  · rw [st1.toRet.2] at h
    exact Or.inr ⟨_, h⟩

/-- **C40** the same for a `memblock`: after `is >> blk` it is what it was or a run of bytes of the stream. -/
theorem memblock_read_bounded (junk old v : List Byte) (s s' : IS) (hp : s.pos ≤ s.buf.length)
    (hl : s.buf.length + 8 ≤ W) (h : read junk .blk old s = .ret v s') : v = old ∨ ∃ q, IsSlice s.buf q v :=
  readBlk_bounded ⟨hp, hl⟩ h

example : (match readBlk [65, 66] { buf := [5, 0, 0, 0, 9], ios := { exc := 0 } } with
  | .ret v s => decide ((v : List Byte) = [65, 66] ∧ s.pos = 4 ∧ s.ios.fail = true) | _ => false) = true := by decide +kernel

example : (match readBlk [65, 66] { buf := [1, 0, 0, 0, 9, 0, 0, 0] } with
  | .ret v s => decide ((v : List Byte) = [9] ∧ s.pos = 8 ∧ s.ios.fail = false) | _ => false) = true := by decide +kernel

end Ustl.Stream
