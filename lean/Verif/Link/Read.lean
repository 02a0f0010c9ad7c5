import Verif.Link.Props
import Verif.Stream.Props
import Verif.Stream.Bounded
/-! # Reading a link from a stream: theorems for C65 -/
namespace Ustl.Link
open Ustl.Stream

/-- The part of `memlink::read` after the checks. -/
def linkTail (win : List Byte) (n : Nat) : M IS (Option (List Byte)) :=
  IS.read (win.take n) n >>= fun d => IS.align 4 >>= fun _ => Pure.pure (some d)

/-- What is done if the stream has `n` bytes. -/
def linkMid (win : List Byte) (n : Nat) : M IS (Option (List Byte)) :=
  if win.length < n then Pure.pure none else linkTail win n

theorem linkBody_eq (win : List Byte) (n : Nat) : linkBody win n =
    (IS.verify n >>= fun b => if b = true then linkMid win n else Pure.pure (some win)) := rfl

theorem readLink_eq (win : List Byte) : readLink win = (IS.readInt 4 0 >>= fun n => linkBody win n) := rfl

theorem Reads.link {win v : List Byte} {p r : Nat} (h : v.length < 2 ^ 32) (hw : v.length ≤ win.length) :
    Reads (readLink win) p (encBlk v p) r (some v) := by
  rw [readLink_eq]
  unfold encBlk
  refine Reads.seq (v := v.length) (Reads.int (by simpa using h)) ?_
  rw [leBytes_length, linkBody_eq]
  refine Reads.guarded (by simp only [List.length_append]; omega) ?_
  unfold linkMid
  rw [if_neg (by omega)]
  unfold linkTail
  refine Reads.seq (v := v) (Reads.read rfl) ?_
  exact Reads.map (g := fun _ => some v) (Reads.align (by simp [Grain]))

/-- **C65** a block written by `os << link` and read by `is >> link` into linked storage of at least that size: the storage
then starts with exactly the bytes written, the link has their size, and the reader stops where the writer stopped. -/
theorem memlink_round_trip (v win : List Byte) (s s' : OS) (hb : s.base % 8 = 0) (hl : s.buf.length + 8 ≤ W)
    (hp : s.pos ≤ s.buf.length) (he : s.ios.exc &&& 4 ≠ 0) (hv : v.length < 2 ^ 32) (hw : v.length ≤ win.length)
    (h : writeBlk v s = .ret () s') :
    readLink win { s'.toIS with pos := s.pos } = .ret (some v) { s'.toIS with pos := s'.pos } := by
  obtain ⟨w1, w2⟩ := Writes.blk hv s hb (by omega) hp
  have h1 : s.pos + (encBlk v s.pos).length ≤ s.buf.length := by
    refine Classical.byContradiction fun hn => ?_
    obtain ⟨x, hx⟩ := w2 (by omega) he
    rw [hx] at h
    cases h
  rw [w1 h1] at h
  injection h with _ h
  subst h
  have hlen : (s.buf.take s.pos).length = s.pos := by simp; omega
  have hbuf := toIS_buf h1
  exact Reads.link (r := 0) hv hw { (s.after (encBlk v s.pos)).toIS with pos := s.pos } _ [] hbuf hlen rfl (Nat.zero_le _)
    (by show (s.after (encBlk v s.pos)).toIS.buf.length + 8 ≤ W
        rw [hbuf]; simp only [List.length_append, hlen, List.length_nil]; omega)

theorem Reads.none_ {win : List Byte} {n p r : Nat} (h : n < 2 ^ 32) (hw : win.length < n) (hr : n ≤ r) :
    Reads (readLink win) p (leBytes 4 n) r none := by
  rw [readLink_eq]
  have h0 : Reads (linkBody win n) (p + 4) [] r none := by
    rw [linkBody_eq]
    refine Reads.guarded (by simpa using hr) ?_
    unfold linkMid
    rw [if_pos hw]
    exact Reads.pure _ _ _
  have := Reads.seq (m := IS.readInt 4 0) (f := fun n => linkBody win n) (e := leBytes 4 n) (v := n) (p := p) (r := r) (e' := [])
    (Reads.int (by simpa using h)) (by rw [leBytes_length]; exact h0)
  simpa using this

/-- **C65** a block larger than the linked storage is refused with `length_error`: nothing is stored, and only the size was
taken from the stream. -/
theorem memlink_read_refused (win : List Byte) (n : Nat) (hn : n < 2 ^ 32) (hw : win.length < n) (s : IS) (pre post : List Byte)
    (hb : s.buf = pre ++ (leBytes 4 n ++ post)) (hp : s.pos = pre.length) (hr : n ≤ post.length) (hl : s.buf.length + 8 ≤ W) :
    readLink win s = .ret none { s with pos := s.pos + 4 } := by
  have := Reads.none_ (p := pre.length) (r := n) hn hw (Nat.le_refl _) s pre post hb rfl hp hr hl
  rw [leBytes_length] at this
  rw [this, hp]

example : readLink [0, 0] { buf := [3, 0, 0, 0, 7, 8, 9, 0] } = .ret none { buf := [3, 0, 0, 0, 7, 8, 9, 0], pos := 4 } :=
  memlink_read_refused [0, 0] 3 (by decide) (by decide) _ [] [7, 8, 9, 0] (by decide) rfl (by decide) (by simp [W])

theorem ISafe.linkBody (win : List Byte) (n : Nat) : ISafe (Ustl.Link.linkBody win n) := by
  rw [linkBody_eq]
  refine ISafe.bind (ISafe.verify n) (fun b => ?_)
  cases b with
  | false => exact ISafe.pure _
  | true =>
    simp only [if_true]
    unfold linkMid
    split
    · exact ISafe.pure _
    · exact ISafe.bind (ISafe.read _ _) (fun d => ISafe.bind (ISafe.align (by decide)) (fun _ => ISafe.pure _))

theorem linkTail_bounded {win d : List Byte} {n : Nat} {s s' : IS} (hs : s.Inv) (hn : s.pos + n ≤ s.buf.length)
    (h : linkTail win n s = .ret (some d) s') : d.length = n ∧ IsSlice s.buf s.pos d := by
  obtain ⟨b, x, e, g⟩ := bind_ret_inv h
  obtain ⟨_, y, _, g⟩ := bind_ret_inv g
  have g : (Out.ret (some b) y : Out IS (Option (List Byte))) = .ret (some d) s' := g
  injection g with g _
  injection g with g
  subst g
  have h1 := read_slice hs hn e
  rw [read_exact s _ n hn hs.2] at e
  injection e with e _
  exact ⟨by rw [← e]; simp; omega, h1⟩

theorem linkBody_bounded {win d : List Byte} {n : Nat} {s s' : IS} (hs : s.Inv) (h : linkBody win n s = .ret (some d) s') :
    d.length ≤ win.length ∧ (d = win ∨ IsSlice s.buf s.pos d) := by
  rw [linkBody_eq] at h
  obtain ⟨b, y, e, g⟩ := bind_ret_inv h
  obtain ⟨_, _, q3, _⟩ := verify_ret (n := n) hs e
  cases b with
  | false =>
    have h : (Out.ret (some win) y : Out IS (Option (List Byte))) = .ret (some d) s' := g
    injection h with h _
    injection h with h
    exact ⟨by rw [h]; exact Nat.le_refl _, Or.inl h.symm⟩
  | true =>
    obtain ⟨q, q3⟩ := q3 rfl
    have g : linkMid win n y = .ret (some d) s' := g
    rw [q] at g
    unfold linkMid at g
    by_cases hw : win.length < n
    · rw [if_pos hw] at g; cases g
    · rw [if_neg hw] at g
      obtain ⟨h1, h2⟩ := linkTail_bounded hs q3 g
      exact ⟨by omega, Or.inr h2⟩

/-- **C65** whatever the stream holds, reading into a link stays inside the stream, and what is stored is never longer than
the linked storage: it is what was there before or a run of bytes of the stream. -/
theorem memlink_read_bounded (win : List Byte) (s : IS) (hp : s.pos ≤ s.buf.length) (hl : s.buf.length + 8 ≤ W) :
    readLink win s ≠ .oob ∧ ∀ d s', readLink win s = .ret (some d) s' →
      d.length ≤ win.length ∧ s'.pos ≤ s'.buf.length ∧ s'.buf = s.buf ∧ (d = win ∨ ∃ q, IsSlice s.buf q d) := by
  have hs : s.Inv := ⟨hp, hl⟩
  have safe : ISafe (readLink win) := by
    rw [readLink_eq]; exact ISafe.bind (ISafe.readInt 4 0) (fun n => ISafe.linkBody win n)
  have st := safe s hs
  refine ⟨fun e => ?_, fun d s' h => ?_⟩
  · rw [e] at st; exact st.toOob
  · rw [h] at st
    rw [readLink_eq] at h
    obtain ⟨n, x, e1, h⟩ := bind_ret_inv h
    have st1 : Stays s (.ret n x) := e1 ▸ ISafe.readInt 4 0 s hs
    obtain ⟨h1, h2⟩ := linkBody_bounded st1.toRet.1 h
    rw [st1.toRet.2] at h2
    exact ⟨h1, st.toRet.1.1, st.toRet.2, h2.imp id fun h => ⟨_, h⟩⟩

example : (match readLink [65, 66] { buf := [1, 0, 0, 0, 9, 0, 0, 0] } with
  | .ret v s => decide (v = some [9] ∧ s.pos = 8) | _ => false) = true := by decide +kernel

/-- **C65** storage of 4 bytes does not take a block of 1 byte and then one of 2: the first read shrinks the link, so the second
is refused although the storage is large enough. -/
theorem memlink_read_twice_violated :
    ((readLink [0, 0, 0, 0] >>= fun d => readLink (d.getD []) : M IS (Option (List Byte)))
      { buf := [1, 0, 0, 0, 9, 0, 0, 0, 2, 0, 0, 0, 7, 8, 0, 0] }) =
      .ret none { buf := [1, 0, 0, 0, 9, 0, 0, 0, 2, 0, 0, 0, 7, 8, 0, 0], pos := 12 } := by
  have h1 : readLink [0, 0, 0, 0] { buf := [1, 0, 0, 0, 9, 0, 0, 0, 2, 0, 0, 0, 7, 8, 0, 0] } =
      .ret (some [9]) { buf := [1, 0, 0, 0, 9, 0, 0, 0, 2, 0, 0, 0, 7, 8, 0, 0], pos := 8 } :=
    Reads.link (win := [0, 0, 0, 0]) (v := [9]) (p := 0) (r := 0) (by decide) (by decide) _ [] [2, 0, 0, 0, 7, 8, 0, 0]
      (by decide) rfl rfl (Nat.zero_le _) (by simp [W])
  rw [M.bind_ret h1]
  exact memlink_read_refused [9] 2 (by decide) (by decide) _ [1, 0, 0, 0, 9, 0, 0, 0] [7, 8, 0, 0] (by decide) rfl (by decide)
    (by simp [W])

end Ustl.Link
