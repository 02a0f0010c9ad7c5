import Verif.Exn.Round
/-! # Reading backtraces from damaged streams: theorems for C62 -/
namespace Ustl.Exn
open Ustl.Stream

/-- A backtrace of two frames. -/
def exBt : Bt := ⟨(List.range 16).map UInt8.ofNat ++ List.replicate 496 0, some [0x66, 10, 0x67, 10], 2, 4⟩

/-- A system error with that backtrace. -/
def exSys : Ex := .sys ⟨3, exBt⟩ [0x6e, 0x6f] [0x6f, 0x70, 0x65, 0x6e] 2

theorem exBt_ok : exBt.Ok := ⟨by decide +kernel, by decide +kernel, by decide +kernel, by decide +kernel⟩

theorem exSys_ok : exSys.Ok := ⟨by decide, exBt_ok, ⟨by decide, by decide, by decide⟩, by
  show ssSys _ _ _ < _
  decide +kernel⟩

/-- The exceptions of `exception_round_trip` and `exception_size_exact` exist, and the buffer too. -/
example : exSys.ss = 64 ∧ ∃ s', exSys.write { buf := List.replicate 64 0 } = .ret () s' ∧ s'.pos = 64 := by
  have hss : exSys.ss = 64 := by decide +kernel
  obtain ⟨s', h1, h2, _⟩ := exception_size_exact exSys { buf := List.replicate 64 0 } rfl (by simp [W])
    (by decide) exSys_ok (by rw [hss]; simp)
  exact ⟨hss, s', h1, by rw [h2, hss]⟩

example : SameClass exSys (.sys ⟨3, exBt⟩ [] [] 0) ∧ FieldsOk (.file ⟨13, exBt⟩ [] [0x6f] 2 (fileName (some [0x61]))) :=
  ⟨trivial, by decide, by decide, by decide, _, rfl⟩

theorem readInt_at (s : IS) (k old : Nat) (hs : s.Inv) (h : s.pos + k ≤ s.buf.length) :
    IS.readInt k old s = .ret (leVal ((s.buf.drop s.pos).take k)) { s with pos := s.pos + k } := by
  obtain ⟨d, hd, e, _⟩ := take_in hs h
  have hv : IS.verify k s = .ret true s := verify_true hs h
  unfold IS.readInt
  rw [M.bind_ret hv, if_pos rfl, M.bind_ret hd, e]
  rfl

theorem two_ints {β : Type} {k a b : Nat} {f : Nat → Nat → M IS β} {s : IS} (hs : s.Inv)
    (h : s.pos + k + k ≤ s.buf.length) :
    (IS.readInt k a >>= fun n => IS.readInt k b >>= fun z => f n z) s =
      f (leVal ((s.buf.drop s.pos).take k)) (leVal ((s.buf.drop (s.pos + k)).take k)) { s with pos := s.pos + k + k } := by
  have h1 := readInt_at s k a hs (by omega)
  have h2 := readInt_at { s with pos := s.pos + k } k b ⟨by show s.pos + k ≤ s.buf.length; omega, hs.2⟩ h
  rw [M.bind_ret h1, M.bind_ret h2]

theorem ISafe.syms (junk : List Byte) {z : Nat} (hz : z < 2 ^ 32 - 1) : ISafe (btSyms junk z) := by
  have e : z < u32 (z + 1) := by unfold u32; rw [Nat.mod_eq_of_lt (by omega)]; omega
  unfold btSyms
  simp only [if_pos e]
  exact ISafe.bind (ISafe.read _ _) (fun _ => ISafe.pure _)

theorem ISafe.addrs {old : List Byte} {n : Nat} (hn : n ≤ old.length) : ISafe (btAddrs old n) := by
  unfold btAddrs
  simp only [if_pos hn]
  exact ISafe.take_map (fun d => d ++ old.drop n) (ISafe.pure _)

theorem ISafe.rest (junk : List Byte) {old : Bt} {n z : Nat} (ho : old.addrs.length = 512) (hn : n ≤ 64)
    (hz : z < 2 ^ 32 - 1) : ISafe (btRest junk old n z) := by
  unfold btRest
  exact ISafe.bind (ISafe.syms junk hz) (fun _ => ISafe.bind (ISafe.align (by decide)) (fun _ =>
    ISafe.bind (ISafe.addrs (by omega)) (fun _ => ISafe.pure _)))

/-- **C62** reading a backtrace from bytes nobody vouches for stays inside the stream and inside the object, whatever
follows, as long as the number of frames is at most 64 and the size of the symbols is not 2^32 - 1. -/
theorem backtrace_read_safe_partial (junk : List Byte) (old : Bt) (s : IS) (ho : old.addrs.length = 512)
    (hl : s.buf.length + 8 ≤ W) (h8 : s.pos + 4 + 4 ≤ s.buf.length)
    (hn : leVal ((s.buf.drop s.pos).take 4) ≤ 64) (hz : leVal ((s.buf.drop (s.pos + 4)).take 4) < 2 ^ 32 - 1) :
    Bt.read junk old s ≠ .oob := by
  intro e
  rw [Bt.read_eq, two_ints ⟨by omega, hl⟩ h8] at e
  have := ISafe.rest junk ho hn hz { s with pos := s.pos + 4 + 4 } ⟨h8, hl⟩
  rw [e] at this
  exact this.toOob

example : leVal (([2, 0, 0, 0, 1, 0, 0, 0, 0x41] : List Byte).take 4) ≤ 64 ∧
    leVal ((([2, 0, 0, 0, 1, 0, 0, 0, 0x41] : List Byte).drop 4).take 4) < 2 ^ 32 - 1 := by decide

theorem btSyms_in {junk : List Byte} {z : Nat} {s : IS} (hs : s.Inv) (hz : z < 2 ^ 32 - 1)
    (h : s.pos + z ≤ s.buf.length) :
    btSyms junk z s = .ret ((s.buf.drop s.pos).take z) { s with pos := s.pos + z } := by
  have e : z < u32 (z + 1) := by unfold u32; rw [Nat.mod_eq_of_lt (by omega)]; omega
  unfold btSyms
  simp only [if_pos e]
  rw [M.bind_ret (read_exact s _ z h hs.2)]
  rfl

theorem btAddrs_out {old : List Byte} {n : Nat} {s : IS} (hs : s.Inv) (h : s.pos + n ≤ s.buf.length)
    (hn : old.length < n) : btAddrs old n s = .oob := by
  obtain ⟨d, hd, _, _⟩ := take_in hs h
  have hg : ¬ n ≤ old.length := by omega
  unfold btAddrs
  rw [M.bind_ret (verify_true hs h)]
  simp only [if_true]
  rw [M.bind_ret hd]
  simp only [if_neg hg]
  rfl

theorem align_in {s : IS} (hs : s.Inv) (h : s.pos + pad s.pos 8 ≤ s.buf.length) :
    IS.align 8 s = .ret () { s with pos := s.pos + pad s.pos 8 } := by
  have hl := hs.2
  unfold IS.align IS.seek
  rw [if_neg (by decide), align8 s.pos (by have := hs.1; omega), if_neg (by omega)]

theorem btRest_out {junk : List Byte} {old : Bt} {n z : Nat} {s : IS} (hs : s.Inv) (hz : z < 2 ^ 32 - 1)
    (hn : old.addrs.length < n * 8) (h : s.pos + z + pad (s.pos + z) 8 + n * 8 ≤ s.buf.length) :
    btRest junk old n z s = .oob := by
  have e1 := btSyms_in (junk := junk) hs hz (by omega)
  have e2 := align_in (s := { s with pos := s.pos + z }) ⟨by show s.pos + z ≤ s.buf.length; omega, hs.2⟩
    (by show s.pos + z + pad (s.pos + z) 8 ≤ s.buf.length; omega)
  have e3 := btAddrs_out (old := old.addrs) (n := n * 8) (s := { s with pos := s.pos + z + pad (s.pos + z) 8 })
    ⟨by show s.pos + z + pad (s.pos + z) 8 ≤ s.buf.length; omega, hs.2⟩ h hn
  unfold btRest
  rw [M.bind_ret e1, M.bind_ret e2]
  exact M.bind_oob e3

/-- **C62** a number of frames above 64 is not refused: if the stream has the bytes, they are written past the end of
the array of 64 addresses, inside the exception object being read. (Exceptions are read from other processes, so the
bytes are not the reader's own.) -/
theorem backtrace_read_violated (junk : List Byte) (old : Bt) (s : IS) (ho : old.addrs.length = 512)
    (hl : s.buf.length + 8 ≤ W) (n z : Nat) (h8 : s.pos + 4 + 4 ≤ s.buf.length)
    (hn : leVal ((s.buf.drop s.pos).take 4) = n) (hz : leVal ((s.buf.drop (s.pos + 4)).take 4) = z)
    (hn64 : 64 < n) (hzs : z < 2 ^ 32 - 1)
    (hr : s.pos + 4 + 4 + z + pad (s.pos + 4 + 4 + z) 8 + n * 8 ≤ s.buf.length) :
    Bt.read junk old s = .oob := by
  rw [Bt.read_eq, two_ints ⟨by omega, hl⟩ h8, hn, hz]
  exact btRest_out (s := { s with pos := s.pos + 4 + 4 }) ⟨h8, hl⟩ hzs (by omega) hr

example : leVal ((leBytes 4 65).take 4) = 65 ∧ 0 + 4 + 4 + 0 + pad (0 + 4 + 4 + 0) 8 + 65 * 8 ≤
    (leBytes 4 65 ++ leBytes 4 0 ++ List.replicate 520 0).length := by decide +kernel

end Ustl.Exn
