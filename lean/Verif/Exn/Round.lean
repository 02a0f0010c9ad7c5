import Verif.Exn.Props
import Verif.Stream.Props
/-! # Exceptions and backtraces: the theorems for C62 -/
namespace Ustl.Exn
open Ustl.Stream

/-! ## Sizes -/

theorem pad8 (p n : Nat) (h : 8 ∣ p) : pad (p + n) 8 = pad n 8 := pad_shift h

theorem align8 (n : Nat) (h : n + 7 < W) : align n 8 = n + pad n 8 := align_eq grain8 h

theorem cat_length (d e : Nat → List Byte) (p : Nat) : (cat d e p).length = (d p).length + (e (p + (d p).length)).length := by
  unfold cat; exact List.length_append

theorem fill8_length (p : Nat) : (fill8 p).length = pad p 8 := List.length_replicate

theorem raw_length (d : List Byte) (p : Nat) : (raw d p).length = d.length := rfl

theorem le4 (n : Nat) : (leBytes 4 n).length = 4 := leBytes_length 4 n
theorem le8 (n : Nat) : (leBytes 8 n).length = 8 := leBytes_length 8 n

/-- A number of bytes that are a multiple of 8. -/
theorem dvd8_pad (n : Nat) : 8 ∣ n + pad n 8 := pad_dvd grain8

theorem pad8_bt (z n : Nat) : pad (8 + z) 8 = pad (4 + 4 + n * 8 + z) 8 := by unfold pad; omega

theorem encBt_length {b : Bt} (h : b.Ok) {p : Nat} (hp : 8 ∣ p) : (encBt b p).length = b.ss ∧ 8 ∣ b.ss := by
  have h1 := h.frames
  have h2 := h.small
  have hl : (b.addrs.take (b.nFrames * 8)).length = b.nFrames * 8 := by rw [List.length_take, h.slots]; omega
  have ha : b.ss = 4 + 4 + b.nFrames * 8 + b.symsSize + pad (4 + 4 + b.nFrames * 8 + b.symsSize) 8 :=
    align8 _ (by show _ < 2 ^ 64; omega)
  refine ⟨?_, ha ▸ dvd8_pad _⟩
  unfold encBt
  simp only [cat_length, raw_length, fill8_length, le4, hl, h.table]
  have e : p + 4 + 4 + b.symsSize = p + (8 + b.symsSize) := by omega
  rw [e, pad8 p _ hp, ha, pad8_bt b.symsSize b.nFrames]
  omega

theorem encBase_length {total : Nat} {b : Base} (h : b.bt.Ok) {p : Nat} (hp : 8 ∣ p) :
    (encBase total b p).length = ssBase b ∧ 8 ∣ ssBase b := by
  have h8 : 8 ∣ p + 4 + 4 := by omega
  obtain ⟨h1, h2⟩ := encBt_length h h8
  unfold encBase ssBase
  simp only [cat_length, raw_length, le4]
  exact ⟨by omega, by omega⟩

theorem boundLoop_le (v : Nat) : ∀ (l : List Nat) (k : Nat), Utf8.boundLoop v l k ≤ k + l.length
  | [], _ => Nat.le_refl _
  | b :: l, k => by
    unfold Utf8.boundLoop
    split
    · have := boundLoop_le v l (k + 1); simp only [List.length_cons]; omega
    · simp only [List.length_cons]; omega

theorem utf8Bytes_le (v : Nat) : Utf8.utf8Bytes v ≤ 7 := by
  unfold Utf8.utf8Bytes
  split
  · omega
  · have := boundLoop_le v Utf8.bounds 0
    have e : Utf8.bounds.length = 7 := rfl
    omega

theorem ssStr_lt {v : List Byte} (h : v.length < 2 ^ 31) : ssStr v < 2 ^ 31 + 8 := by
  have h2 : Utf8.utf8Bytes v.length ≤ 7 := by
    exact utf8Bytes_le _
  unfold ssStr; omega

theorem encStrA_length {v : List Byte} (h : v.length < 2 ^ 31) {p : Nat} (hp : 8 ∣ p) :
    (encStrA v p).length = align (ssStr v) 8 ∧ 8 ∣ align (ssStr v) 8 := by
  have hs := ssStr_lt h
  have he : (encStr v).length = ssStr v := encStr_length h
  rw [align8 (ssStr v) (by show _ < 2 ^ 64; omega)]
  unfold encStrA
  simp only [cat_length, raw_length, fill8_length, he]
  exact ⟨by rw [pad8 p _ hp], dvd8_pad _⟩

theorem encMsg_length {total : Nat} {b : Base} {a : List Byte} (h : b.bt.Ok) (ha : a.length < 2 ^ 31) {p : Nat}
    (hp : 8 ∣ p) : (cat (encBase total b) (encStrA a) p).length = ssMsg b a ∧ 8 ∣ ssMsg b a := by
  obtain ⟨h1, h2⟩ := encBase_length (total := total) h hp
  obtain ⟨h3, h4⟩ := encStrA_length ha (p := p + ssBase b) (by omega)
  unfold ssMsg
  rw [cat_length, h1, h3]
  exact ⟨rfl, by omega⟩

theorem errno_length (e p : Nat) (hp : 8 ∣ p) : (cat (raw (leBytes 4 e)) fill8 p).length = 8 := by
  simp only [cat_length, raw_length, fill8_length, le4]
  unfold pad; omega

theorem align48 : align 4 8 = 8 := by rw [align8 4 (by decide)]; rfl

theorem encSys_length {total : Nat} {b : Base} {a o : List Byte} {e : Nat} (h : b.bt.Ok) (ha : a.length < 2 ^ 31)
    (ho : o.length < 2 ^ 31) {p : Nat} (hp : 8 ∣ p) :
    (encSys total b a o e p).length = ssSys b a o ∧ 8 ∣ ssSys b a o := by
  obtain ⟨h1, h2⟩ := encMsg_length (total := total) h ha hp
  obtain ⟨h3, h4⟩ := encStrA_length ho (p := p + ssMsg b a) (by omega)
  have h5 := errno_length e (p + ssMsg b a + align (ssStr o) 8) (by omega)
  unfold encSys ssSys
  rw [cat_length, h1, cat_length, h3, h5, align48]
  exact ⟨by omega, by omega⟩

theorem file_small (n : Option (List Byte)) : (cstr (fileName n)).length < 2 ^ 31 := by
  have := cstr_length_le (fileName n)
  rw [fileName_length] at this
  omega

theorem encEx_length {x : Ex} (h : x.Ok) (total : Nat) {p : Nat} (hp : 8 ∣ p) : (encEx total x p).length = x.ss := by
  obtain ⟨_, hb, hx, _⟩ := h
  cases x with
  | base b => exact (encBase_length hb hp).1
  | badAlloc b n =>
    have hb : b.bt.Ok := hb
    show (cat _ _ p).length = _
    rw [cat_length, (encBase_length (total := total) hb hp).1, raw_length, le8]; rfl
  | msg b a => exact (encMsg_length hb hx hp).1
  | sys b a o e => exact (encSys_length hb hx.1 hx.2.1 hp).1
  | file b a o e f =>
    obtain ⟨ha, ho, _, n, rfl⟩ := hx
    have hb : b.bt.Ok := hb
    obtain ⟨h1, h2⟩ := encSys_length (total := total) (e := e) hb ha ho hp
    show (cat _ _ p).length = _
    rw [cat_length, h1, (encStrA_length (file_small n) (p := p + ssSys b a o)
      (Nat.dvd_add hp h2)).1]
    rfl
  | bounds b a o e t q n r =>
    have hb : b.bt.Ok := hb
    obtain ⟨h1, h2⟩ := encSys_length (total := total) (e := e) hb hx.1 hx.2.1 hp
    show (cat _ _ p).length = _
    rw [cat_length, h1]
    simp only [cat_length, raw_length, le8]
    rfl

/-! ## Round trip -/

theorem view_back (b : Base) (old : Bt) (h : b.bt.Ok) : (⟨b.fmt, b.bt.back old⟩ : Base).view = b.view := by
  have hf := h.frames
  have hl : (b.bt.addrs.take (b.bt.nFrames * 8)).length = b.bt.nFrames * 8 := by
    rw [List.length_take, h.slots]; omega
  have : (b.bt.back old).view = b.bt.view := by
    unfold Bt.view Bt.back
    show (List.take (b.bt.nFrames * 8) (_ ++ _), _, _) = _
    have e := List.take_left (l₁ := b.bt.addrs.take (b.bt.nFrames * 8)) (l₂ := old.addrs.drop (b.bt.nFrames * 8))
    rw [hl] at e
    rw [e]
    rfl
  unfold Base.view
  rw [this]

theorem Rd.one {α β : Type} {m : M IS α} {d : Nat → List Byte} {v : α} (g : α → β) (h : Rd m d v) :
    Rd (m >>= fun a => Pure.pure (g a)) d (g v) := Rd.map h

theorem read_badAlloc (junk : List Byte) (b : Base) (n : Nat) : Ex.read junk (.badAlloc b n) =
    (readBase junk b >>= fun b => IS.readInt 8 n >>= fun n => Pure.pure (Ex.badAlloc b n)) := by unfold Ex.read; rfl

theorem read_base (junk : List Byte) (b : Base) : Ex.read junk (.base b) =
    (readBase junk b >>= fun b => Pure.pure (Ex.base b)) := by unfold Ex.read; rfl

theorem read_msg (junk : List Byte) (b : Base) (a : List Byte) : Ex.read junk (.msg b a) =
    (readMsg junk b a >>= fun x => Pure.pure (Ex.msg x.1 x.2)) := by unfold Ex.read; rfl

theorem read_sys (junk : List Byte) (b : Base) (a o : List Byte) (e : Nat) : Ex.read junk (.sys b a o e) =
    (readSys junk b a o e >>= fun x => Pure.pure (Ex.sys x.1.1 x.1.2 x.2.1 x.2.2)) := by unfold Ex.read; rfl

theorem read_file (junk : List Byte) (b : Base) (a o : List Byte) (e : Nat) (f : List Byte) :
    Ex.read junk (.file b a o e f) = (readSys junk b a o e >>= fun x => readStrA junk [] >>= fun f =>
      Pure.pure (Ex.file x.1.1 x.1.2 x.2.1 x.2.2 (setName pathMax f))) := by unfold Ex.read; rfl

theorem read_bounds (junk : List Byte) (b : Base) (a o : List Byte) (e t q n r : Nat) :
    Ex.read junk (.bounds b a o e t q n r) = (readSys junk b a o e >>= fun x => readBounds t q n r >>= fun y =>
      Pure.pure (Ex.bounds x.1.1 x.1.2 x.2.1 x.2.2 y.1 y.2.1 y.2.2.1 y.2.2.2)) := by unfold Ex.read; rfl

theorem Rd.badAllocOf {m : M IS Base} {k : M IS Nat} {d e : Nat → List Byte} {b : Base} {n : Nat} (h : Rd m d b)
    (g : Rd k e n) : Rd (m >>= fun b => k >>= fun n => Pure.pure (Ex.badAlloc b n)) (cat d e) (.badAlloc b n) :=
  Rd.two Ex.badAlloc h g

theorem Rd.msgOf {m : M IS (Base × List Byte)} {d : Nat → List Byte} {b : Base} {a : List Byte}
    (h : Rd m d (b, a)) : Rd (m >>= fun x => Pure.pure (Ex.msg x.1 x.2)) d (.msg b a) :=
  Rd.one (fun x : Base × List Byte => Ex.msg x.1 x.2) h

theorem Rd.sysExOf {m : M IS ((Base × List Byte) × List Byte × Nat)} {d : Nat → List Byte} {b : Base} {a o : List Byte} {n : Nat}
    (h : Rd m d ((b, a), o, n)) :
    Rd (m >>= fun x => Pure.pure (Ex.sys x.1.1 x.1.2 x.2.1 x.2.2)) d (.sys b a o n) :=
  Rd.one (fun x : (Base × List Byte) × List Byte × Nat => Ex.sys x.1.1 x.1.2 x.2.1 x.2.2) h

theorem Rd.fileOf {m : M IS ((Base × List Byte) × List Byte × Nat)} {k : M IS (List Byte)} {d e : Nat → List Byte} {b : Base} {a o f : List Byte} {n p : Nat}
    (h : Rd m d ((b, a), o, n)) (g : Rd k e f) :
    Rd (m >>= fun x => k >>= fun f => Pure.pure (Ex.file x.1.1 x.1.2 x.2.1 x.2.2 (setName p f))) (cat d e)
      (.file b a o n (setName p f)) :=
  Rd.two (fun (x : (Base × List Byte) × List Byte × Nat) f => Ex.file x.1.1 x.1.2 x.2.1 x.2.2 (setName p f)) h g

theorem Rd.boundsExOf {m : M IS ((Base × List Byte) × List Byte × Nat)} {k : M IS (Nat × Nat × Nat × Nat)} {d e : Nat → List Byte} {b : Base}
    {a o : List Byte} {n t q c r : Nat} (h : Rd m d ((b, a), o, n)) (g : Rd k e (t, q, c, r)) :
    Rd (m >>= fun x => k >>= fun y => Pure.pure (Ex.bounds x.1.1 x.1.2 x.2.1 x.2.2 y.1 y.2.1 y.2.2.1 y.2.2.2)) (cat d e)
      (.bounds b a o n t q c r) :=
  Rd.two (fun (x : (Base × List Byte) × List Byte × Nat) (y : Nat × Nat × Nat × Nat) =>
    Ex.bounds x.1.1 x.1.2 x.2.1 x.2.2 y.1 y.2.1 y.2.2.1 y.2.2.2) h g

/-- Reading the binary form of an exception into any object of its class gives the exception back. -/
theorem Rd.ex {junk : List Byte} {x old : Ex} (h : x.Ok) (hc : SameClass old x)
    (ho : old.toBase.bt.addrs.length = 512) : ∃ y, Rd (Ex.read junk old) (encEx x.ss x) y ∧ Same x y := by
  obtain ⟨hf, hb, hx, hs⟩ := h
  cases x with
  | base b =>
    cases old with
    | base b' =>
      refine ⟨.base ⟨b.fmt, b.bt.back b'.bt⟩, ?_, (view_back _ _ hb).symm⟩
      rw [read_base]
      exact Rd.one Ex.base (Rd.base hb hf hs ho)
    | _ => exact hc.elim
  | badAlloc b n =>
    have hx : n < 2 ^ 64 := hx
    have h8 : n < 256 ^ 8 := by omega
    cases old with
    | badAlloc b' n' =>
      refine ⟨.badAlloc ⟨b.fmt, b.bt.back b'.bt⟩ n, ?_, (view_back _ _ hb).symm, rfl⟩
      rw [read_badAlloc]
      exact Rd.badAllocOf (Rd.base hb hf hs ho) (Rd.int h8)
    | _ => exact hc.elim
  | msg b a =>
    cases old with
    | msg b' a' =>
      refine ⟨.msg ⟨b.fmt, b.bt.back b'.bt⟩ a, ?_, (view_back _ _ hb).symm, rfl⟩
      rw [read_msg]
      exact Rd.msgOf (Rd.msg hb hf hs ho hx)
    | _ => exact hc.elim
  | sys b a o e =>
    cases old with
    | sys b' a' o' e' =>
      refine ⟨.sys ⟨b.fmt, b.bt.back b'.bt⟩ a o e, ?_, (view_back _ _ hb).symm, rfl, rfl, rfl⟩
      rw [read_sys]
      exact Rd.sysExOf (Rd.sys hb hf hs ho hx.1 hx.2.1 hx.2.2)
    | _ => exact hc.elim
  | file b a o e f =>
    obtain ⟨ha, hop, he, n, rfl⟩ := hx
    cases old with
    | file b' a' o' e' f' =>
      refine ⟨.file ⟨b.fmt, b.bt.back b'.bt⟩ a o e (setName pathMax (cstr (fileName n))), ?_,
        (view_back _ _ hb).symm, rfl, rfl, rfl, (fileName_back n).symm⟩
      rw [read_file]
      exact Rd.fileOf (Rd.sys hb hf hs ho ha hop he) (Rd.strA (file_small n))
    | _ => exact hc.elim
  | bounds b a o e t q n r =>
    obtain ⟨ha, hop, he, h1, h2, h3, h4⟩ := hx
    have g1 : t < 256 ^ 8 := by omega
    have g2 : q < 256 ^ 8 := by omega
    have g3 : n < 256 ^ 8 := by omega
    have g4 : r < 256 ^ 8 := by omega
    cases old with
    | bounds b' a' o' e' t' q' n' r' =>
      refine ⟨.bounds ⟨b.fmt, b.bt.back b'.bt⟩ a o e t q n r, ?_,
        (view_back _ _ hb).symm, rfl, rfl, rfl, rfl, rfl, rfl, rfl⟩
      rw [read_bounds]
      exact Rd.boundsExOf (Rd.sys hb hf hs ho ha hop he) (Rd.bounds g1 g2 g3 g4)
    | _ => exact hc.elim

theorem writes_fits {m : M OS Unit} {d : Nat → List Byte} (h : Writes m d) {s s' : OS} (hb : s.base % 8 = 0)
    (hl : s.buf.length + 8 ≤ W) (hp : s.pos ≤ s.buf.length) (he : s.ios.exc &&& 4 ≠ 0) (hw : m s = .ret () s') :
    s.pos + (d s.pos).length ≤ s.buf.length ∧ s' = s.after (d s.pos) := by
  obtain ⟨h1, h2⟩ := h s hb (by omega) hp
  rcases Nat.lt_or_ge s.buf.length (s.pos + (d s.pos).length) with h | h
  · obtain ⟨x, hx⟩ := h2 h he
    rw [hx] at hw; cases hw
  · refine ⟨h, ?_⟩
    have := h1 h
    rw [this] at hw
    injection hw with _ e
    exact e.symm

/-- **C62** round trip. Write any exception of the library to an `ostream` over memory aligned to 8, from any position;
if nothing was thrown, an `istream` over exactly the bytes written, read from the same place into any object of the
same class, gives an exception with the same format, backtrace, message, operation, error code, file name and bounds
(`Same`), and stops where the writer stopped. -/
theorem exception_round_trip (x old : Ex) (junk : List Byte) (s s' : OS) (hb : s.base % 8 = 0)
    (hl : s.buf.length + 8 ≤ W) (hp : s.pos ≤ s.buf.length) (he : s.ios.exc &&& 4 ≠ 0) (hx : x.Ok)
    (hc : SameClass old x) (ho : old.toBase.bt.addrs.length = 512) (hw : x.write s = .ret () s') :
    ∃ y, Ex.read junk old { s'.toIS with pos := s.pos } = .ret y { s'.toIS with pos := s'.pos } ∧ Same x y := by
  obtain ⟨h1, rfl⟩ := writes_fits (Wr.ex hx) hb hl hp he hw
  obtain ⟨y, hy, hsame⟩ := Rd.ex (junk := junk) hx hc ho
  have hlen : (s.buf.take s.pos).length = s.pos := by simp; omega
  have hbuf := toIS_buf h1
  refine ⟨y, ?_, hsame⟩
  exact hy s.pos 0 { (s.after (encEx x.ss x s.pos)).toIS with pos := s.pos } _ [] hbuf hlen rfl (Nat.zero_le _)
    (by show (s.after (encEx x.ss x s.pos)).toIS.buf.length + 8 ≤ W
        rw [hbuf]; simp only [List.length_append, hlen, List.length_nil]; omega)

/-- **C62** `stream_size ()` is exact for every exception class, at a position that is a multiple of 8: a buffer with
that much room suffices, and exactly that much is written. The second word written is the number of bytes behind the
first two, so that a reader can skip the record. -/
theorem exception_size_exact (x : Ex) (s : OS) (hb : s.base % 8 = 0) (hl : s.buf.length + 8 ≤ W) (h8 : 8 ∣ s.pos)
    (hx : x.Ok) (hr : s.pos + x.ss ≤ s.buf.length) :
    ∃ s', x.write s = .ret () s' ∧ s'.pos = s.pos + x.ss ∧ s'.buf.take s.pos = s.buf.take s.pos ∧
      s'.buf.drop (s.pos + x.ss) = s.buf.drop (s.pos + x.ss) ∧
      leVal ((s'.buf.drop (s.pos + 4)).take 4) = x.ss - 8 := by
  have hlen := encEx_length hx x.ss h8
  have hw := (Wr.ex hx s hb (by omega) (by omega)).1 (by omega)
  have hpl : (s.buf.take s.pos).length = s.pos := by simp; omega
  refine ⟨_, hw, by rw [OS.after_pos, hlen], ?_, ?_, ?_⟩
  · show List.take s.pos (_ ++ _ ++ _) = _
    rw [List.append_assoc]
    have := List.take_left (l₁ := s.buf.take s.pos) (l₂ := encEx x.ss x s.pos ++ s.buf.drop (s.pos + (encEx x.ss x s.pos).length))
    rw [hpl] at this
    exact this
  · show List.drop (s.pos + x.ss) (_ ++ _ ++ _) = _
    have e : (s.buf.take s.pos ++ encEx x.ss x s.pos).length = s.pos + x.ss := by rw [List.length_append, hpl, hlen]
    rw [← e, List.drop_left, e, hlen]
  · show leVal (List.take 4 (List.drop (s.pos + 4) (_ ++ _ ++ _))) = _
    obtain ⟨r, hr⟩ : ∃ r, encEx x.ss x s.pos = leBytes 4 x.toBase.fmt ++ (leBytes 4 (x.ss - 8) ++ r) := by
      have e : ∀ b p, encBase x.ss b p = leBytes 4 b.fmt ++ (leBytes 4 (x.ss - 8) ++ encBt b.bt (p + 4 + 4)) := by
        intro b p
        unfold encBase cat raw
        rw [le4, le4]
      have e2 : ∀ b p f, ∃ r, cat (encBase x.ss b) f p = leBytes 4 b.fmt ++ (leBytes 4 (x.ss - 8) ++ r) := by
        intro b p f
        refine ⟨encBt b.bt (p + 4 + 4) ++ f (p + (encBase x.ss b p).length), ?_⟩
        unfold cat
        rw [e]; simp only [List.append_assoc]
      have e3 : ∀ b p f g, ∃ r, cat (cat (encBase x.ss b) f) g p = leBytes 4 b.fmt ++ (leBytes 4 (x.ss - 8) ++ r) := by
        intro b p f g
        obtain ⟨r, hr⟩ := e2 b p f
        refine ⟨r ++ g (p + (cat (encBase x.ss b) f p).length), ?_⟩
        show cat (encBase x.ss b) f p ++ _ = _
        rw [hr]; simp only [List.append_assoc]
      have e4 : ∀ b p f g k, ∃ r, cat (cat (cat (encBase x.ss b) f) g) k p = leBytes 4 b.fmt ++ (leBytes 4 (x.ss - 8) ++ r) := by
        intro b p f g k
        obtain ⟨r, hr⟩ := e3 b p f g
        refine ⟨r ++ k (p + (cat (cat (encBase x.ss b) f) g p).length), ?_⟩
        show cat (cat (encBase x.ss b) f) g p ++ _ = _
        rw [hr]; simp only [List.append_assoc]
      cases x with
      | base b => exact ⟨_, e b _⟩
      | badAlloc b n => exact e2 b _ _
      | msg b a => exact e2 b _ _
      | sys b a o n => exact e3 b _ _ _
      | file b a o n f => exact e4 b _ _ _ _
      | bounds b a o n t q k r => exact e4 b _ _ _ _
    have g : s.buf.take s.pos ++ encEx x.ss x s.pos ++ s.buf.drop (s.pos + (encEx x.ss x s.pos).length) =
        (s.buf.take s.pos ++ leBytes 4 x.toBase.fmt) ++ (leBytes 4 (x.ss - 8) ++
          (r ++ s.buf.drop (s.pos + (encEx x.ss x s.pos).length))) := by
      rw [hr]; simp only [List.append_assoc]
    have gl : (s.buf.take s.pos ++ leBytes 4 x.toBase.fmt).length = s.pos + 4 := by
      rw [List.length_append, hpl, le4]
    rw [g, ← gl, List.drop_left]
    have := List.take_left (l₁ := leBytes 4 (x.ss - 8)) (l₂ := r ++ s.buf.drop (s.pos + (encEx x.ss x s.pos).length))
    rw [le4] at this
    rw [this]
    exact leVal_leBytes 4 _ (by have := hx.size; omega)

end Ustl.Exn
