import Verif.Stream.Iter
import Verif.Utf8.Props
/-! # Output iterators and UTF-8 text over binary streams (C83)

`ostream_iterator` (mostream.h:107-133), `utf8out (ostream)` (mostream.h:137-145) and `utf8in (istream)` (mistream.h:268-276):
the adaptors of utf8.h on top of the stream iterators. -/
namespace Ustl.Stream
open Ustl.Utf8 (table text Valid seqBytes)

/-! ### The code -/

/-- `*result = v` for an `ostream_iterator`: `_os << v`. Models mostream.h:121-123. -/
def oitPut (t : Ty) (v : Val t) : M OS Unit := write t v

/-- `copy (first, last, ostream_iterator<T> (os))`: `++result` does nothing. Models ualgobase.h:77-84, mostream.h:121-124. -/
def oitCopy (t : Ty) : List (Val t) → M OS Unit
  | [] => pure ()
  | v :: vs => do oitPut t v; oitCopy t vs

/-- `operator+= (n)`. Models mostream.h:126. -/
def oitPlus (n : Nat) : M OS Unit := OS.skip n

/-- `*utf8out (os) = v`: each `*_i++ = b` writes one byte; the bytes are those of `Utf8.out`. Where `operator=` shifts by more than the
width of the type the behaviour is undefined. Models mostream.h:137-145, utf8.h:180-193. -/
def u8Put (v : Nat) : M OS Unit :=
  match Utf8.out v with
  | none => fun _ => .oob
  | some bs => writeAll (fun b => OS.write [b]) bs

/-- `copy (first, last, utf8out (os))`. Models ualgobase.h:77-84, mostream.h:137-145. -/
def u8Write : List Nat → M OS Unit
  | [] => pure ()
  | v :: vs => do u8Put v; u8Write vs

/-- `utf8in_iterator` on an `istream_iterator<utf8subchar_t>`. Models utf8.h:122-123, mistream.h:268-269. -/
structure U8 where
  /-- `_i` -/
  it : Itr (.int 1)
  /-- `_v` -/
  v : Nat

/-- `*_i` of the byte iterator. Models mistream.h:139. -/
def Itr.byte (it : Itr (.int 1)) : Nat := it.v

/-- One round of the loop of `Read`, after `++_i`: `k` continues. Models utf8.h:133-134. -/
def u8Round (k : Itr (.int 1) → Nat → M IS U8) (v : Nat) (it : Itr (.int 1)) : M IS U8 :=
  if it.byte = 0 then pure ⟨it, v⟩ else k it (((v <<< 6) % 2 ^ 32) ||| (it.byte &&& 0x3F))

/-- `while (--nBytes && *++_i) _v = (_v << 6) | (*_i & 0x3F)` with `n = nBytes - 1`. Models utf8.h:133-134. -/
def u8Loop (junk : List Byte) : Nat → Itr (.int 1) → Nat → M IS U8
  | 0, it, v => pure ⟨it, v⟩
  | n + 1, it, v => it.next junk >>= u8Round (u8Loop junk n) v

/-- `Read ()`. Models utf8.h:128-135. -/
def u8Read (junk : List Byte) (it : Itr (.int 1)) : M IS U8 :=
  u8Loop junk (seqBytes it.byte - 1) it (it.byte &&& (0xFF >>> seqBytes it.byte))

/-- `utf8in (is)`. Models mistream.h:272-276, utf8.h:106. -/
def u8In (junk : List Byte) : M IS U8 := Itr.start junk (.int 1) >>= u8Read junk

/-- `operator++ ()`. Models utf8.h:112. -/
def U8.next (junk : List Byte) (u : U8) : M IS U8 := u.it.next junk >>= u8Read junk

/-- `i != utf8istream_iterator (istream_iterator_for_utf8())`. Models utf8.h:116, mistream.h:148. -/
def U8.atEnd (u : U8) (s : IS) : Bool := u.it.eq (Itr.stop _) s

/-- `while (i != end) { *out = *i; ++i; }`: `U8Copies u s vs o` when it stores `vs` and has the outcome `o`.
Models ualgobase.h:77-84, utf8.h:111-116. -/
inductive U8Copies (junk : List Byte) : U8 → IS → List Nat → Out IS Unit → Prop
  /-- the iterator is at the end -/
  | done {u : U8} {s : IS} : u.atEnd s = true → U8Copies junk u s [] (.ret () s)
  /-- one more character -/
  | more {u u' : U8} {s s' : IS} {vs : List Nat} {o : Out IS Unit} : u.atEnd s = false →
      u.next junk s = .ret u' s' → U8Copies junk u' s' vs o → U8Copies junk u s (u.v :: vs) o
  /-- the increment throws -/
  | thrown {u : U8} {s s' : IS} : u.atEnd s = false → u.next junk s = .exn s' → U8Copies junk u s [u.v] (.exn s')
  /-- the increment leaves the block -/
  | out {u : U8} {s : IS} : u.atEnd s = false → u.next junk s = .oob → U8Copies junk u s [u.v] .oob

/-- `copy (utf8in (is), utf8istream_iterator (istream_iterator_for_utf8()), out)`. Models mistream.h:272-276, ualgobase.h:77-84. -/
inductive U8CopiesAll (junk : List Byte) : IS → List Nat → Out IS Unit → Prop
  /-- the constructor returns -/
  | made {u : U8} {s s' : IS} {vs : List Nat} {o : Out IS Unit} : u8In junk s = .ret u s' →
      U8Copies junk u s' vs o → U8CopiesAll junk s vs o
  /-- the constructor throws -/
  | thrown {s s' : IS} : u8In junk s = .exn s' → U8CopiesAll junk s [] (.exn s')
  /-- the constructor leaves the block -/
  | out {s : IS} : u8In junk s = .oob → U8CopiesAll junk s [] .oob

/-! ### Writing -/

theorem oitCopy_eq (t : Ty) : ∀ vs : List (Val t), oitCopy t vs = writeAll (write t) vs
  | [] => rfl
  | v :: vs => by unfold oitCopy writeAll; rw [oitCopy_eq t vs]; rfl

theorem oitCopy_writes (t : Ty) (vs : List (Val t)) (hw : WfTy t) (hv : ∀ v ∈ vs, Okv t v) : Writes (oitCopy t vs) (encAll (enc t) vs) := by
  rw [oitCopy_eq]
  exact Writes.all vs (fun v h => write_writes t v hw (hv v h))

/-- **C83**: copying values to an `ostream_iterator` writes the serialised form of each, one after another, at the position of the stream,
and nothing else in the block changes; if there is no room for all of them it throws. -/
theorem ostream_iterator_copy (t : Ty) (vs : List (Val t)) (s : OS) (hw : WfTy t) (hv : ∀ v ∈ vs, Okv t v) (hb : s.base % 8 = 0)
    (hl : s.buf.length < W) (hp : s.pos ≤ s.buf.length) :
    (s.pos + (encAll (enc t) vs s.pos).length ≤ s.buf.length →
      oitCopy t vs s = .ret () { s with buf := s.buf.take s.pos ++ encAll (enc t) vs s.pos ++ s.buf.drop (s.pos + (encAll (enc t) vs s.pos).length), pos := s.pos + (encAll (enc t) vs s.pos).length }) ∧
    (s.buf.length < s.pos + (encAll (enc t) vs s.pos).length → s.ios.exc &&& 4 ≠ 0 → ∃ s', oitCopy t vs s = .exn s') :=
  oitCopy_writes t vs hw hv s hb hl hp

theorem bytes_writes (bs : List Byte) : Writes (writeAll (fun b => OS.write [b]) bs) (fun _ => bs) := by
  refine Writes.congr (Writes.all bs (e := fun b _ => [b]) (fun b _ => Writes.raw [b])) (fun p => ?_)
  induction bs generalizing p with
  | nil => rfl
  | cons b bs ih => unfold encAll; rw [ih]; rfl

theorem u8Put_writes (v : Nat) (h : v < 2 ^ 31) : Writes (u8Put v) (fun _ => table v) := by
  unfold u8Put
  rw [Utf8.out_is_table v h]
  exact bytes_writes _

theorem u8Write_writes : ∀ (vs : List Nat), Valid vs → Writes (u8Write vs) (fun _ => text vs)
  | [], _ => Writes.pure
  | v :: vs, h => by
    refine Writes.congr (Writes.seq (f := fun _ => u8Write vs) (u8Put_writes v (h v (List.mem_cons_self ..)))
      (u8Write_writes vs (fun x hx => h x (List.mem_cons_of_mem _ hx)))) (fun p => ?_)
    rw [Utf8.text_cons]

/-- **C83**: copying characters to `utf8out (os)` writes their UTF-8 text at the position of the stream, and nothing else in the block changes; if
there is no room for all of it, it throws. -/
theorem utf8out_copy (vs : List Nat) (s : OS) (h : Valid vs) (hb : s.base % 8 = 0) (hl : s.buf.length < W) (hp : s.pos ≤ s.buf.length) :
    (s.pos + (text vs).length ≤ s.buf.length →
      u8Write vs s = .ret () { s with buf := s.buf.take s.pos ++ text vs ++ s.buf.drop (s.pos + (text vs).length), pos := s.pos + (text vs).length }) ∧
    (s.buf.length < s.pos + (text vs).length → s.ios.exc &&& 4 ≠ 0 → ∃ s', u8Write vs s = .exn s') :=
  u8Write_writes vs h s hb hl hp

example : u8Write [0x41, 0x20AC] { buf := [9, 9, 9, 9, 9, 9], pos := 1 } = .ret () { buf := [9, 0x41, 0xE2, 0x82, 0xAC, 9], pos := 5 } :=
  (utf8out_copy [0x41, 0x20AC] _ (by intro v hv; simp at hv; omega) rfl (by decide) (by decide)).1 (by decide)

/-! ### Reading -/

section
variable {junk : List Byte}

theorem next_byte {it : Itr (.int 1)} {s : IS} {b : Byte} (hon : it.on = true) (hb : s.buf[s.pos]? = some b) (hl : s.buf.length + 8 ≤ W) :
    it.next junk s = .ret ⟨true, (b.toNat : Nat)⟩ { s with pos := s.pos + 1 } := by
  obtain ⟨hlt, he⟩ := List.getElem?_eq_some_iff.1 hb
  have hv : leBytes 1 b.toNat = [b] := by simp [leBytes]
  have hd : s.buf.drop s.pos = b :: s.buf.drop (s.pos + 1) := by rw [List.drop_eq_getElem_cons hlt, he]
  have hh : Holds (t := .int 1) s [(b.toNat : Nat)] (s.buf.drop (s.pos + 1)) := by
    refine ⟨Nat.le_of_lt hlt, hl, ?_⟩
    rw [hd]
    show _ = encAll (enc (.int 1)) [(b.toNat : Nat)] s.pos ++ _
    simp only [encAll, enc, hv, List.append_nil]
    rfl
  have h := next_value (junk := junk) (t := .int 1) hon trivial hh ⟨by simp [WfTy, Grain], by
      intro v hv
      rcases List.mem_cons.1 hv with rfl | hv
      · exact b.toNat_lt
      · exact absurd hv List.not_mem_nil, by simp [chkAll, chk]⟩ (by
      rw [hh.len]
      show 1 ≤ (encAll (enc (.int 1)) [(b.toNat : Nat)] s.pos).length + _
      simp only [encAll, enc, hv]
      simp)
  rw [h]
  show Out.ret _ { s with pos := s.pos + (leBytes 1 b.toNat).length } = _
  rw [hv]; rfl

theorem next_end {it : Itr (.int 1)} {s : IS} (hon : it.on = true) (he : s.buf.length ≤ s.pos) (hp : s.pos ≤ s.buf.length) (hl : s.buf.length + 8 ≤ W) :
    (s.ios.exc &&& 6 = 0 → it.next junk s = .ret ⟨false, it.v⟩ s.starved) ∧ (s.ios.exc &&& 4 ≠ 0 → ∃ s', it.next junk s = .exn s') := by
  have hr : s.remaining < ss (.int 1) it.v := by
    rw [IS.remaining_eq hp (by omega)]
    show _ < 1
    omega
  exact ⟨fun hx => next_short hon hr hx, fun hx => next_throws hon hr hx⟩

theorem next_off {it : Itr (.int 1)} {s : IS} (hoff : it.on = false) : it.next junk s = .ret it s := by
  unfold Itr.next
  rw [if_pos hoff]

/-- Over the bytes of the block the iterator does what `utf8in` does over memory. -/
theorem loop_mem (m : List Byte) (hl : m.length + 8 ≤ W) : ∀ (k i v : Nat) (it : Itr (.int 1)) (s : IS) (q : Utf8.It), it.on = true → s.buf = m →
    s.pos = i + 1 → (m[i]?).map (fun b => b.toNat) = some it.byte → Utf8.readLoop m k i v = some q →
    ∃ b, m[q.i]? = some b ∧ u8Loop junk k it v s = .ret ⟨⟨true, (b.toNat : Nat)⟩, q.v⟩ { s with pos := q.i + 1 }
  | 0, i, v, it, s, q, hon, hs, hp, hi, hq => by
    cases hq
    obtain ⟨b, hb, e⟩ := Option.map_eq_some_iff.1 hi
    refine ⟨b, hb, ?_⟩
    have e' : it = ⟨true, (b.toNat : Nat)⟩ := by
      cases it; simp only at hon; subst hon; exact congrArg (Itr.mk true) e.symm
    rw [← e']
    show Out.ret _ s = _
    rw [← hp]
  | k + 1, i, v, it, s, q, hon, hs, hp, hi, hq => by
    unfold Utf8.readLoop at hq
    cases hb : rd m (i + 1) with
    | none => rw [hb] at hq; cases hq
    | some b =>
      rw [hb] at hq
      have hb' : m[i + 1]? = some b := hb
      have hn := next_byte (junk := junk) (it := it) (s := s) hon (by rw [hs, hp]; exact hb') (by rw [hs]; exact hl)
      simp only at hq
      rw [u8Loop, M.bind_ret hn]
      unfold u8Round
      by_cases h0 : b = 0
      · rw [if_pos h0] at hq
        cases hq
        refine ⟨b, hb', ?_⟩
        rw [if_pos (show Itr.byte ⟨true, (b.toNat : Nat)⟩ = 0 by rw [h0]; rfl), hp]
        rfl
      · rw [if_neg h0] at hq
        rw [if_neg (show ¬ Itr.byte ⟨true, (b.toNat : Nat)⟩ = 0 from fun h => h0 (UInt8.toNat_inj.1 h))]
        obtain ⟨b', hb2, e⟩ := loop_mem m hl k (i + 1) _ ⟨true, (b.toNat : Nat)⟩ { s with pos := s.pos + 1 } q rfl hs (by rw [hp]) (by rw [hb']; rfl) hq
        exact ⟨b', hb2, e⟩

/-- Reading one character that is whole. -/
theorem read_mem (m : List Byte) (hl : m.length + 8 ≤ W) (i : Nat) (it : Itr (.int 1)) (s : IS) (q : Utf8.It) (hon : it.on = true) (hs : s.buf = m)
    (hp : s.pos = i + 1) (hi : (m[i]?).map (fun b => b.toNat) = some it.byte) (hq : Utf8.read m i = some q) :
    ∃ b, m[q.i]? = some b ∧ u8Read junk it s = .ret ⟨⟨true, (b.toNat : Nat)⟩, q.v⟩ { s with pos := q.i + 1 } := by
  obtain ⟨b, hb, e⟩ := Option.map_eq_some_iff.1 hi
  unfold Utf8.read at hq
  have hb' : rd m i = some b := hb
  rw [hb'] at hq
  simp only at hq
  rw [e] at hq
  exact loop_mem m hl _ i _ it s q hon hs hp hi hq

/-- The next character, when the block goes on with its encoding. -/
theorem step_char {pre post : List Byte} {v : Nat} (hv : v < 2 ^ 31) {it : Itr (.int 1)} {s : IS} (hon : it.on = true)
    (hs : s.buf = pre ++ (table v ++ post)) (hp : s.pos = pre.length) (hl : s.buf.length + 8 ≤ W) :
    ∃ b, (s.buf)[pre.length + (table v).length - 1]? = some b ∧
      (it.next junk >>= u8Read junk) s = .ret ⟨⟨true, (b.toNat : Nat)⟩, v⟩ { s with pos := pre.length + (table v).length } := by
  obtain ⟨hr, c, r, hc, _⟩ := Utf8.read_table hv pre post
  have hpos := Utf8.table_pos v
  have hb : s.buf[s.pos]? = some c := by rw [hs, hp, hc]; simp
  have hn := next_byte (junk := junk) (it := it) (s := s) hon hb hl
  rw [M.bind_ret hn]
  rw [← hs] at hr
  obtain ⟨b, hb2, e⟩ := read_mem (junk := junk) s.buf hl pre.length ⟨true, (c.toNat : Nat)⟩ { s with pos := s.pos + 1 } _ rfl rfl
    (by rw [hp]) (by rw [← hp, hb]; rfl) hr
  refine ⟨b, hb2, e.trans ?_⟩
  show Out.ret _ { s with pos := _ } = _
  rw [Nat.sub_add_cancel (by omega)]

/-- The last byte of a character does not announce another. -/
theorem last_byte {pre post : List Byte} {v : Nat} (hv : v < 2 ^ 31) {b : Byte} (hb : (pre ++ (table v ++ post))[pre.length + (table v).length - 1]? = some b) :
    seqBytes b.toNat = 1 := by
  obtain ⟨i, c, e, hc⟩ := Utf8.table_last hv
  rw [e] at hb
  have : (pre ++ ((i ++ [c]) ++ post))[pre.length + (i ++ [c]).length - 1]? = some c := by
    rw [List.getElem?_append_right (by simp)]
    simp
  rw [this] at hb
  cases hb
  exact hc

theorem u8Read_single {it : Itr (.int 1)} {s : IS} (h : seqBytes it.byte = 1) : u8Read junk it s = .ret ⟨it, it.byte &&& (0xFF >>> 1)⟩ s := by
  unfold u8Read
  rw [h]
  rfl

theorem off_end {u : U8} {s : IS} : u.atEnd s = !u.it.on := at_stop

/-- `part` is what is left of a character whose end was cut off; it may be nothing at all. -/
def Cut (part : List Byte) : Prop := ∃ w r, w < 2 ^ 31 ∧ r ≠ [] ∧ table w = part ++ r

theorem cut_nil : Cut [] := ⟨0, table 0, by decide, by decide, rfl⟩

theorem loop_off : ∀ (k v : Nat) (it : Itr (.int 1)) (s : IS), it.on = false → ∃ v', u8Loop junk k it v s = .ret ⟨it, v'⟩ s
  | 0, v, it, s, _ => ⟨v, rfl⟩
  | k + 1, v, it, s, h => by
    rw [u8Loop, M.bind_ret (next_off h)]
    unfold u8Round
    by_cases h0 : it.byte = 0
    · rw [if_pos h0]; exact ⟨v, rfl⟩
    · rw [if_neg h0]; exact loop_off k _ it s h

/-- The stream after its end has been met. -/
def IS.ended (s : IS) : IS := { s with pos := s.buf.length, ios := (s.ios.overrun 0).1 }

theorem starved_ended {s : IS} (he : s.pos = s.buf.length) (hl : s.buf.length + 8 ≤ W) : s.starved = s.ended := by
  have hr : s.remaining = 0 := by rw [IS.remaining_eq (by omega) (by omega)]; omega
  unfold IS.starved IS.ended; rw [hr, ← he]

theorem loop_cut : ∀ (k v : Nat) (it : Itr (.int 1)) (s : IS), it.on = true → s.pos ≤ s.buf.length → s.buf.length + 8 ≤ W →
    s.buf.length - s.pos < k → (∀ b ∈ s.buf.drop s.pos, b ≠ 0) →
    (s.ios.exc &&& 6 = 0 → ∃ it' v', it'.on = false ∧ u8Loop junk k it v s = .ret ⟨it', v'⟩ s.ended) ∧
    (s.ios.exc &&& 4 ≠ 0 → ∃ s', u8Loop junk k it v s = .exn s')
  | 0, _, _, _, _, _, _, h, _ => absurd h (Nat.not_lt_zero _)
  | k + 1, v, it, s, hon, hp, hl, hk, hnz => by
    by_cases hend : s.pos = s.buf.length
    · obtain ⟨h1, h2⟩ := next_end (junk := junk) (it := it) (s := s) hon (by omega) hp hl
      refine ⟨fun hx => ?_, fun hx => ?_⟩
      · rw [u8Loop, M.bind_ret (h1 hx), starved_ended hend hl]
        unfold u8Round
        by_cases h0 : Itr.byte ⟨false, it.v⟩ = 0
        · rw [if_pos h0]; exact ⟨_, v, rfl, rfl⟩
        · rw [if_neg h0]
          obtain ⟨v', e⟩ := loop_off (junk := junk) k ((v <<< 6 % 2 ^ 32) ||| (Itr.byte ⟨false, it.v⟩ &&& 0x3F)) ⟨false, it.v⟩ s.ended rfl
          exact ⟨_, v', rfl, e⟩
      · obtain ⟨s', e⟩ := h2 hx
        exact ⟨s', by rw [u8Loop]; exact M.bind_exn e⟩
    · have hlt : s.pos < s.buf.length := by omega
      have hd : s.buf.drop s.pos = s.buf[s.pos] :: s.buf.drop (s.pos + 1) := List.drop_eq_getElem_cons hlt
      have hn := next_byte (junk := junk) (it := it) (s := s) hon (List.getElem?_eq_getElem hlt) hl
      have h0 : s.buf[s.pos] ≠ 0 := hnz _ (by rw [hd]; exact List.mem_cons_self ..)
      have ih := loop_cut k (((v <<< 6) % 2 ^ 32) ||| (Itr.byte ⟨true, (s.buf[s.pos].toNat : Nat)⟩ &&& 0x3F)) ⟨true, (s.buf[s.pos].toNat : Nat)⟩
        { s with pos := s.pos + 1 } rfl hlt hl (by show s.buf.length - (s.pos + 1) < k; omega)
        (fun b hb => hnz b (by rw [hd]; exact List.mem_cons_of_mem _ hb))
      rw [u8Loop, M.bind_ret hn]
      unfold u8Round
      rw [if_neg (show ¬ Itr.byte ⟨true, (s.buf[s.pos].toNat : Nat)⟩ = 0 from fun h => h0 (UInt8.toNat_inj.1 h))]
      exact ih

/-- The end of the text, perhaps in the middle of a character. -/
theorem step_cut {pre part : List Byte} (hc : Cut part) {it : Itr (.int 1)} {s : IS} (hon : it.on = true) (hq : seqBytes it.byte = 1)
    (hs : s.buf = pre ++ part) (hp : s.pos = pre.length) (hl : s.buf.length + 8 ≤ W) :
    (s.ios.exc &&& 6 = 0 → ∃ it' v', it'.on = false ∧ (it.next junk >>= u8Read junk) s = .ret ⟨it', v'⟩ s.ended) ∧
    (s.ios.exc &&& 4 ≠ 0 → ∃ s', (it.next junk >>= u8Read junk) s = .exn s') := by
  cases part with
  | nil =>
    have hlen : s.pos = s.buf.length := by rw [hs, hp]; simp
    obtain ⟨h1, h2⟩ := next_end (junk := junk) (it := it) (s := s) hon (by omega) (by omega) hl
    refine ⟨fun hx => ⟨⟨false, it.v⟩, it.byte &&& (0xFF >>> 1), rfl, ?_⟩, fun hx => ?_⟩
    · rw [M.bind_ret (h1 hx), starved_ended hlen hl]
      exact u8Read_single hq
    · obtain ⟨s', e⟩ := h2 hx
      exact ⟨s', M.bind_exn e⟩
  | cons c part =>
    obtain ⟨w, r, hw, hr, e⟩ := hc
    obtain ⟨_, c', r', hcr, hsq⟩ := Utf8.read_table hw [] []
    have hcc : c' = c := by rw [e] at hcr; simp at hcr; exact hcr.1.symm
    subst hcc
    have hb : s.buf[s.pos]? = some c' := by rw [hs, hp]; simp
    rw [M.bind_ret (next_byte (junk := junk) (it := it) (s := s) hon hb hl)]
    have hd : s.buf.drop (s.pos + 1) = part := by
      rw [hs, hp, ← List.drop_drop, List.drop_left]; rfl
    have hlen : s.buf.length = s.pos + 1 + part.length := by rw [hs, hp]; simp; omega
    have hrl : 0 < r.length := List.length_pos_iff.2 hr
    have htl : (table w).length = 1 + part.length + r.length := by rw [e]; simp; omega
    refine loop_cut (junk := junk) _ _ ⟨true, (c'.toNat : Nat)⟩ { s with pos := s.pos + 1 } rfl (by show s.pos + 1 ≤ s.buf.length; omega) hl ?_ ?_
    · show s.buf.length - (s.pos + 1) < seqBytes c'.toNat - 1
      rw [hsq]; omega
    · show ∀ b ∈ s.buf.drop (s.pos + 1), b ≠ 0
      rw [hd]
      intro b hb
      exact (Utf8.tail_seq (v := w) b (by rw [e]; simp [hb])).2

/-- `u` stands on the last byte of a character, `vs` follow, and the block ends. -/
theorem u8_copies {part : List Byte} (hc : Cut part) : ∀ (vs : List Nat) (pre : List Byte) (it : Itr (.int 1)) (v : Nat) (s : IS), Valid vs → it.on = true →
    seqBytes it.byte = 1 → s.buf = pre ++ (text vs ++ part) → s.pos = pre.length → s.buf.length + 8 ≤ W →
    (s.ios.exc &&& 6 = 0 → U8Copies junk ⟨it, v⟩ s (v :: vs) (.ret () s.ended)) ∧
    (s.ios.exc &&& 4 ≠ 0 → ∃ s', U8Copies junk ⟨it, v⟩ s (v :: vs) (.exn s'))
  | [], pre, it, v, s, hval, hon, hb, hs, hp, hl => by
    have hne : (⟨it, v⟩ : U8).atEnd s = false := by rw [off_end]; simp [hon]
    obtain ⟨h1, h2⟩ := step_cut (junk := junk) hc hon hb (by simpa [text] using hs) hp hl
    refine ⟨fun hx => ?_, fun hx => ?_⟩
    · obtain ⟨it', v', hoff, e⟩ := h1 hx
      exact .more hne e (.done (by rw [off_end, hoff]; rfl))
    · obtain ⟨s', h'⟩ := h2 hx
      exact ⟨s', .thrown hne h'⟩
  | w :: vs, pre, it, v, s, hval, hon, hb, hs, hp, hl => by
    have hw := hval w (List.mem_cons_self ..)
    rw [Utf8.text_cons, List.append_assoc] at hs
    obtain ⟨b, hb2, e⟩ := step_char (junk := junk) (post := text vs ++ part) hw hon hs hp hl
    have hne : (⟨it, v⟩ : U8).atEnd s = false := by rw [off_end]; simp [hon]
    have ih := u8_copies hc vs (pre ++ table w) ⟨true, (b.toNat : Nat)⟩ w { s with pos := pre.length + (table w).length }
      (fun x hx => hval x (List.mem_cons_of_mem _ hx)) rfl (by rw [hs] at hb2; exact last_byte hw hb2)
      (by rw [List.append_assoc]; exact hs) (by rw [List.length_append]) hl
    refine ⟨fun hx => ?_, fun hx => ?_⟩
    · exact .more hne e (ih.1 hx)
    · obtain ⟨s', h'⟩ := ih.2 hx
      exact ⟨s', .more hne e h'⟩

theorem u8In_eq : u8In junk = (Itr.next junk ⟨true, dflt (.int 1)⟩ >>= u8Read junk) := by
  rw [u8In, Itr.start]

theorem seq_zero : seqBytes (Itr.byte ⟨true, dflt (.int 1)⟩) = 1 := by
  show seqBytes 0 = 1
  decide

theorem u8_all (vs : List Nat) (part : List Byte) (s : IS) (hval : Valid vs) (hc : Cut part) (hs : s.buf.drop s.pos = text vs ++ part) (hp : s.pos ≤ s.buf.length)
    (hl : s.buf.length + 8 ≤ W) :
    (s.ios.exc &&& 6 = 0 → U8CopiesAll junk s vs (.ret () s.ended)) ∧ (s.ios.exc &&& 4 ≠ 0 → ∃ s', U8CopiesAll junk s vs (.exn s')) := by
  have hs' : s.buf = s.buf.take s.pos ++ (text vs ++ part) := by rw [← hs, List.take_append_drop]
  have ht : (s.buf.take s.pos).length = s.pos := by simp; omega
  cases vs with
  | nil =>
    obtain ⟨h1, h2⟩ := step_cut (junk := junk) hc (it := ⟨true, dflt (.int 1)⟩) rfl seq_zero (by simpa [text] using hs') ht.symm hl
    refine ⟨fun hx => ?_, fun hx => ?_⟩
    · obtain ⟨it', v', hoff, e⟩ := h1 hx
      exact .made ((congrFun u8In_eq s).trans e) (.done (by rw [off_end, hoff]; rfl))
    · obtain ⟨s', h'⟩ := h2 hx
      exact ⟨s', .thrown ((congrFun u8In_eq s).trans h')⟩
  | cons v vs =>
    have hv := hval v (List.mem_cons_self ..)
    rw [Utf8.text_cons, List.append_assoc] at hs'
    obtain ⟨b, hb2, e⟩ := step_char (junk := junk) (it := ⟨true, dflt (.int 1)⟩) (post := text vs ++ part) hv rfl hs' ht.symm hl
    have hb3 : seqBytes (Itr.byte ⟨true, (b.toNat : Nat)⟩) = 1 := last_byte (pre := s.buf.take s.pos) (post := text vs ++ part) hv (hs' ▸ hb2)
    have ih := u8_copies (junk := junk) hc vs (s.buf.take s.pos ++ table v) ⟨true, (b.toNat : Nat)⟩ v
      { s with pos := (s.buf.take s.pos).length + (table v).length } (fun x hx => hval x (List.mem_cons_of_mem _ hx)) rfl hb3
      (by rw [List.append_assoc]; exact hs') (by rw [List.length_append]) hl
    refine ⟨fun hx => .made ((congrFun u8In_eq s).trans e) (ih.1 hx), fun hx => ?_⟩
    obtain ⟨s', h'⟩ := ih.2 hx
    exact ⟨s', .made ((congrFun u8In_eq s).trans e) h'⟩

/-- **C83**: copying from `utf8in (is)` to the end, when nothing is to be thrown: it stores exactly the characters whose UTF-8 text remains in the
stream, in order, and consumes all of it. If the text ends in the middle of a character, that character is dropped. -/
theorem utf8in_copy (vs : List Nat) (part : List Byte) (s : IS) (hval : Valid vs) (hc : Cut part) (hs : s.buf.drop s.pos = text vs ++ part)
    (hp : s.pos ≤ s.buf.length) (hl : s.buf.length + 8 ≤ W) (hx : s.ios.exc &&& 6 = 0) :
    ∃ i, U8CopiesAll junk s vs (.ret () { s with pos := s.buf.length, ios := i }) := ⟨_, (u8_all vs part s hval hc hs hp hl).1 hx⟩

example : ∃ i, U8CopiesAll [] { buf := [0x41, 0xE2, 0x82, 0xAC, 0x42, 0xE2, 0x82], ios := { exc := 0 } } [0x41, 0x20AC, 0x42]
    (.ret () { buf := [0x41, 0xE2, 0x82, 0xAC, 0x42, 0xE2, 0x82], pos := 7, ios := i }) :=
  utf8in_copy [0x41, 0x20AC, 0x42] [0xE2, 0x82] { buf := [0x41, 0xE2, 0x82, 0xAC, 0x42, 0xE2, 0x82], ios := { exc := 0 } }
    (by intro v hv; simp at hv; omega) ⟨0x20AC, [0xAC], by decide, by decide, by decide⟩ (by decide) (by decide) (by simp [W]) (by decide)

/-- **C83** is false with the exceptions a stream throws by default: the copy stores exactly the characters but never returns, because the
iterator finds the end by running over it. -/
theorem utf8in_end_violated (vs : List Nat) (part : List Byte) (s : IS) (hval : Valid vs) (hc : Cut part) (hs : s.buf.drop s.pos = text vs ++ part)
    (hp : s.pos ≤ s.buf.length) (hl : s.buf.length + 8 ≤ W) (hx : s.ios.exc &&& 4 ≠ 0) :
    ∃ s', U8CopiesAll junk s vs (.exn s') := (u8_all vs part s hval hc hs hp hl).2 hx

/-- The copy has one outcome. -/
theorem U8Copies.det {u : U8} {s : IS} {vs ws : List Nat} {o p : Out IS Unit} (h : U8Copies junk u s vs o) : U8Copies junk u s ws p → vs = ws ∧ o = p := by
  induction h generalizing ws p with
  | done he =>
    intro h2
    cases h2 with
    | done _ => exact ⟨rfl, rfl⟩
    | more h _ _ => rw [he] at h; cases h
    | thrown h _ => rw [he] at h; cases h
    | out h _ => rw [he] at h; cases h
  | more he hn _ ih =>
    intro h2
    cases h2 with
    | done h => rw [he] at h; cases h
    | more _ h3 h4 =>
      rw [hn] at h3
      cases h3
      obtain ⟨e1, e2⟩ := ih h4
      exact ⟨congrArg _ e1, e2⟩
    | thrown _ h3 => rw [hn] at h3; cases h3
    | out _ h3 => rw [hn] at h3; cases h3
  | thrown he hn =>
    intro h2
    cases h2 with
    | done h => rw [he] at h; cases h
    | more _ h3 _ => rw [hn] at h3; cases h3
    | thrown _ h3 => rw [hn] at h3; cases h3; exact ⟨rfl, rfl⟩
    | out _ h3 => rw [hn] at h3; cases h3
  | out he hn =>
    intro h2
    cases h2 with
    | done h => rw [he] at h; cases h
    | more _ h3 _ => rw [hn] at h3; cases h3
    | thrown _ h3 => rw [hn] at h3; cases h3
    | out _ _ => exact ⟨rfl, rfl⟩

/-- **C83**: a copy from `utf8in (is)` has one outcome, so those above are the only ones. -/
theorem utf8in_unique {s : IS} {vs ws : List Nat} {o p : Out IS Unit} (h : U8CopiesAll junk s vs o) (h2 : U8CopiesAll junk s ws p) : vs = ws ∧ o = p := by
  cases h with
  | made e c =>
    cases h2 with
    | made e2 c2 => rw [e] at e2; cases e2; exact c.det c2
    | thrown e2 => rw [e] at e2; cases e2
    | out e2 => rw [e] at e2; cases e2
  | thrown e =>
    cases h2 with
    | made e2 _ => rw [e] at e2; cases e2
    | thrown e2 => rw [e] at e2; cases e2; exact ⟨rfl, rfl⟩
    | out e2 => rw [e] at e2; cases e2
  | out e =>
    cases h2 with
    | made e2 _ => rw [e] at e2; cases e2
    | thrown e2 => rw [e] at e2; cases e2
    | out _ => exact ⟨rfl, rfl⟩

/-- **C83**: characters written with `utf8out` are read back with `utf8in` from the bytes written. -/
theorem utf8_round_trip (vs : List Nat) (s s' : OS) (h : Valid vs) (hb : s.base % 8 = 0) (hl : s.buf.length + 8 ≤ W) (hp : s.pos ≤ s.buf.length)
    (hx : s.ios.exc &&& 4 ≠ 0) (hw : u8Write vs s = .ret () s') (r : IS) (hr : r.buf = s'.buf.take s'.pos) (hrp : r.pos = s.pos)
    (hrx : r.ios.exc &&& 6 = 0) : ∃ i, U8CopiesAll junk r vs (.ret () { r with pos := s'.pos, ios := i }) := by
  obtain ⟨h1, h2⟩ := utf8out_copy vs s h hb (by omega) hp
  by_cases hroom : s.pos + (text vs).length ≤ s.buf.length
  · rw [h1 hroom] at hw
    cases hw
    have e : r.buf = s.buf.take s.pos ++ text vs := by
      rw [hr]
      have e2 : (s.buf.take s.pos ++ text vs).length = s.pos + (text vs).length := by simp; omega
      rw [← e2, List.take_left]
    have e3 : r.buf.length = s.pos + (text vs).length := by rw [e]; simp; omega
    have := utf8in_copy (junk := junk) vs [] r h cut_nil (by
      rw [e, hrp, List.append_nil]
      exact List.drop_left' (by simp; omega)) (by omega) (by omega) hrx
    rw [e3] at this
    exact this
  · obtain ⟨s2, e⟩ := h2 (by omega) hx
    rw [e] at hw; cases hw

/-- **C83**: values written through an `ostream_iterator` are read back through an `istream_iterator` from the bytes written, when they all have
the same stream size (see C69). -/
theorem iterators_round_trip (t : Ty) (k : Nat) (vs : List (Val t)) (s s' : OS) (hw : WfTy t) (hv : ∀ v ∈ vs, Okv t v) (h0 : Okv t (dflt t))
    (hk : 0 < k) (hd : ss t (dflt t) = k) (hsame : Same k vs) (hb : s.base % 8 = 0) (hl : s.buf.length + 8 ≤ W) (hp : s.pos ≤ s.buf.length)
    (hchk : chkAll (chk t) (enc t) vs s.pos 0) (hx : s.ios.exc &&& 4 ≠ 0) (hwr : oitCopy t vs s = .ret () s') (r : IS)
    (hr : r.buf = s'.buf.take s'.pos) (hrp : r.pos = s.pos) (hrx : r.ios.exc &&& 6 = 0) :
    ∃ i, CopiesAll junk t r vs (.ret () { r with pos := s'.pos, ios := i }) := by
  obtain ⟨h1, h2⟩ := ostream_iterator_copy t vs s hw hv hb (by omega) hp
  by_cases hroom : s.pos + (encAll (enc t) vs s.pos).length ≤ s.buf.length
  · rw [h1 hroom] at hwr
    cases hwr
    have e : r.buf = s.buf.take s.pos ++ encAll (enc t) vs s.pos := by
      rw [hr]
      have e2 : (s.buf.take s.pos ++ encAll (enc t) vs s.pos).length = s.pos + (encAll (enc t) vs s.pos).length := by simp; omega
      rw [← e2, List.take_left]
    have e3 : r.buf.length = s.pos + (encAll (enc t) vs s.pos).length := by rw [e]; simp; omega
    obtain ⟨i, _, hc⟩ := iter_copy (junk := junk) (t := t) k r vs [] h0 hd ⟨by omega, by omega, by
      rw [e, hrp, List.append_nil]
      exact List.drop_left' (by simp; omega)⟩ ⟨hw, hv, by rw [hrp]; exact hchk⟩ hsame hk hrx
    rw [hrp] at hc
    exact ⟨i, hc⟩
  · obtain ⟨s2, e⟩ := h2 (by omega) hx
    rw [e] at hwr; cases hwr

end

end Ustl.Stream
