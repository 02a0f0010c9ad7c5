import Verif.Stream.Props
/-! # `long4grain` and `ptr4grain` (C84)

64-bit values in a stream whose grain is 4 bytes: uspecial.h:173-223. The two little-endian builds are modelled: the one for x86-64, which
stores the 8 bytes at once, and the portable one, which streams two 32-bit halves. A pointer is its address. The asserted grain of the position is
not needed for anything below. -/
namespace Ustl.Stream

/-! ### The code -/

/-- `*(const uint64_t*) is.ipos()`, with `n = 8`: bytes at the position. Models uspecial.h:185. -/
def IS.peek (n : Nat) : M IS (List Byte) := fun s =>
  match slice s.buf s.pos n with
  | none => .oob
  | some d => .ret d s

/-- `*(uint64_t*) os.ipos() = v`, where `d` are the bytes of `v`. Models uspecial.h:196. -/
def OS.poke (d : List Byte) : M OS Unit := fun s =>
  match store s.buf s.pos d with
  | none => .oob
  | some b => .ret () { s with buf := b }

/-- The part of `read` after the check, with `n = 8`. Models uspecial.h:185-186. -/
def g4Load (n : Nat) : M IS Nat := IS.peek n >>= fun d => IS.skip n >>= fun _ => pure (leVal d)

/-- `long4grain::read`, with `n = sizeof(uint64_t)`. Models uspecial.h:177-187. -/
def g4ReadN (n old : Nat) : M IS Nat := IS.verify n >>= fun b => if b = true then g4Load n else pure old

/-- `is >> long4grain (v)`, where `v` held `old`; x86-64. Models uspecial.h:177-187, 212, 217. -/
def g4Read (old : Nat) : M IS Nat := g4ReadN 8 old

/-- The part of `write` after the check, with `n = 8`. Models uspecial.h:196-197. -/
def g4Store (n v : Nat) : M OS Unit := OS.poke (leBytes n v) >>= fun _ => OS.skip n

/-- `long4grain::write`, with `n = sizeof(uint64_t)`. Models uspecial.h:188-198. -/
def g4WriteN (n v : Nat) : M OS Unit := OS.verify n >>= fun b => if b = true then g4Store n v else pure ()

/-- `os << long4grain (v)`; x86-64. Models uspecial.h:188-198, 214, 220. -/
def g4Write (v : Nat) : M OS Unit := g4WriteN 8 v

/-- `is >> long4grain (v)`, the portable little-endian build: `vl` and `vh` start with anything. Models uspecial.h:203. -/
def g4ReadP (junkL junkH : Nat) : M IS Nat := do
  let vl ← IS.readInt 4 junkL
  let vh ← IS.readInt 4 junkH
  pure ((vh <<< 32) ||| vl)

/-- `os << long4grain (v)`, the portable little-endian build. Models uspecial.h:204. -/
def g4WriteP (v : Nat) : M OS Unit := do
  OS.write (leBytes 4 (v % 2 ^ 32))
  OS.write (leBytes 4 (v >>> 32 % 2 ^ 32))

/-- `long4grain (v).stream_size()`: that of a `uint64_t`. Models uspecial.h:206. -/
def g4Size : Nat := 8

/-! ### Proofs -/

theorem leBytes_append : ∀ (m n v : Nat), leBytes (m + n) v = leBytes m v ++ leBytes n (v / 256 ^ m)
  | 0, n, v => by simp [leBytes]
  | m + 1, n, v => by
    rw [Nat.add_right_comm, leBytes, leBytes, leBytes_append m n, List.cons_append, Nat.div_div_eq_div_mul, Nat.pow_succ, Nat.mul_comm 256]

theorem leBytes_mod : ∀ (m v : Nat), leBytes m (v % 256 ^ m) = leBytes m v
  | 0, v => rfl
  | m + 1, v => by
    have h1 : v % 256 ^ (m + 1) / 256 = v / 256 % 256 ^ m := by
      rw [Nat.pow_succ, Nat.mul_comm, Nat.mod_mul_right_div_self]
    have h2 : UInt8.ofNat (v % 256 ^ (m + 1)) = UInt8.ofNat v := by
      apply UInt8.toNat_inj.1
      have : v % 256 ^ (m + 1) % 256 = v % 256 := by
        rw [Nat.pow_succ, Nat.mul_comm, Nat.mod_mul_right_mod]
      simpa using this
    rw [leBytes, leBytes, h1, h2, leBytes_mod m]

theorem leBytes_split (v : Nat) : leBytes 8 v = leBytes 4 (v % 2 ^ 32) ++ leBytes 4 (v >>> 32 % 2 ^ 32) := by
  have h := leBytes_append 4 4 v
  have e : (256 : Nat) ^ 4 = 2 ^ 32 := by decide
  have h1 := leBytes_mod 4 v
  have h2 := leBytes_mod 4 (v / 256 ^ 4)
  rw [e] at h h1 h2
  rw [h1, Nat.shiftRight_eq_div_pow, h2]
  exact h

theorem OS.verify_ok {s : OS} {n : Nat} (hl : s.buf.length < W) (h : s.pos + n ≤ s.buf.length) : OS.verify n s = .ret true s := by
  unfold OS.verify
  rw [OS.remaining_eq (by omega) hl, if_pos (by omega)]

theorem poke_skip {d : List Byte} {n : Nat} {s : OS} (hn : d.length = n) (hl : s.buf.length < W) (h : s.pos + n ≤ s.buf.length) :
    (OS.poke d >>= fun _ => OS.skip n) s = .ret () (s.after d) := by
  subst hn
  have hp : OS.poke d s = .ret () { s with buf := s.buf.take s.pos ++ d ++ s.buf.drop (s.pos + d.length) } := by
    unfold OS.poke store
    rw [if_pos h]
  rw [M.bind_ret hp]
  unfold OS.skip OS.seek
  have hk : (s.pos + d.length) % W = s.pos + d.length := Nat.mod_eq_of_lt (by omega)
  show (if (s.pos + d.length) % W > _ then _ else _) = _
  rw [hk, if_neg (by simp only [List.length_append, List.length_take, List.length_drop]; omega)]
  rfl

theorem g4Store_ok {n v : Nat} {s : OS} (hl : s.buf.length < W) (h : s.pos + n ≤ s.buf.length) : g4Store n v s = .ret () (s.after (leBytes n v)) := by
  rw [g4Store]
  exact poke_skip (leBytes_length n v) hl h

theorem g4WriteN_writes (n v : Nat) : Writes (g4WriteN n v) (fun _ => leBytes n v) := by
  intro s hb hl hp
  simp only [leBytes_length]
  refine ⟨fun h => ?_, fun h hx => ?_⟩
  · rw [g4WriteN, M.bind_ret (OS.verify_ok hl h), if_pos rfl]
    exact g4Store_ok hl h
  · have hv : ∃ s', OS.verify n s = .exn s' := by
      unfold OS.verify; rw [OS.remaining_eq hp hl, if_neg (by omega)]; exact OS.over_exn _ _ hx
    obtain ⟨s', hv⟩ := hv
    refine ⟨s', ?_⟩
    rw [g4WriteN]
    exact M.bind_exn hv

theorem g4Write_writes (v : Nat) : Writes (g4Write v) (fun _ => leBytes 8 v) := by
  rw [g4Write]
  exact g4WriteN_writes 8 v

theorem g4WriteP_writes (v : Nat) : Writes (g4WriteP v) (fun _ => leBytes 8 v) := by
  refine Writes.congr (Writes.seq (f := fun _ => _) (Writes.raw _) (Writes.raw _)) (fun p => ?_)
  exact (leBytes_split v).symm

/-- **C84**: writing a 64-bit value with `long4grain` writes its 8 bytes at the position, aligned or not, with no padding, in both builds; nothing
else in the block changes. Without room it throws. -/
theorem long4grain_write (v : Nat) (s : OS) (hb : s.base % 8 = 0) (hl : s.buf.length < W) (hp : s.pos ≤ s.buf.length) :
    (s.pos + 8 ≤ s.buf.length →
      g4Write v s = .ret () { s with buf := s.buf.take s.pos ++ leBytes 8 v ++ s.buf.drop (s.pos + 8), pos := s.pos + 8 } ∧ g4WriteP v s = g4Write v s) ∧
    (s.buf.length < s.pos + 8 → s.ios.exc &&& 4 ≠ 0 → (∃ s', g4Write v s = .exn s') ∧ ∃ s', g4WriteP v s = .exn s') := by
  have h1 := g4Write_writes v s hb hl hp
  have h2 := g4WriteP_writes v s hb hl hp
  simp only [leBytes_length] at h1 h2
  refine ⟨fun h => ⟨?_, (h2.1 h).trans (h1.1 h).symm⟩, fun h hx => ⟨h1.2 h hx, h2.2 h hx⟩⟩
  rw [h1.1 h]
  unfold OS.after
  rw [leBytes_length]

example : g4Write 0x1122334455667788 { buf := [0, 0, 0, 0, 9, 9, 9, 9, 9, 9, 9, 9], pos := 4 } =
    .ret () { buf := [0, 0, 0, 0, 0x88, 0x77, 0x66, 0x55, 0x44, 0x33, 0x22, 0x11], pos := 12 } :=
  ((long4grain_write 0x1122334455667788 { buf := [0, 0, 0, 0, 9, 9, 9, 9, 9, 9, 9, 9], pos := 4 } rfl (by decide) (by decide)).1 (by decide)).1

/-- **C84**: `stream_size ()` of a `long4grain` is what writing it takes: with that many bytes left it is written and the position moves by exactly
that many, with one byte less it throws. -/
theorem long4grain_size (v : Nat) (s : OS) (hb : s.base % 8 = 0) (hl : s.buf.length < W) (hp : s.pos ≤ s.buf.length) :
    (s.pos + g4Size ≤ s.buf.length → ∃ s', g4Write v s = .ret () s' ∧ s'.pos = s.pos + g4Size ∧ s'.buf.length = s.buf.length) ∧
    (s.buf.length < s.pos + g4Size → s.ios.exc &&& 4 ≠ 0 → ∃ s', g4Write v s = .exn s') := by
  obtain ⟨h1, h2⟩ := long4grain_write v s hb hl hp
  refine ⟨fun h => ⟨_, (h1 h).1, rfl, ?_⟩, fun h hx => (h2 h hx).1⟩
  have : s.pos + 8 ≤ s.buf.length := h
  simp only [List.length_append, List.length_take, List.length_drop, leBytes_length]
  omega

example : ∃ s', g4Write 7 { buf := List.replicate 12 0, pos := 4 } = .ret () s' ∧ s'.pos = 12 :=
  ((long4grain_size 7 { buf := List.replicate 12 0, pos := 4 } rfl (by decide) (by decide)).1 (by decide)).imp fun _ h => ⟨h.1, h.2.1⟩

theorem peek_skip {d : List Byte} {n p r : Nat} (hn : d.length = n) (g : List Byte → Nat) :
    Reads (IS.peek n >>= fun d => IS.skip n >>= fun _ => pure (g d)) p d r (g d) := by
  subst hn
  intro s pre post hb hp hs hr hl
  have hlen : s.buf.length = p + (d.length + post.length) := by rw [hb, List.length_append, List.length_append, hp]
  have hk : IS.peek d.length s = .ret d s := by
    unfold IS.peek
    rw [hs, ← hp, slice_at hb]
  have hsk : IS.skip d.length s = .ret () { s with pos := p + d.length } := by
    unfold IS.skip IS.seek
    have hm : (p + d.length) % W = p + d.length := Nat.mod_eq_of_lt (by omega)
    rw [hs, hm, if_neg (by omega)]
  rw [M.bind_ret hk, M.bind_ret hsk]
  rfl

theorem g4Load_reads {n p r v : Nat} (h : v < 256 ^ n) : Reads (g4Load n) p (leBytes n v) r v := by
  have := peek_skip (p := p) (r := r) (leBytes_length n v) leVal
  rw [leVal_leBytes n v h] at this
  rw [g4Load]
  exact this

theorem g4ReadN_reads {n p r v old : Nat} (h : v < 256 ^ n) : Reads (g4ReadN n old) p (leBytes n v) r v := by
  rw [g4ReadN]
  exact Reads.guarded (by rw [leBytes_length]; omega) (g4Load_reads h)

theorem g4Read_reads {p r v old : Nat} (h : v < 256 ^ 8) : Reads (g4Read old) p (leBytes 8 v) r v := by
  rw [g4Read]
  exact g4ReadN_reads h

theorem halves (v : Nat) (h : v < 256 ^ 8) : ((v >>> 32 % 2 ^ 32) <<< 32) ||| (v % 2 ^ 32) = v := by
  have hlo : v % 2 ^ 32 < 2 ^ 32 := Nat.mod_lt _ (by decide)
  have h64 : v < 2 ^ 32 * 2 ^ 32 := by omega
  rw [← Nat.shiftLeft_add_eq_or_of_lt hlo, Nat.shiftLeft_eq, Nat.shiftRight_eq_div_pow, Nat.mod_eq_of_lt (Nat.div_lt_of_lt_mul h64)]
  exact Nat.div_add_mod' v (2 ^ 32)

theorem readHalves {n k p r lo hi a b : Nat} (h1 : lo < 256 ^ n) (h2 : hi < 256 ^ n) :
    Reads (IS.readInt n a >>= fun vl => IS.readInt n b >>= fun vh => pure ((vh <<< k) ||| vl)) p (leBytes n lo ++ leBytes n hi) r ((hi <<< k) ||| lo) :=
  Reads.seq (f := fun vl => IS.readInt n b >>= fun vh => pure ((vh <<< k) ||| vl)) (Reads.int (n := n) (old := a) (p := p) (r := r + (leBytes n hi).length) h1)
    (Reads.map (g := fun vh => (vh <<< k) ||| lo) (Reads.int (n := n) (old := b) (r := r) h2))

theorem g4ReadP_reads {p r v a b : Nat} (h : v < 256 ^ 8) : Reads (g4ReadP a b) p (leBytes 8 v) r v := by
  have h1 : v % 2 ^ 32 < 256 ^ 4 := by omega
  have h2 : v >>> 32 % 2 ^ 32 < 256 ^ 4 := by omega
  have e := halves v h
  have := readHalves (k := 32) (p := p) (r := r) (a := a) (b := b) h1 h2
  rw [e, ← leBytes_split] at this
  rw [g4ReadP]
  exact this

theorem leBytes_leVal : ∀ l : List Byte, leBytes l.length (leVal l) = l := by
  intro l
  induction l with
  | nil => rfl
  | cons x xs ih =>
    simp only [List.length_cons, leBytes, leVal]
    have hx := x.toNat_lt
    rw [show (x.toNat + 256 * leVal xs) / 256 = leVal xs by omega, ih]
    congr 1
    apply UInt8.toNat_inj.1
    simp

/-- What reads the bytes of every value reads the bytes there are. -/
theorem reads_there {m : M IS Nat} {n : Nat} (hm : ∀ v, v < 256 ^ n → Reads m p (leBytes n v) 0 v) {s : IS} (hs : s.pos = p) (h : s.pos + n ≤ s.buf.length)
    (hl : s.buf.length + 8 ≤ W) : m s = .ret (leVal ((s.buf.drop s.pos).take n)) { s with pos := s.pos + n } := by
  have hln : ((s.buf.drop s.pos).take n).length = n := by simp; omega
  have hlt := leVal_lt ((s.buf.drop s.pos).take n)
  have he := leBytes_leVal ((s.buf.drop s.pos).take n)
  rw [hln] at hlt he
  have hbuf : s.buf = s.buf.take s.pos ++ (leBytes n (leVal ((s.buf.drop s.pos).take n)) ++ (s.buf.drop s.pos).drop n) := by
    rw [he, List.take_append_drop, List.take_append_drop]
  have h1 := hm _ hlt s _ _ hbuf (by simp; omega) hs (Nat.zero_le _) hl
  rw [leBytes_length, ← hs] at h1
  exact h1

theorem g4ReadN_exn {n old : Nat} {s : IS} (hp : s.pos ≤ s.buf.length) (hl : s.buf.length + 8 ≤ W) (h : s.buf.length < s.pos + n) (hx : s.ios.exc &&& 4 ≠ 0) :
    ∃ s', g4ReadN n old s = .exn s' := by
  obtain ⟨s', hs'⟩ := IS.over_exn false s.remaining hx
  have hv : IS.verify n s = .exn s' := by
    unfold IS.verify
    rw [IS.remaining_eq hp (by omega), if_neg (by omega)]
    rw [IS.remaining_eq hp (by omega)] at hs'
    exact hs'
  refine ⟨s', ?_⟩
  rw [g4ReadN]
  exact M.bind_exn hv

theorem g4ReadN_short {n old : Nat} {s : IS} (hp : s.pos ≤ s.buf.length) (hl : s.buf.length + 8 ≤ W) (h : s.buf.length < s.pos + n) (hx : s.ios.exc &&& 6 = 0) :
    ∃ i, g4ReadN n old s = .ret old { s with ios := i } := by
  have hv : ∃ i, IS.verify n s = .ret false { s with ios := i } := by
    unfold IS.verify
    rw [IS.remaining_eq hp (by omega), if_neg (by omega)]
    generalize s.buf.length - s.pos = k
    have hx4 : s.ios.exc &&& 4 = 0 := by
      rw [show (4 : Nat) = 6 &&& 4 by decide, ← Nat.and_assoc, hx, Nat.zero_and]
    refine ⟨(s.ios.overrun k).1, ?_⟩
    unfold IS.over Ios.overrun
    generalize k % 2 ^ 32 = r
    by_cases hr : r ≠ 0
    · simp [hr, hx4]
    · simp only [if_neg hr, hx]; rfl
  obtain ⟨i, hv⟩ := hv
  refine ⟨i, ?_⟩
  rw [g4ReadN, M.bind_ret hv]
  rfl

/-- **C84**: reading with `long4grain` gives the value of the 8 bytes at the position, aligned or not, and moves 8 bytes on, in both builds,
whatever the variable held. If fewer than 8 bytes remain, x86-64 throws, or, if nothing is to be thrown, leaves the variable and the position as they were. -/
theorem long4grain_read (old a b : Nat) (s : IS) (hp : s.pos ≤ s.buf.length) (hl : s.buf.length + 8 ≤ W) :
    (s.pos + 8 ≤ s.buf.length → g4Read old s = .ret (leVal ((s.buf.drop s.pos).take 8)) { s with pos := s.pos + 8 } ∧
      g4ReadP a b s = g4Read old s) ∧
    (s.buf.length < s.pos + 8 → s.ios.exc &&& 4 ≠ 0 → ∃ s', g4Read old s = .exn s') ∧
    (s.buf.length < s.pos + 8 → s.ios.exc &&& 6 = 0 → ∃ i, g4Read old s = .ret old { s with ios := i }) := by
  refine ⟨fun h => ?_, fun h hx => ?_, fun h hx => ?_⟩
  · have h1 := reads_there (m := g4Read old) (n := 8) (fun v hv => g4Read_reads hv) rfl h hl
    have h2 := reads_there (m := g4ReadP a b) (n := 8) (fun v hv => g4ReadP_reads hv) rfl h hl
    exact ⟨h1, h2.trans h1.symm⟩
  · rw [g4Read]
    exact g4ReadN_exn hp hl h hx
  · rw [g4Read]
    exact g4ReadN_short hp hl h hx

example : g4Read 5 { buf := [1, 2, 3, 4, 0x88, 0x77, 0x66, 0x55, 0x44, 0x33, 0x22, 0x11], pos := 4 } =
    .ret 0x1122334455667788 { buf := [1, 2, 3, 4, 0x88, 0x77, 0x66, 0x55, 0x44, 0x33, 0x22, 0x11], pos := 12 } :=
  ((long4grain_read 5 0 0 { buf := [1, 2, 3, 4, 0x88, 0x77, 0x66, 0x55, 0x44, 0x33, 0x22, 0x11], pos := 4 } (by decide) (by simp [W])).1 (by decide)).1

/-- A record of a 4-grain file: a 32-bit number or a 64-bit one. -/
inductive Rec where
  | word (v : Nat)
  | wide (v : Nat)
deriving DecidableEq

/-- It can be stored. -/
def Rec.Ok : Rec → Prop
  | .word v => v < 256 ^ 4
  | .wide v => v < 256 ^ 8

/-- Its bytes: no padding, wherever it stands. -/
def Rec.bytes : Rec → List Byte
  | .word v => leBytes 4 v
  | .wide v => leBytes 8 v

/-- `os << v` or `os << long4grain (v)`. -/
def Rec.put : Rec → M OS Unit
  | .word v => OS.write (leBytes 4 v)
  | .wide v => g4Write v

/-- `is >> v` or `is >> long4grain (v)`, into a variable that held anything. -/
def Rec.get (old : Nat) : Rec → M IS Rec
  | .word _ => IS.readInt 4 old >>= fun v => pure (.word v)
  | .wide _ => g4Read old >>= fun v => pure (.wide v)

/-- Writing a sequence of them. -/
def putRecs : List Rec → M OS Unit
  | [] => pure ()
  | r :: rs => r.put >>= fun _ => putRecs rs

/-- Reading a sequence of the same kinds. -/
def getRecs (old : Nat) : List Rec → M IS (List Rec)
  | [] => pure []
  | r :: rs => r.get old >>= fun x => getRecs old rs >>= fun xs => pure (x :: xs)

/-- The bytes of a sequence. -/
def recBytes (rs : List Rec) : List Byte := (rs.map Rec.bytes).flatten

theorem putRecs_writes : ∀ rs : List Rec, Writes (putRecs rs) (fun _ => recBytes rs)
  | [] => Writes.pure
  | r :: rs => by
    have h : Writes r.put (fun _ => r.bytes) := by
      cases r with
      | word v => exact Writes.raw _
      | wide v => exact g4Write_writes v
    exact Writes.congr (Writes.seq (f := fun _ => putRecs rs) h (putRecs_writes rs)) (fun p => by simp [recBytes])

theorem getRecs_reads (old : Nat) : ∀ (rs : List Rec) (p r : Nat), (∀ x ∈ rs, x.Ok) → Reads (getRecs old rs) p (recBytes rs) r rs
  | [], p, r, _ => Reads.pure [] p r
  | x :: rs, p, r, h => by
    have hx := h x (List.mem_cons_self ..)
    have h1 : Reads (x.get old) p x.bytes (r + (recBytes rs).length) x := by
      cases x with
      | word v => exact Reads.map (g := Rec.word) (Reads.int (n := 4) hx)
      | wide v => exact Reads.map (g := Rec.wide) (g4Read_reads hx)
    have h2 := getRecs_reads old rs (p + x.bytes.length) r (fun y hy => h y (List.mem_cons_of_mem _ hy))
    have := Reads.seq (v := x) (f := fun x => getRecs old rs >>= fun xs => pure (x :: xs)) h1 (Reads.map (g := fun xs => x :: xs) h2)
    have e : recBytes (x :: rs) = x.bytes ++ recBytes rs := by simp [recBytes]
    rw [e]
    exact this

/-- **C84**: a file of 32-bit numbers and 64-bit ones written with `long4grain`, in any order and from any position, holds just their bytes, one after
another, and is read back. -/
theorem grain4_round_trip (rs : List Rec) (old : Nat) (s s' : OS) (h : ∀ x ∈ rs, x.Ok) (hb : s.base % 8 = 0) (hl : s.buf.length + 8 ≤ W)
    (hp : s.pos ≤ s.buf.length) (hx : s.ios.exc &&& 4 ≠ 0) (hw : putRecs rs s = .ret () s') (r : IS) (hr : r.buf = s'.buf) (hrp : r.pos = s.pos) :
    s'.buf = s.buf.take s.pos ++ recBytes rs ++ s.buf.drop (s.pos + (recBytes rs).length) ∧ s'.pos = s.pos + (recBytes rs).length ∧
      getRecs old rs r = .ret rs { r with pos := s'.pos } := by
  obtain ⟨h1, h2⟩ := putRecs_writes rs s hb (by omega) hp
  replace h1 : s.pos + (recBytes rs).length ≤ s.buf.length → putRecs rs s = .ret () (s.after (recBytes rs)) := h1
  replace h2 : s.buf.length < s.pos + (recBytes rs).length → s.ios.exc &&& 4 ≠ 0 → ∃ s', putRecs rs s = .exn s' := h2
  by_cases hroom : s.pos + (recBytes rs).length ≤ s.buf.length
  · rw [h1 hroom] at hw
    cases hw
    refine ⟨rfl, rfl, ?_⟩
    refine getRecs_reads old rs s.pos 0 h r (s.buf.take s.pos) (s.buf.drop (s.pos + (recBytes rs).length)) ?_ (by simp; omega) hrp (Nat.zero_le _) ?_
    · rw [hr, ← List.append_assoc]; rfl
    · rw [hr, OS.after_buf_length hroom]; exact hl
  · obtain ⟨s2, e⟩ := h2 (by omega) hx
    rw [e] at hw; cases hw

example : (match putRecs [.word 7, .wide 0x1122334455667788] { buf := List.replicate 16 9, pos := 4 } with
    | .ret _ s => decide (s.buf = [9, 9, 9, 9, 7, 0, 0, 0, 0x88, 0x77, 0x66, 0x55, 0x44, 0x33, 0x22, 0x11] ∧ s.pos = 16) | _ => false) = true := by decide +kernel

end Ustl.Stream
