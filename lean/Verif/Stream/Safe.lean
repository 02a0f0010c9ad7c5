import Verif.Stream.SizeLemmas
/-! # Binary streams stay inside their memory: theorems for C40 and C41 -/
namespace Ustl.Stream

/-! ## istream -/

/-- The position is inside the block (or at its end), and the block is in the address space. -/
def IS.Inv (s : IS) : Prop := s.pos ≤ s.buf.length ∧ s.buf.length + 8 ≤ W

/-- The outcome is not an access outside the block; the position is inside and the bytes are those of `s`. -/
inductive Stays {α : Type} (s : IS) : Out IS α → Prop where
  | ret {a : α} {s' : IS} : s'.Inv → s'.buf = s.buf → Stays s (.ret a s')
  | exn {s' : IS} : s'.Inv → s'.buf = s.buf → Stays s (.exn s')

/-- Started inside the block, the operation touches nothing outside, leaves the position inside and the bytes as they
were, whether it returns or throws. -/
def ISafe {α : Type} (m : M IS α) : Prop := ∀ s : IS, s.Inv → Stays s (m s)

theorem Stays.toRet {α : Type} {s s' : IS} {a : α} (h : Stays s (.ret a s')) : s'.Inv ∧ s'.buf = s.buf := by
  cases h with | ret h1 h2 => exact ⟨h1, h2⟩

theorem Stays.toExn {α : Type} {s s' : IS} (h : Stays s (.exn s' : Out IS α)) : s'.Inv ∧ s'.buf = s.buf := by
  cases h with | exn h1 h2 => exact ⟨h1, h2⟩

theorem Stays.toOob {α : Type} {s : IS} (h : Stays s (.oob : Out IS α)) : False := by cases h

theorem Stays.trans {α : Type} {s x : IS} {o : Out IS α} (h : Stays x o) (hb : x.buf = s.buf) : Stays s o := by
  cases h with
  | ret h1 h2 => exact .ret h1 (h2.trans hb)
  | exn h1 h2 => exact .exn h1 (h2.trans hb)

theorem ISafe.pure {α : Type} (a : α) : ISafe (Pure.pure a : M IS α) := fun _ h => .ret h rfl

/-- Sequencing; the second part may use what the first returned. -/
theorem ISafe.bindP {α β : Type} {m : M IS α} {f : α → M IS β} {P : α → Prop} (hm : ISafe m)
    (hp : ∀ s a s', s.Inv → m s = .ret a s' → P a) (hf : ∀ a, P a → ISafe (f a)) : ISafe (m >>= f) := by
  intro s hs
  have h := hm s hs
  have q := hp s
  cases e : m s with
  | ret a s' =>
    rw [e] at h
    rw [M.bind_ret e]
    exact (hf a (q a s' hs e) s' h.toRet.1).trans h.toRet.2
  | exn s' => rw [e] at h; rw [M.bind_exn e]; exact .exn h.toExn.1 h.toExn.2
  | oob => rw [e] at h; exact h.toOob.elim

theorem ISafe.bind {α β : Type} {m : M IS α} {f : α → M IS β} (hm : ISafe m) (hf : ∀ a, ISafe (f a)) :
    ISafe (m >>= f) := ISafe.bindP (P := fun _ => True) hm (fun _ _ _ _ _ => trivial) (fun a _ => hf a)

theorem ISafe.over {α : Type} (a : α) (r : Nat) : ISafe (IS.over a r) := by
  intro s hs
  unfold IS.over
  cases s.ios.overrun r with
  | mk i b =>
    cases b with
    | false => exact .ret hs rfl
    | true => exact .exn hs rfl

theorem ISafe.seek (p : Nat) : ISafe (IS.seek p) := by
  intro s hs
  unfold IS.seek
  by_cases h : p > s.buf.length
  · rw [if_pos h]; exact ISafe.over _ _ s hs
  · rw [if_neg h]; exact .ret ⟨by simp only; omega, hs.2⟩ rfl

theorem ISafe.verify (n : Nat) : ISafe (IS.verify n) := by
  intro s hs
  unfold IS.verify
  by_cases h : n ≤ s.remaining
  · rw [if_pos h]; exact .ret hs rfl
  · rw [if_neg h]; exact ISafe.over _ _ s hs

/-- What `verify_remaining` establishes. -/
theorem verify_ret {n : Nat} {s s' : IS} {b : Bool} (hs : s.Inv) (h : IS.verify n s = .ret b s') :
    s'.buf = s.buf ∧ s'.pos = s.pos ∧ (b = true → s' = s ∧ s.pos + n ≤ s.buf.length) ∧
    (b = false → s.buf.length < s.pos + n) := by
  have hr := IS.remaining_eq hs.1 (by have := hs.2; omega)
  have hi := hs.1
  unfold IS.verify at h
  by_cases hn : n ≤ s.remaining
  · rw [if_pos hn] at h
    injection h with h1 h2
    subst h1; subst h2
    exact ⟨rfl, rfl, fun _ => ⟨rfl, by omega⟩, fun h => by cases h⟩
  · rw [if_neg hn] at h
    unfold IS.over at h
    generalize s.ios.overrun s.remaining = o at h
    obtain ⟨i, x⟩ := o
    cases x with
    | true => cases h
    | false =>
      injection h with h1 h2
      subst h1; subst h2
      exact ⟨rfl, rfl, (fun h => by cases h), fun _ => by omega⟩

theorem take_in {n : Nat} {s : IS} (hs : s.Inv) (h : s.pos + n ≤ s.buf.length) :
    ∃ d, IS.take n s = .ret d { s with pos := s.pos + n } ∧ d = (s.buf.drop s.pos).take n ∧ d.length = n := by
  refine ⟨_, ?_, rfl, by simp; omega⟩
  unfold IS.take slice
  rw [if_pos h]
  show Out.ret _ _ = _
  rw [Nat.mod_eq_of_lt (by have := hs.2; omega)]

/-- A checked transfer: on success `k` gets the bytes. -/
theorem ISafe.checked {α : Type} {n : Nat} {k : List Byte → M IS α} {g : M IS α} (hk : ∀ d, d.length = n → ISafe (k d))
    (hg : ISafe g) : ISafe (IS.verify n >>= fun b => if b = true then (IS.take n >>= k) else g) := by
  intro s hs
  have hv := ISafe.verify n s hs
  cases e : IS.verify n s with
  | exn s' => rw [e] at hv; rw [M.bind_exn e]; exact .exn hv.toExn.1 hv.toExn.2
  | oob => rw [e] at hv; exact hv.toOob.elim
  | ret b s' =>
    rw [e] at hv
    obtain ⟨h1, h2, h3, h4⟩ := verify_ret hs e
    rw [M.bind_ret e]
    cases b with
    | false =>
      simp only [Bool.false_eq_true, if_false]
      exact (hg s' hv.toRet.1).trans h1
    | true =>
      obtain ⟨rfl, h5⟩ := h3 rfl
      obtain ⟨d, hd, _, hl⟩ := take_in hs h5
      simp only [if_true]
      rw [M.bind_ret hd]
      exact (hk d hl { s' with pos := s'.pos + n } ⟨h5, hs.2⟩).trans rfl

theorem ISafe.take_map {α : Type} {n : Nat} {g : M IS α} (f : List Byte → α) (hg : ISafe g) :
    ISafe (IS.verify n >>= fun b => if b = true then (IS.take n >>= fun d => Pure.pure (f d)) else g) :=
  ISafe.checked (fun _ _ => ISafe.pure _) hg

theorem take_bind_pure (n : Nat) : (IS.take n >>= fun d => Pure.pure d) = IS.take n := by
  funext s
  cases e : IS.take n s with
  | ret a x => exact M.bind_ret e
  | exn x => exact M.bind_exn e
  | oob => exact M.bind_oob e

theorem ISafe.read (old : List Byte) (n : Nat) : ISafe (IS.read old n) := by
  have := ISafe.take_map (n := n) (g := Pure.pure old) id (ISafe.pure _)
  simp only [id, take_bind_pure] at this
  exact this

theorem ISafe.iread (old : List Byte) (n : Nat) : ISafe (IS.iread old n) := ISafe.read old n

theorem ISafe.readInt (n old : Nat) : ISafe (IS.readInt n old) := by
  unfold IS.readInt
  exact ISafe.take_map (n := n) (g := Pure.pure old) leVal (ISafe.pure old)

theorem ISafe.align {g : Nat} (h : g ≠ 0) : ISafe (IS.align g) := by
  intro s hs
  unfold IS.align
  rw [if_neg h]
  exact ISafe.seek _ s hs

theorem ISafe.skip (n : Nat) : ISafe (IS.skip n) := fun s hs => ISafe.seek _ s hs

theorem ISafe.seekf (f : IS → Nat) : ISafe (fun s => IS.seek (f s) s) := fun s hs => ISafe.seek (f s) s hs

theorem ISafe.ungetc : ISafe IS.ungetc := ISafe.seekf IS.back

theorem ISafe.seekg (p : Int) (d : Dir) : ISafe (IS.seekg p d) := by
  intro s hs
  cases d <;> exact ISafe.seek _ s hs

theorem ISafe.get {α : Type} (f : IS → α) : ISafe (fun s => .ret (f s) s) := fun _ h => .ret h rfl

theorem ISafe.underflow (n : Nat) : ISafe (IS.underflow n) := ISafe.bind (ISafe.verify n) (fun _ => ISafe.get _)

theorem ISafe.readsome (n : Nat) : ISafe (IS.readsome n) := by
  refine ISafe.bind (ISafe.get IS.remaining) (fun r => ?_)
  by_cases h : r < n
  · simp only [if_pos h]
    exact ISafe.bind (ISafe.underflow n) (fun _ => ISafe.bind (ISafe.get IS.remaining) (fun r => ISafe.read _ _))
  · simp only [if_neg h]
    exact ISafe.bind (ISafe.get IS.remaining) (fun r => ISafe.read _ _)

/-! ### strings -/

theorem leadOnes_le (c : Nat) : ∀ k, Utf8.leadOnes c k ≤ k
  | 0 => Nat.le_refl _
  | k + 1 => by unfold Utf8.leadOnes; split
                · have := leadOnes_le c k; omega
                · omega

theorem seqBytes_le (c : Nat) : Utf8.seqBytes c ≤ 8 := by
  unfold Utf8.seqBytes; split
  · exact leadOnes_le c 8
  · omega

theorem readLoop_some (m : List Byte) : ∀ (k i v : Nat), i + k < m.length → ∃ it, Utf8.readLoop m k i v = some it
  | 0, i, v, _ => ⟨_, rfl⟩
  | k + 1, i, v, h => by
    unfold Utf8.readLoop rd
    rw [List.getElem?_eq_getElem (show i + 1 < m.length by omega)]
    simp only
    split
    · exact ⟨_, rfl⟩
    · exact readLoop_some m k _ _ (by omega)

theorem utf8_read_some {m : List Byte} (h : m.length = 8) : ∃ it, Utf8.read m 0 = some it := by
  unfold Utf8.read rd
  rw [List.getElem?_eq_getElem (show 0 < m.length by omega)]
  simp only
  apply readLoop_some
  have := seqBytes_le (m[0]'(by omega)).toNat
  omega

theorem read_len {old : List Byte} {n : Nat} (ho : old.length = n) {s s' : IS} {d : List Byte} (hs : s.Inv)
    (h : IS.read old n s = .ret d s') : d.length = n := by
  unfold IS.read at h
  cases e : IS.verify n s with
  | exn x => rw [M.bind_exn e] at h; cases h
  | oob => rw [M.bind_oob e] at h; cases h
  | ret b x =>
    rw [M.bind_ret e] at h
    obtain ⟨_, _, h3, _⟩ := verify_ret hs e
    cases b with
    | false => simp only [Bool.false_eq_true, if_false] at h; injection h with h; subst h; exact ho
    | true =>
      obtain ⟨rfl, h5⟩ := h3 rfl
      obtain ⟨d', hd, _, hl⟩ := take_in hs h5
      simp only [if_true] at h
      rw [hd] at h
      injection h with h; subst h; exact hl

theorem ISafe.str {junk : List Byte} (hj : junk.length = 8) (old : List Byte) : ISafe (readStr junk old) := by
  unfold readStr
  refine ISafe.bindP (P := fun b0 => b0.length = 1) (ISafe.iread _ _)
    (fun s a s' hs h => read_len (by simp; omega) hs h) (fun b0 hb => ?_)
  obtain ⟨c, rfl⟩ := List.length_eq_one_iff.1 hb
  unfold strTail
  simp only [lenMore]
  have hsz := seqBytes_le c.toNat
  have hsz0 := Utf8.seqBytes_pos c.toNat
  generalize hz : Utf8.seqBytes c.toNat - 1 = z at *
  refine ISafe.bind (ISafe.verify _) (fun b => ?_)
  cases b with
  | false => exact ISafe.pure _
  | true =>
    simp only [if_true]
    refine ISafe.bindP (P := fun bs => bs.length = z) (ISafe.read _ _)
      (fun s a s' hs h => read_len (by simp; omega) hs h) (fun bs hbs => ?_)
    obtain ⟨it, hit⟩ := utf8_read_some (m := [c] ++ bs ++ junk.drop (1 + z)) (by simp; omega)
    unfold strDecode
    rw [hit]
    simp only
    unfold strBody
    refine ISafe.bind (ISafe.verify _) (fun b => ?_)
    cases b with
    | false => exact ISafe.pure _
    | true => simp only [if_true]; exact ISafe.read _ _

theorem ISafe.all {α : Type} {r : α → M IS α} (h : ∀ x, ISafe (r x)) : ∀ l, ISafe (readAll r l)
  | [] => ISafe.pure _
  | x :: xs => ISafe.bind (h x) (fun _ => ISafe.bind (ISafe.all h xs) (fun _ => ISafe.pure _))

theorem ISafe.blkBody (old : List Byte) (n : Nat) : ISafe (Ustl.Stream.blkBody old n) := by
  unfold Ustl.Stream.blkBody
  refine ISafe.bind (ISafe.verify n) (fun b => ?_)
  cases b with
  | false => exact ISafe.pure _
  | true =>
    simp only [if_true]
    exact ISafe.bind (ISafe.read _ _) (fun d => ISafe.bind (ISafe.align (by decide)) (fun _ => ISafe.pure _))

theorem ISafe.blk (old : List Byte) : ISafe (readBlk old) := by
  unfold readBlk
  exact ISafe.bind (ISafe.readInt 4 0) (fun n => ISafe.blkBody old n)

theorem ISafe.vec {α : Type} {g k : Nat} {d : α} {r : α → M IS α} (h : ∀ x, ISafe (r x)) (old : List α) :
    ISafe (readVec g k d r old) := by
  unfold readVec
  refine ISafe.bind (ISafe.readInt 4 0) (fun n => ISafe.bind (ISafe.verify _) (fun b => ?_))
  cases b with
  | false => exact ISafe.pure _
  | true =>
    simp only [if_true]
    have rest : ISafe (readAll r (resize d old n) >>= fun v => IS.align 4 >>= fun _ => Pure.pure v) :=
      ISafe.bind (ISafe.all h _) (fun _ => ISafe.bind (ISafe.align (by decide)) (fun _ => ISafe.pure _))
    by_cases hg : g > 4
    · simp only [if_pos hg]; exact ISafe.bind (ISafe.align (by omega)) (fun _ => rest)
    · simp only [if_neg hg]; exact rest

theorem al_ne {t : Ty} (h : WfTy t) : al t ≠ 0 := by
  have := al_grain h
  rcases this with e | e | e | e <;> omega

theorem ISafe.val {junk : List Byte} (hj : junk.length = 8) : ∀ (t : Ty), WfTy t → ∀ old : Val t, ISafe (Ustl.Stream.read junk t old)
  | .int n, _, old => ISafe.readInt n old
  | .bool, _, _ => ISafe.bind (ISafe.readInt 1 _) (fun _ => ISafe.pure _)
  | .raw n _, _, old => ISafe.iread old n
  | .str, _, old => ISafe.str hj old
  | .blk, _, old => ISafe.blk old
  | .pair a b, h, _ => ISafe.bind (ISafe.val hj a h.1 _) (fun _ => ISafe.bind (ISafe.align (al_ne h.2)) (fun _ =>
      ISafe.bind (ISafe.val hj b h.2 _) (fun _ => ISafe.bind (ISafe.align (al_ne h.1)) (fun _ => ISafe.pure _))))
  | .arr _ t, h, old => ISafe.all (α := Val t) (ISafe.val hj t h) old
  | .vec t, h, old => ISafe.vec (α := Val t) (ISafe.val hj t h) old

/-- The operations of an `istream`. -/
inductive IOp where
  /-- `seek` -/
  | seek (p : Nat)
  /-- `skip` -/
  | skip (n : Nat)
  /-- `align` -/
  | align (g : Nat)
  /-- `seekg` -/
  | seekg (p : Int) (d : Dir)
  /-- `ungetc` -/
  | ungetc
  /-- `read` into a buffer -/
  | read (old : List Byte) (n : Nat)
  /-- `readsome` -/
  | readsome (n : Nat)
  /-- `verify_remaining` -/
  | verify (n : Nat)
  /-- `underflow` -/
  | underflow (n : Nat)
  /-- `is >> v` with uninitialised locals holding `junk` -/
  | val (junk : List Byte) (t : Ty) (old : Val t)
  /-- `clear` -/
  | clear (v : Nat)
  /-- `exceptions (v)` -/
  | exceptions (v : Nat)

/-- What C++ asks of the caller: a grain is not zero, a type has a sensible alignment. -/
def IOp.ok : IOp → Prop
  | .align g => g ≠ 0
  | .val junk t _ => junk.length = 8 ∧ WfTy t
  | _ => True

/-- One operation; an exception is caught by the caller, who goes on with the same stream. `none` is an access
outside the block. -/
def IOp.run : IOp → IS → Option IS
  | .seek p, s => go (IS.seek p s)
  | .skip n, s => go (IS.skip n s)
  | .align g, s => go (IS.align g s)
  | .seekg p d, s => go (IS.seekg p d s)
  | .ungetc, s => go (IS.ungetc s)
  | .read old n, s => go (IS.read old n s)
  | .readsome n, s => go (IS.readsome n s)
  | .verify n, s => go (IS.verify n s)
  | .underflow n, s => go (IS.underflow n s)
  | .val junk t old, s => go (Ustl.Stream.read junk t old s)
  | .clear v, s => some { s with ios := { s.ios with state := v } }
  | .exceptions v, s => some { s with ios := { s.ios with exc := v } }
where
  /-- the state after an outcome -/
  go {α : Type} : Out IS α → Option IS
    | .ret _ s => some s
    | .exn s => some s
    | .oob => none

/-- A sequence of operations. -/
def runAll : List IOp → IS → Option IS
  | [], s => some s
  | o :: os, s => match o.run s with
    | none => none
    | some s' => runAll os s'

theorem go_safe {α : Type} {m : M IS α} (h : ISafe m) {s : IS} (hs : s.Inv) :
    ∃ s', IOp.run.go (m s) = some s' ∧ s'.Inv ∧ s'.buf = s.buf := by
  have := h s hs
  cases e : m s with
  | ret a x => rw [e] at this; exact ⟨x, rfl, this.toRet⟩
  | exn x => rw [e] at this; exact ⟨x, rfl, this.toExn⟩
  | oob => rw [e] at this; exact this.toOob.elim

theorem run_safe (o : IOp) (ho : o.ok) (s : IS) (hs : s.Inv) : ∃ s', o.run s = some s' ∧ s'.Inv ∧ s'.buf = s.buf := by
  cases o with
  | seek p => exact go_safe (ISafe.seek p) hs
  | skip n => exact go_safe (ISafe.skip n) hs
  | align g => exact go_safe (ISafe.align ho) hs
  | seekg p d => exact go_safe (ISafe.seekg p d) hs
  | ungetc => have h := go_safe ISafe.ungetc hs; unfold IOp.run; exact h
  | read old n => exact go_safe (ISafe.read old n) hs
  | readsome n => exact go_safe (ISafe.readsome n) hs
  | verify n => exact go_safe (ISafe.verify n) hs
  | underflow n => exact go_safe (ISafe.underflow n) hs
  | val junk t old => exact go_safe (ISafe.val ho.1 t ho.2 old) hs
  | clear v => exact ⟨_, rfl, hs, rfl⟩
  | exceptions v => exact ⟨_, rfl, hs, rfl⟩

/-- **C40** for any bytes, any exception mask and any sequence of reads (of integers, strings, blocks, pairs,
vectors, nested in any way), skips, seeks and aligns, with exceptions caught in between, nothing outside the block is
accessed, `pos () <= size ()` all along, and the bytes are unchanged. -/
theorem istream_safe : ∀ (ops : List IOp) (s : IS), (∀ o ∈ ops, o.ok) → s.pos ≤ s.buf.length → s.buf.length + 8 ≤ W →
    ∃ s', runAll ops s = some s' ∧ s'.pos ≤ s'.buf.length ∧ s'.buf = s.buf
  | [], s, _, h1, _ => ⟨s, rfl, h1, rfl⟩
  | o :: os, s, ho, h1, h2 => by
    obtain ⟨x, hx, hi, hb⟩ := run_safe o (ho o (List.mem_cons_self ..)) s ⟨h1, h2⟩
    obtain ⟨y, hy, h3, h4⟩ := istream_safe os x (fun q hq => ho q (List.mem_cons_of_mem _ hq)) hi.1 hi.2
    refine ⟨y, ?_, h3, h4.trans hb⟩
    unfold runAll; rw [hx]; exact hy

example : ∃ s', runAll [.val (List.replicate 8 0xFF) .str ([] : List Byte), .clear 0, .align 4, .val (List.replicate 8 0) (.vec (.int 8)) [],
      .readsome 100] { buf := [0xFF, 1, 2, 3, 0xFF, 0xFF, 0xFF, 0xFF, 9] } = some s' ∧ s'.pos ≤ s'.buf.length ∧
      s'.buf = [0xFF, 1, 2, 3, 0xFF, 0xFF, 0xFF, 0xFF, 9] :=
  istream_safe _ _ (by
    intro o ho
    simp only [List.mem_cons, List.not_mem_nil, or_false] at ho
    rcases ho with rfl | rfl | rfl | rfl | rfl <;> simp [IOp.ok, WfTy, Grain]) (by simp) (by simp [W])

/-- **C40** a read within the block delivers exactly the next `n` bytes and advances by `n`. -/
theorem read_exact (s : IS) (old : List Byte) (n : Nat) (h : s.pos + n ≤ s.buf.length) (hl : s.buf.length + 8 ≤ W) :
    IS.read old n s = .ret ((s.buf.drop s.pos).take n) { s with pos := s.pos + n } := by
  have hs : s.Inv := ⟨by omega, hl⟩
  obtain ⟨d, hd, e, _⟩ := take_in hs h
  have hv : IS.verify n s = .ret true s := by
    unfold IS.verify; rw [IS.remaining_eq hs.1 (by omega), if_pos (by omega)]
  unfold IS.read
  rw [M.bind_ret hv, if_pos rfl, hd, e]

/-- **C40** a read beyond the end transfers nothing: the destination keeps its contents and the position stays,
`failbit` is set, and it throws if `exceptions ()` asks for `failbit`. -/
theorem read_beyond (s : IS) (old : List Byte) (n : Nat) (h : s.buf.length < s.pos + n) (hp : s.pos ≤ s.buf.length)
    (hl : s.buf.length + 8 ≤ W) :
    ∃ i, i.state &&& 4 ≠ 0 ∧ i.fail = true ∧ i.exc = s.ios.exc ∧
      (IS.read old n s = .ret old { s with ios := i } ∧ s.ios.exc &&& 4 = 0 ∨ IS.read old n s = .exn { s with ios := i }) := by
  have hv : IS.verify n s = IS.over false s.remaining s := by
    unfold IS.verify; rw [IS.remaining_eq hp (by omega), if_neg (by omega)]
  generalize hr : s.remaining = r at hv
  have hbit : ∀ v, v &&& 4 = 4 → (s.ios.state ||| v) &&& 4 ≠ 0 := by
    intro v hv h0
    rw [Nat.and_or_distrib_right, hv] at h0
    have : (s.ios.state &&& 4 ||| 4).testBit 2 = false := by rw [h0]; simp
    rw [Nat.testBit_or] at this
    simp [show Nat.testBit 4 2 = true by decide] at this
  have hfail : ∀ v, v &&& 4 = 4 → (Ios.fail ⟨s.ios.state ||| v, s.ios.exc⟩) = true := by
    intro v hv
    unfold Ios.fail
    simp only [ne_eq, decide_eq_true_eq]
    intro h0
    apply hbit v hv
    have e : (5 : Nat) &&& 4 = 4 := by decide
    rw [← e, ← Nat.and_assoc, h0, Nat.zero_and]
  refine ⟨⟨s.ios.state ||| (if r % 2 ^ 32 ≠ 0 then 4 else 6), s.ios.exc⟩, ?_, ?_, rfl, ?_⟩
  · split <;> exact hbit _ (by decide)
  · split <;> exact hfail _ (by decide)
  · unfold IS.read
    have ho : IS.over false r s = (if (s.ios.exc &&& (if r % 2 ^ 32 ≠ 0 then 4 else 6)) ≠ 0
        then .exn { s with ios := ⟨s.ios.state ||| (if r % 2 ^ 32 ≠ 0 then 4 else 6), s.ios.exc⟩ }
        else .ret false { s with ios := ⟨s.ios.state ||| (if r % 2 ^ 32 ≠ 0 then 4 else 6), s.ios.exc⟩ }) := by
      unfold IS.over Ios.overrun
      simp only
      by_cases h : s.ios.exc &&& (if r % 2 ^ 32 ≠ 0 then 4 else 6) ≠ 0
      · rw [if_pos h, decide_eq_true h]
      · rw [if_neg h, decide_eq_false h]
    by_cases hx : s.ios.exc &&& (if r % 2 ^ 32 ≠ 0 then 4 else 6) ≠ 0
    · right
      rw [if_pos hx] at ho
      exact M.bind_exn (hv.trans ho)
    · left
      rw [if_neg hx] at ho
      refine ⟨M.bind_ret (hv.trans ho), ?_⟩
      have hx' : s.ios.exc &&& (if r % 2 ^ 32 ≠ 0 then 4 else 6) = 0 := Classical.not_not.1 hx
      by_cases h : r % 2 ^ 32 ≠ 0
      · rw [if_pos h] at hx'; exact hx'
      · rw [if_neg h] at hx'
        have e : (6 : Nat) &&& 4 = 4 := by decide
        rw [← e, ← Nat.and_assoc, hx', Nat.zero_and]

example : ∃ s : IS, s.buf.length < s.pos + 5 ∧ s.pos ≤ s.buf.length := ⟨{ buf := [1, 2, 3], pos := 1 }, by decide, by decide⟩

theorem readInt_lt {s x : IS} {k n : Nat} (hs : s.Inv) (e : IS.readInt k 0 s = .ret n x) : n < 256 ^ k := by
  unfold IS.readInt at e
  cases e2 : IS.verify k s with
  | exn y => rw [M.bind_exn e2] at e; cases e
  | oob => rw [M.bind_oob e2] at e; cases e
  | ret b y =>
    rw [M.bind_ret e2] at e
    obtain ⟨_, _, h3, _⟩ := verify_ret hs e2
    cases b with
    | false => rw [if_neg (by simp)] at e; injection e with e; rw [← e]; exact Nat.pow_pos (by decide)
    | true =>
      obtain ⟨rfl, h5⟩ := h3 rfl
      obtain ⟨d, hd, _, hlen⟩ := take_in hs h5
      rw [if_pos rfl, M.bind_ret hd] at e
      injection e with e
      have := leVal_lt d
      rw [hlen, e] at this
      exact this

theorem readInt4_lt {s x : IS} {n : Nat} (hs : s.Inv) (e : IS.readInt 4 0 s = .ret n x) : n < 2 ^ 32 := by
  have e4 : 256 ^ 4 = 2 ^ 32 := by decide
  rw [← e4]
  exact readInt_lt hs e

theorem mulW {n k : Nat} (hn : n < 2 ^ 32) (hk : k < 2 ^ 32) : n * k % W = n * k := by
  apply Nat.mod_eq_of_lt
  calc n * k ≤ n * 2 ^ 32 := Nat.mul_le_mul_left _ (Nat.le_of_lt hk)
    _ < 2 ^ 32 * 2 ^ 32 := Nat.mul_lt_mul_of_pos_right hn (by simp)
    _ = W := by simp [W]

theorem readAll_length {α : Type} {r : α → M IS α} : ∀ (l : List α) (z z' : IS) w,
    readAll r l z = .ret w z' → w.length = l.length := by
  intro l
  induction l with
  | nil => intro z z' w hw; injection hw with hw; subst hw; rfl
  | cons a l ih =>
    intro z z' w hw
    unfold readAll at hw
    cases e3 : r a z with
    | exn q => rw [M.bind_exn e3] at hw; cases hw
    | oob => rw [M.bind_oob e3] at hw; cases hw
    | ret b q =>
      rw [M.bind_ret e3] at hw
      cases e4 : readAll r l q with
      | exn q => rw [M.bind_exn e4] at hw; cases hw
      | oob => rw [M.bind_oob e4] at hw; cases hw
      | ret c q' =>
        rw [M.bind_ret e4] at hw
        injection hw with hw
        subst hw
        simp [ih _ _ _ e4]

theorem readRest_length {α : Type} {r : α → M IS α} {l v : List α} {z s' : IS}
    (hz : (readAll r l >>= fun v => IS.align 4 >>= fun _ => Pure.pure v) z = Out.ret v s') : v.length = l.length := by
  cases e3 : readAll r l z with
  | exn q => rw [M.bind_exn e3] at hz; cases hz
  | oob => rw [M.bind_oob e3] at hz; cases hz
  | ret b q =>
    rw [M.bind_ret e3] at hz
    cases e4 : IS.align 4 q with
    | exn q => rw [M.bind_exn e4] at hz; cases hz
    | oob => rw [M.bind_oob e4] at hz; cases hz
    | ret c q' =>
      rw [M.bind_ret e4] at hz
      injection hz with hz
      rw [← hz]
      exact readAll_length _ _ _ _ e3

theorem vecRest_length {α : Type} {g c n : Nat} {d : α} {r : α → M IS α} {old v : List α} {x s' : IS} (hx : x.Inv)
    (h : vecRest g c n d r old x = .ret v s') : v = old ∨ (v.length = n ∧ x.pos + c ≤ x.buf.length) := by
  unfold vecRest at h
  cases e2 : IS.verify c x with
  | exn y => rw [M.bind_exn e2] at h; cases h
  | oob => rw [M.bind_oob e2] at h; cases h
  | ret b y =>
    rw [M.bind_ret e2] at h
    obtain ⟨_, _, h3, _⟩ := verify_ret hx e2
    cases b with
    | false =>
      rw [if_neg (by simp)] at h
      injection h with h
      exact Or.inl h.symm
    | true =>
      right
      obtain ⟨rfl, h5⟩ := h3 rfl
      refine ⟨?_, h5⟩
      rw [if_pos rfl] at h
      by_cases hg : g > 4
      · simp only [if_pos hg] at h
        cases e4 : IS.align g y with
        | exn q => rw [M.bind_exn e4] at h; cases h
        | oob => rw [M.bind_oob e4] at h; cases h
        | ret c q' => rw [M.bind_ret e4] at h; rw [readRest_length h, resize_length]
      · simp only [if_neg hg] at h
        rw [readRest_length h, resize_length]

theorem bind_ret_inv {σ α β : Type} {m : M σ α} {f : α → M σ β} {s s' : σ} {v : β} (h : (m >>= f) s = .ret v s') :
    ∃ a x, m s = .ret a x ∧ f a x = .ret v s' := by
  cases e : m s with
  | exn x => rw [M.bind_exn e] at h; cases h
  | oob => rw [M.bind_oob e] at h; cases h
  | ret a x => rw [M.bind_ret e] at h; exact ⟨a, x, rfl, h⟩

theorem mul64_eq {n k : Nat} (hn : n < 2 ^ 32) (hk : k < 2 ^ 32) : mul64 n k = n * k := mulW hn hk

theorem vec_bounded {α : Type} {m : M IS Nat} {g k : Nat} {d : α} {r : α → M IS α} {old v : List α} {s s' : IS}
    (hk : k < 2 ^ 32) (hm : Stays s (m s)) (hn : ∀ n x, m s = .ret n x → n < 2 ^ 32)
    (h : (m >>= fun n => vecRest g (mul64 n k) n d r old) s = .ret v s') : v = old ∨ v.length * k ≤ s.buf.length := by
  obtain ⟨n, x, e, h⟩ := bind_ret_inv h
  have hn := hn n x e
  rw [e] at hm
  rcases vecRest_length hm.toRet.1 h with h | ⟨h1, h2⟩
  · exact Or.inl h
  · have e3 := mul64_eq hn hk
    rw [hm.toRet.2] at h2
    right
    rw [h1, ← e3]
    exact Nat.le_trans (Nat.le_add_left _ _) h2

theorem readVec_eq {α : Type} (g k : Nat) (d : α) (r : α → M IS α) (old : List α) :
    readVec g k d r old = (IS.readInt 4 0 >>= fun n => vecRest g (mul64 n k) n d r old) := rfl

theorem readVec_bounded {α : Type} {g k : Nat} {d : α} {r : α → M IS α} {old v : List α} {s s' : IS} (hs : s.Inv)
    (hk : k < 2 ^ 32) (h : readVec g k d r old s = .ret v s') : v = old ∨ v.length * k ≤ s.buf.length :=
  vec_bounded (m := IS.readInt 4 0) hk (ISafe.readInt 4 0 s hs) (fun _ _ e => readInt4_lt hs e)
    ((congrFun (readVec_eq g k d r old) s).symm.trans h)

/-- **C40** a hostile length cannot make a vector outgrow the stream: whatever the bytes, after `is >> v` the vector
is as before or its elements' least size fits in the stream. -/
theorem vector_read_bounded (junk : List Byte) (t : Ty) (old v : List (Val t)) (s s' : IS) (hp : s.pos ≤ s.buf.length)
    (hl : s.buf.length + 8 ≤ W) (hk : ss t (dflt t) < 2 ^ 32)
    (h : read junk (.vec t) old s = .ret v s') : v = old ∨ v.length * ss t (dflt t) ≤ s.buf.length :=
  readVec_bounded (α := Val t) ⟨hp, hl⟩ hk h

example : ∃ s : IS, s.pos ≤ s.buf.length ∧ s.buf.length + 8 ≤ W ∧ read (List.replicate 8 0) (.vec (.int 1)) [] s =
    .ret ([7, 8] : List Nat) { s with pos := 8 } ∧ ss (.int 1) (dflt (.int 1)) < 2 ^ 32 :=
  ⟨{ buf := [2, 0, 0, 0, 7, 8, 0, 0] }, by decide, by simp [W], by decide +kernel, by simp [ss]⟩

/-- **C40** `read_strz` before the end: it returns the bytes up to the next NUL (nothing if there is none), steps over
the NUL (over one byte if there is none), and stays inside. -/
theorem readStrz_inside (s : IS) (hp : s.pos < s.buf.length) (hl : s.buf.length + 8 ≤ W) :
    ∃ str s', IS.readStrz s = .ret str s' ∧ s'.pos ≤ s'.buf.length ∧ s'.buf = s.buf ∧ s'.pos = s.pos + str.length + 1 ∧
      (∀ text rest, 0 ∉ text → s.buf.drop s.pos = text ++ 0 :: rest → str = text) ∧
      (0 ∉ s.buf.drop s.pos → str = []) := by
  have hfn : ∀ l : List Byte, findNul l ≤ l.length := by
    intro l; induction l with
    | nil => exact Nat.le_refl _
    | cons a l ih => unfold findNul; split <;> simp <;> omega
  have hnone : ∀ l : List Byte, 0 ∉ l → findNul l = l.length := by
    intro l; induction l with
    | nil => intro _; rfl
    | cons a l ih =>
      intro h
      unfold findNul
      rw [if_neg (fun e => h (by rw [e]; exact List.mem_cons_self ..)), ih (fun x => h (List.mem_cons_of_mem _ x))]
      rfl
  have hsome : ∀ text rest : List Byte, 0 ∉ text → findNul (text ++ 0 :: rest) = text.length := by
    intro text; induction text with
    | nil => intro rest _; rfl
    | cons a l ih =>
      intro rest h
      show findNul (a :: (l ++ 0 :: rest)) = _
      unfold findNul
      rw [if_neg (fun e => h (by rw [e]; exact List.mem_cons_self ..)), ih rest (fun x => h (List.mem_cons_of_mem _ x))]
      rfl
  unfold IS.readStrz
  rw [if_pos (by omega)]
  simp only
  have hd : (s.buf.drop s.pos).length = s.buf.length - s.pos := List.length_drop
  have hk := hfn (s.buf.drop s.pos)
  generalize hq : (if s.pos + findNul (s.buf.drop s.pos) = s.buf.length then 0 else findNul (s.buf.drop s.pos)) = q
  have hq2 : s.pos + q + 1 ≤ s.buf.length := by
    rw [← hq]; split <;> omega
  refine ⟨_, _, rfl, ?_, rfl, ?_, ?_, ?_⟩
  · show (s.pos + (q + 1)) % W ≤ s.buf.length
    rw [Nat.mod_eq_of_lt (by omega)]; omega
  · show (s.pos + (q + 1)) % W = _
    rw [Nat.mod_eq_of_lt (by omega), List.length_take, hd]; omega
  · intro text rest h0 he
    have e := hsome text rest h0
    rw [← he] at e
    have hlen : (s.buf.drop s.pos).length = text.length + (rest.length + 1) := by rw [he]; simp
    rw [e, if_neg (by omega)] at hq
    rw [← hq, he, List.take_left]
  · intro h0
    have e := hnone _ h0
    rw [e, hd, if_pos (by omega)] at hq
    rw [← hq, List.take_zero]

example : ∃ s : IS, s.pos < s.buf.length ∧ s.buf.drop s.pos = [0x61, 0x62] ++ 0 :: [0x63] :=
  ⟨{ buf := [0x61, 0x62, 0, 0x63] }, by decide, by decide⟩

theorem readStrz_eq (s : IS) (h : s.pos ≤ s.buf.length) (q : Nat) (hq : (if s.pos + findNul (s.buf.drop s.pos) = s.buf.length then 0 else findNul (s.buf.drop s.pos)) = q) :
   IS.readStrz s = .ret ((s.buf.drop s.pos).take q) { s with pos := (s.pos + (q + 1)) % W } := by
  unfold IS.readStrz
  rw [if_pos h]
  simp only [hq]

theorem readStrz_end (b : List Byte) (i : Ios) (hl : b.length + 8 ≤ W) :
    IS.readStrz { buf := b, pos := b.length, ios := i } = .ret [] { buf := b, pos := b.length + 1, ios := i } := by
  have e : (b.length + (0 + 1)) % W = b.length + 1 := Nat.mod_eq_of_lt (by omega)
  have h := readStrz_eq { buf := b, pos := b.length, ios := i } (Nat.le_refl _) 0 (by simp [findNul])
  refine h.trans ?_
  simp only [List.take_zero]
  rw [e]

theorem modW_pred {x : Nat} (h : x = W - 1) : x % W = W - 1 := by
  have : x < W := by rw [h]; simp [W]
  rw [Nat.mod_eq_of_lt this, h]

theorem remaining_past (b : List Byte) (i : Ios) :
    IS.remaining { buf := b, pos := b.length + 1, ios := i } = W - 1 := by
  have e1 : b.length + W - (b.length + 1) = W - 1 := by omega
  have e2 : IS.remaining { buf := b, pos := b.length + 1, ios := i } = (b.length + W - (b.length + 1)) % W := rfl
  exact e2.trans (modW_pred e1)

theorem verify_ok {s : IS} {n : Nat} (h : n ≤ s.remaining) : IS.verify n s = .ret true s := by
  unfold IS.verify; rw [if_pos h]

theorem take_out {s : IS} {n : Nat} (h : s.buf.length < s.pos + n) : IS.take n s = .oob := by
  unfold IS.take slice
  rw [if_neg (by omega)]

theorem read_out {s : IS} {n : Nat} {old : List Byte} (h : s.buf.length < s.pos + n) (hr : n ≤ s.remaining) :
    IS.read old n s = .oob := by
  unfold IS.read
  rw [M.bind_ret (verify_ok hr), if_pos rfl, take_out h]

theorem read_past (b : List Byte) (i : Ios) (old : List Byte) :
    IS.read old 1 { buf := b, pos := b.length + 1, ios := i } = .oob := by
  have h1 : 1 ≤ W - 1 := by simp [W]
  exact read_out (show b.length < b.length + 1 + 1 by omega) (Nat.le_trans h1 (Nat.le_of_eq (remaining_past b i).symm))

/-- **C40 fails** for `read_strz` at the end of the block: the position moves one past the end, `remaining ()` wraps
around, and the next read of one byte passes its check and accesses memory outside. -/
theorem readStrz_violated (b : List Byte) (i : Ios) (hl : b.length + 8 ≤ W) (old : List Byte) :
    ∃ s', IS.readStrz { buf := b, pos := b.length, ios := i } = .ret [] s' ∧ s'.pos = s'.buf.length + 1 ∧
      IS.read old 1 s' = .oob := ⟨_, readStrz_end b i hl, rfl, read_past b i old⟩

end Ustl.Stream
