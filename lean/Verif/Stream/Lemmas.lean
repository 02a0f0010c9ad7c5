import Verif.Stream.Spec
import Verif.Utf8.Props
/-! # Binary streams: lemmas -/
namespace Ustl.Stream

theorem M.bind_ret {σ α β : Type} {m : M σ α} {f : α → M σ β} {s s' : σ} {a : α} (h : m s = .ret a s') :
    (m >>= f) s = f a s' := by
  show (match m s with | .ret a s' => f a s' | .exn s' => .exn s' | .oob => .oob) = _
  rw [h]

theorem M.bind_exn {σ α β : Type} {m : M σ α} {f : α → M σ β} {s s' : σ} (h : m s = .exn s') :
    (m >>= f) s = .exn s' := by
  show (match m s with | .ret a s' => f a s' | .exn s' => .exn s' | .oob => .oob) = _
  rw [h]

theorem M.bind_oob {σ α β : Type} {m : M σ α} {f : α → M σ β} {s : σ} (h : m s = .oob) :
    (m >>= f) s = .oob := by
  show (match m s with | .ret a s' => f a s' | .exn s' => .exn s' | .oob => .oob) = _
  rw [h]

theorem M.pure_eq {σ α : Type} (a : α) (s : σ) : (pure a : M σ α) s = .ret a s := rfl

/-! ## Numbers -/

theorem leBytes_length : ∀ (n v : Nat), (leBytes n v).length = n
  | 0, _ => rfl
  | n + 1, v => by simp [leBytes, leBytes_length n]

theorem leVal_leBytes : ∀ (n v : Nat), v < 256 ^ n → leVal (leBytes n v) = v
  | 0, v, h => by simp at h; simp [leBytes, leVal, h]
  | n + 1, v, h => by
    have h2 : v / 256 < 256 ^ n := by
      rw [Nat.pow_succ] at h
      exact Nat.div_lt_of_lt_mul (by rw [Nat.mul_comm]; exact h)
    simp only [leBytes, leVal, leVal_leBytes n _ h2]
    have : (UInt8.ofNat v).toNat = v % 256 := by simp
    rw [this]; omega

theorem leVal_lt : ∀ (l : List Byte), leVal l < 256 ^ l.length
  | [] => by simp [leVal]
  | b :: bs => by
    have := leVal_lt bs
    have hb : b.toNat < 256 := b.toNat_lt
    simp only [leVal, List.length_cons, Nat.pow_succ]
    omega

theorem pad_lt {p g : Nat} (h : Grain g) : pad p g < g := by
  rcases h with rfl | rfl | rfl | rfl <;> unfold pad <;> omega

theorem align_eq {n g : Nat} (h : Grain g) (hn : n + 7 < W) : align n g = n + pad n g := by
  unfold align alignDown pad
  have : (n + (g - 1)) % W = n + (g - 1) := Nat.mod_eq_of_lt (by rcases h with rfl | rfl | rfl | rfl <;> omega)
  rw [this]
  rcases h with rfl | rfl | rfl | rfl <;> omega

theorem padding_eq {s : OS} {g : Nat} (h : Grain g) (hb : s.base % 8 = 0) : s.padding g = pad s.pos g := by
  unfold OS.padding pad
  rcases h with rfl | rfl | rfl | rfl <;> omega

theorem al_grain : ∀ {t : Ty}, WfTy t → Grain (al t)
  | .int _, h => h
  | .bool, _ => Or.inl rfl
  | .raw _ _, h => h
  | .str, _ => Or.inl rfl
  | .blk, _ => by simp [al, Grain]
  | .pair _ _, _ => by simp [al, Grain]
  | .arr _ _, _ => by simp [al, Grain]
  | .vec _, _ => by simp [al, Grain]

theorem encAll_length_cons {α : Type} (e : α → Nat → List Byte) (x : α) (xs : List α) (p : Nat) :
    (encAll e (x :: xs) p).length = (e x p).length + (encAll e xs (p + (e x p).length)).length := by
  simp [encAll]

/-! ## Writing -/

/-- The stream after `d` has been written at the position. -/
def OS.after (s : OS) (d : List Byte) : OS :=
  { s with buf := s.buf.take s.pos ++ d ++ s.buf.drop (s.pos + d.length), pos := s.pos + d.length }

theorem OS.after_buf_length {s : OS} {d : List Byte} (h : s.pos + d.length ≤ s.buf.length) :
    (s.after d).buf.length = s.buf.length := by
  simp [OS.after]; omega

theorem OS.after_pos {s : OS} {d : List Byte} : (s.after d).pos = s.pos + d.length := rfl

theorem OS.after_nil {s : OS} : s.after [] = s := by
  simp [OS.after]

theorem OS.after_after {s : OS} {a b : List Byte} (h : s.pos + a.length + b.length ≤ s.buf.length) :
    (s.after a).after b = s.after (a ++ b) := by
  have e1 : (s.buf.take s.pos ++ a).length = s.pos + a.length := by simp; omega
  have e2 : (s.buf.take s.pos ++ a ++ s.buf.drop (s.pos + a.length)).take (s.pos + a.length) = s.buf.take s.pos ++ a := by
    rw [← e1, List.take_left]
  have e3 : (s.buf.take s.pos ++ a ++ s.buf.drop (s.pos + a.length)).drop (s.pos + a.length + b.length) =
      s.buf.drop (s.pos + a.length + b.length) := by
    rw [← e1, ← List.drop_drop, List.drop_left, e1, List.drop_drop]
  unfold OS.after
  simp only [List.length_append]
  rw [e2, e3, Nat.add_assoc, List.append_assoc (s.buf.take s.pos)]

theorem OS.remaining_eq {s : OS} (h : s.pos ≤ s.buf.length) (hl : s.buf.length < W) :
    s.remaining = s.buf.length - s.pos := by
  unfold OS.remaining
  have : s.buf.length + W - s.pos = (s.buf.length - s.pos) + W := by omega
  rw [this, Nat.add_mod_right, Nat.mod_eq_of_lt (by omega)]

theorem OS.write_ok {s : OS} {d : List Byte} (hl : s.buf.length < W) (h : s.pos + d.length ≤ s.buf.length) :
    OS.write d s = .ret () (s.after d) := by
  have hv : OS.verify d.length s = .ret true s := by
    unfold OS.verify; rw [OS.remaining_eq (by omega) hl, if_pos (by omega)]
  unfold OS.write
  rw [M.bind_ret hv, if_pos rfl]
  unfold OS.put store
  rw [if_pos h]
  show Out.ret () _ = _
  unfold OS.after
  rw [Nat.mod_eq_of_lt (by omega)]

theorem OS.over_exn {α : Type} (a : α) (r : Nat) {s : OS} (he : s.ios.exc &&& 4 ≠ 0) :
    ∃ s', OS.over a r s = .exn s' := by
  unfold OS.over Ios.overrun
  have h6 : s.ios.exc &&& 6 ≠ 0 := by
    intro h; apply he
    have := Nat.and_assoc s.ios.exc 6 4
    rw [h, Nat.zero_and] at this
    exact this.symm
  by_cases hr : r % 2 ^ 32 ≠ 0
  · simp only [if_pos hr, decide_eq_true he]; exact ⟨_, rfl⟩
  · simp only [if_neg hr, decide_eq_true h6]; exact ⟨_, rfl⟩

theorem OS.write_fail {s : OS} {d : List Byte} (hl : s.buf.length < W) (hp : s.pos ≤ s.buf.length)
    (he : s.ios.exc &&& 4 ≠ 0) (h : s.buf.length < s.pos + d.length) : ∃ s', OS.write d s = .exn s' := by
  have hv : ∃ s', OS.verify d.length s = .exn s' := by
    unfold OS.verify; rw [OS.remaining_eq hp hl, if_neg (by omega)]; exact OS.over_exn _ _ he
  obtain ⟨s', hv⟩ := hv
  exact ⟨s', M.bind_exn hv⟩

theorem OS.align_is {s : OS} {g : Nat} (hg : Grain g) (hb : s.base % 8 = 0) :
    OS.align g s = OS.write (List.replicate (pad s.pos g) 0) s := by
  unfold OS.align; rw [padding_eq hg hb]

theorem out_length {n : Nat} (h : n < 2 ^ 31) :
    ∃ bs, Utf8.out n = some bs ∧ bs.length = Utf8.utf8Bytes n := by
  have h1 := Utf8.out_is_table n h
  exact ⟨_, h1, Utf8.out_size n h _ h1⟩

/-- The two ways a write may go: everything fits and is written, or the stream throws. -/
def Writes (m : M OS Unit) (d : Nat → List Byte) : Prop :=
  ∀ s : OS, s.base % 8 = 0 → s.buf.length < W → s.pos ≤ s.buf.length →
    (s.pos + (d s.pos).length ≤ s.buf.length → m s = .ret () (s.after (d s.pos))) ∧
    (s.buf.length < s.pos + (d s.pos).length → s.ios.exc &&& 4 ≠ 0 → ∃ s', m s = .exn s')

theorem Writes.raw (d : List Byte) : Writes (OS.write d) (fun _ => d) :=
  fun _ _ hl hp => ⟨fun h => OS.write_ok hl h, fun h he => OS.write_fail hl hp he h⟩

theorem Writes.align {g : Nat} (hg : Grain g) : Writes (OS.align g) (fun p => List.replicate (pad p g) 0) := by
  intro s hb hl hp
  rw [OS.align_is hg hb]
  exact Writes.raw _ s hb hl hp

theorem Writes.pure : Writes (Pure.pure ()) (fun _ => []) := by
  intro s _ _ _
  refine ⟨fun _ => by rw [OS.after_nil]; rfl, fun h => absurd h (by simp; omega)⟩

theorem Writes.seq {m : M OS Unit} {f : Unit → M OS Unit} {d e : Nat → List Byte} (hm : Writes m d)
    (hf : Writes (f ()) e) :
    Writes (m >>= f) (fun p => d p ++ e (p + (d p).length)) := by
  intro s hb hl hp
  obtain ⟨h1, h2⟩ := hm s hb hl hp
  simp only [List.length_append]
  by_cases hd : s.pos + (d s.pos).length ≤ s.buf.length
  · have g1 := h1 hd
    have hlen := OS.after_buf_length hd
    obtain ⟨k1, k2⟩ := hf (s.after (d s.pos)) hb (by rw [hlen]; exact hl) (by rw [hlen]; exact hd)
    rw [hlen] at k1 k2
    simp only [OS.after_pos] at k1 k2
    rw [M.bind_ret g1]
    constructor
    · intro h
      rw [k1 (by omega), OS.after_after (by omega)]
    · intro h he
      exact k2 (by omega) he
  · constructor
    · intro h; omega
    · intro _ he
      obtain ⟨s', hs⟩ := h2 (by omega) he
      exact ⟨s', M.bind_exn hs⟩

theorem Writes.all {α : Type} {w : α → M OS Unit} {e : α → Nat → List Byte} :
    ∀ (l : List α), (∀ x ∈ l, Writes (w x) (e x)) → Writes (writeAll w l) (encAll e l)
  | [], _ => Writes.pure
  | x :: xs, h => Writes.seq (f := fun _ => writeAll w xs) (h x (List.mem_cons_self ..))
      (Writes.all xs (fun y hy => h y (List.mem_cons_of_mem _ hy)))

theorem Writes.str {v : List Byte} (h : v.length < 2 ^ 31) : Writes (writeStr v) (fun _ => encStr v) := by
  have hm : u32 v.length = v.length := Nat.mod_eq_of_lt (by omega)
  intro s hbase hl hp
  unfold writeStr
  rw [hm, Utf8.out_is_table _ h]
  simp only [encStr, List.length_append, List.take_length]
  generalize Utf8.table v.length = bs
  constructor
  · intro hf
    have hv : OS.verify (bs.length + v.length) s = .ret true s := by
      unfold OS.verify; rw [OS.remaining_eq hp hl, if_pos (by omega)]
    rw [M.bind_ret hv, if_pos rfl, M.bind_ret (OS.write_ok hl (by omega)),
      OS.write_ok (by rw [OS.after_buf_length (by omega)]; exact hl)
        (by rw [OS.after_buf_length (by omega), OS.after_pos]; omega), OS.after_after (by omega)]
  · intro hf he
    have hv : ∃ s', OS.verify (bs.length + v.length) s = .exn s' := by
      unfold OS.verify; rw [OS.remaining_eq hp hl, if_neg (by omega)]; exact OS.over_exn _ _ he
    obtain ⟨s', hv⟩ := hv
    exact ⟨s', M.bind_exn hv⟩

theorem Writes.congr {m : M OS Unit} {d e : Nat → List Byte} (h : Writes m d) (hd : ∀ p, d p = e p) : Writes m e := by
  have : d = e := funext hd
  rw [← this]; exact h

theorem u32_eq {n : Nat} (h : n < 2 ^ 32) : u32 n = n := Nat.mod_eq_of_lt h

theorem Writes.blk {v : List Byte} (h : v.length < 2 ^ 32) : Writes (writeBlk v) (encBlk v) := by
  unfold writeBlk
  rw [u32_eq h, List.take_length]
  refine Writes.congr (Writes.seq (f := fun _ => _) (Writes.raw _) (Writes.seq (f := fun _ => _) (Writes.raw _)
    (Writes.align (g := 4) (by simp [Grain])))) (fun p => ?_)
  simp only [encBlk, leBytes_length]

theorem Writes.pair {α β : Type} {ga gb : Nat} {wa : α → M OS Unit} {wb : β → M OS Unit}
    {ea : α → Nat → List Byte} {eb : β → Nat → List Byte} {v : α × β} (ha : Grain ga) (hb : Grain gb)
    (h1 : Writes (wa v.1) (ea v.1)) (h2 : Writes (wb v.2) (eb v.2)) :
    Writes (writePair ga gb wa wb v) (encPair ga gb ea eb v) := by
  unfold writePair
  refine Writes.congr (Writes.seq (f := fun _ => _) h1 (Writes.seq (f := fun _ => _) (Writes.align hb)
    (Writes.seq (f := fun _ => _) h2 (Writes.align ha)))) (fun p => ?_)
  simp only [encPair, List.length_replicate]

theorem Writes.vec {α : Type} {g : Nat} {w : α → M OS Unit} {e : α → Nat → List Byte} {v : List α} (hg : Grain g)
    (hn : v.length < 2 ^ 32) (h : ∀ x ∈ v, Writes (w x) (e x)) : Writes (writeVec g w v) (encVec g e v) := by
  unfold writeVec
  rw [u32_eq hn]
  by_cases ha : g > 4
  · simp only [if_pos ha]
    refine Writes.congr (Writes.seq (f := fun _ => _) (Writes.raw _) (Writes.seq (f := fun _ => _)
      (Writes.align hg) (Writes.seq (f := fun _ => _) (Writes.all v h)
      (Writes.align (g := 4) (by simp [Grain]))))) (fun p => ?_)
    simp only [encVec, leBytes_length, List.length_replicate, if_pos ha]
  · simp only [if_neg ha]
    refine Writes.congr (Writes.seq (f := fun _ => _) (Writes.raw _) (Writes.seq (f := fun _ => _) (Writes.all v h)
      (Writes.align (g := 4) (by simp [Grain])))) (fun p => ?_)
    simp only [encVec, leBytes_length, if_neg ha, List.replicate_zero, List.nil_append, Nat.add_zero]

theorem okv_str {v : Val .str} (h : Okv .str v) : List.length (α := Byte) v < 2 ^ 31 := h
theorem okv_blk {v : Val .blk} (h : Okv .blk v) : List.length (α := Byte) v < 2 ^ 32 := h
theorem okv_vec {t : Ty} {v : Val (.vec t)} (h : Okv (.vec t) v) :
    List.length (α := Val t) v < 2 ^ 32 ∧ ∀ x, List.Mem (α := Val t) x v → Okv t x := h
theorem okv_arr {n : Nat} {t : Ty} {v : Val (.arr n t)} (h : Okv (.arr n t) v) :
    List.length (α := Val t) v = n ∧ ∀ x, List.Mem (α := Val t) x v → Okv t x := h
theorem okv_pair {a b : Ty} {v : Val (.pair a b)} (h : Okv (.pair a b) v) : Okv a v.1 ∧ Okv b v.2 := h

/-- `os << v` writes exactly the bytes of the format, or throws. -/
theorem write_writes : ∀ (t : Ty) (v : Val t), WfTy t → Okv t v → Writes (write t v) (enc t v)
  | .int _, _, _, _ => Writes.raw _
  | .bool, _, _, _ => Writes.raw _
  | .raw _ _, _, _, _ => Writes.raw _
  | .str, _, _, h => Writes.str (okv_str h)
  | .blk, _, _, h => Writes.blk (okv_blk h)
  | .pair a b, _, ht, hv => Writes.pair (al_grain ht.1) (al_grain ht.2)
      (write_writes a _ ht.1 (okv_pair hv).1) (write_writes b _ ht.2 (okv_pair hv).2)
  | .arr _ t, v, ht, hv => Writes.all (α := Val t) v (fun x hx => write_writes t x ht ((okv_arr hv).2 x hx))
  | .vec t, v, ht, hv => Writes.vec (α := Val t) (v := v) (al_grain ht) (okv_vec hv).1
      (fun x hx => write_writes t x ht ((okv_vec hv).2 x hx))

end Ustl.Stream
