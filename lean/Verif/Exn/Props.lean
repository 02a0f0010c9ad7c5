import Verif.Exn.Spec
import Verif.Stream.Bounded
/-! # Exceptions and backtraces in binary streams: theorems for C62 -/
namespace Ustl.Exn
open Ustl.Stream

/-! ## Writing -/

theorem Wr.seq {m : M OS Unit} {f : Unit → M OS Unit} {d e : Nat → List Byte} (hm : Writes m d) (hf : Writes (f ()) e) :
    Writes (m >>= f) (cat d e) := Writes.seq hm hf

theorem Wr.raw (d : List Byte) : Writes (OS.write d) (Exn.raw d) := Writes.raw d

theorem Wr.fill : Writes (OS.align 8) fill8 := Writes.align grain8

theorem writeMem_all (m : List Byte) (n : Nat) (h : m.length = n) : writeMem m n = OS.write m := by
  subst h; unfold writeMem; rw [if_pos (Nat.le_refl _), List.take_length]

theorem writeMem_some (m : List Byte) (n : Nat) (h : n ≤ m.length) : writeMem m n = OS.write (m.take n) := by
  unfold writeMem; rw [if_pos h]

theorem Wr.bt {b : Bt} (h : b.Ok) : Writes b.write (encBt b) := by
  unfold Bt.write
  rw [writeMem_all _ _ h.table, writeMem_some _ _ (by rw [h.slots]; have := h.frames; omega)]
  exact Wr.seq (Wr.raw _) (Wr.seq (Wr.raw _) (Wr.seq (Wr.raw _) (Wr.seq Wr.fill (Wr.raw _))))

theorem u32_total {t : Nat} (h1 : 8 ≤ t) (h2 : t < 2 ^ 32) : u32 (t + W - 8) = t - 8 := by
  have e : t + W - 8 = (t - 8) + 2 ^ 32 * 2 ^ 32 := by show t + 2 ^ 64 - 8 = _; omega
  unfold u32
  rw [e, Nat.add_mul_mod_self_left]
  exact Nat.mod_eq_of_lt (by omega)

theorem Wr.base {total : Nat} {b : Base} (h : b.bt.Ok) (h1 : 8 ≤ total) (h2 : total < 2 ^ 32) :
    Writes (writeBase total b) (encBase total b) := by
  unfold writeBase
  rw [u32_total h1 h2]
  exact Wr.seq (Wr.raw _) (Wr.seq (Wr.raw _) (Wr.bt h))

theorem Wr.strA {v : List Byte} (h : v.length < 2 ^ 31) : Writes (writeStrA v) (encStrA v) :=
  Wr.seq (Writes.str h) Wr.fill

theorem Wr.sys {total : Nat} {b : Base} {a o : List Byte} {e : Nat} (h : b.bt.Ok) (h1 : 8 ≤ total) (h2 : total < 2 ^ 32)
    (ha : a.length < 2 ^ 31) (ho : o.length < 2 ^ 31) : Writes (writeSys total b a o e) (encSys total b a o e) :=
  Wr.seq (Wr.seq (Wr.base h h1 h2) (Wr.strA ha)) (Wr.seq (Wr.strA ho) (Wr.seq (Wr.raw _) Wr.fill))

theorem cstr_length_le (m : List Byte) : (cstr m).length ≤ m.length := by
  unfold cstr; exact (List.takeWhile_sublist _).length_le

theorem setName_length (n : Nat) (s : List Byte) : (setName n s).length = n := by
  unfold setName; simp

theorem fileName_length (f : Option (List Byte)) : (fileName f).length = 4096 := by
  unfold fileName
  cases f with
  | none => exact List.length_replicate
  | some s => exact setName_length _ _

theorem Ex.ss_ge (x : Ex) : 8 ≤ x.ss := by
  cases x <;> simp only [Ex.ss, ssSys, ssMsg, ssBase] <;> omega

theorem Wr.ex {x : Ex} (h : x.Ok) : Writes x.write (encEx x.ss x) := by
  have h8 := Ex.ss_ge x
  obtain ⟨hf, hb, hx, hs⟩ := h
  cases x with
  | base b => exact Wr.base hb h8 hs
  | badAlloc b n => exact Wr.seq (Wr.base hb h8 hs) (Wr.raw _)
  | msg b a => exact Wr.seq (Wr.base hb h8 hs) (Wr.strA hx)
  | sys b a o e => exact Wr.sys hb h8 hs hx.1 hx.2.1
  | file b a o e f =>
    obtain ⟨ha, ho, _, n, rfl⟩ := hx
    refine Wr.seq (Wr.sys hb h8 hs ha ho) (Wr.strA ?_)
    have := cstr_length_le (fileName n)
    rw [fileName_length] at this
    omega
  | bounds b a o e t p n r =>
    exact Wr.seq (Wr.sys hb h8 hs hx.1 hx.2.1) (Wr.seq (Wr.raw _) (Wr.seq (Wr.raw _) (Wr.seq (Wr.raw _) (Wr.raw _))))

/-! ## Reading -/

/-- Reading the piece `d`, wherever it begins and whatever is behind it, gives `v`. -/
def Rd {α : Type} (m : M IS α) (d : Nat → List Byte) (v : α) : Prop := ∀ p r, Reads m p (d p) r v

theorem Rd.seq {α β : Type} {m : M IS α} {f : α → M IS β} {d e : Nat → List Byte} {v : α} {w : β}
    (hm : Rd m d v) (hf : Rd (f v) e w) : Rd (m >>= f) (cat d e) w :=
  fun p r => Reads.seq (hm p _) (hf _ r)

theorem Rd.map {α β : Type} {m : M IS α} {g : α → β} {d : Nat → List Byte} {v : α} (hm : Rd m d v) :
    Rd (m >>= fun a => Pure.pure (g a)) d (g v) := fun p r => Reads.map (hm p r)

theorem Rd.int {n v old : Nat} (h : v < 256 ^ n) : Rd (IS.readInt n old) (Exn.raw (leBytes n v)) v :=
  fun _ _ => Reads.int h

theorem Rd.fill : Rd (IS.align 8) fill8 () := fun _ _ => Reads.align grain8

theorem Rd.strA {junk old v : List Byte} (h : v.length < 2 ^ 31) : Rd (readStrA junk old) (encStrA v) v :=
  Rd.seq (e := fill8) (fun _ _ => Reads.str h) (Rd.map (g := fun _ => v) Rd.fill)

theorem Rd.syms {junk v : List Byte} {z : Nat} (h : v.length = z) (hz : z < 2 ^ 32 - 1) :
    Rd (btSyms junk z) (Exn.raw v) v := by
  intro p r
  unfold btSyms
  have e : z < u32 (z + 1) := by unfold u32; rw [Nat.mod_eq_of_lt (by omega)]; omega
  simp only [if_pos e]
  exact Reads.map (g := fun d => d) (Reads.read h)

theorem Rd.addrs {old v : List Byte} {n : Nat} (h : v.length = n) (hn : n ≤ old.length) :
    Rd (btAddrs old n) (Exn.raw v) (v ++ old.drop n) := by
  intro p r
  unfold btAddrs
  refine Reads.guarded (by show n ≤ v.length + r; omega) ?_
  simp only [if_pos hn]
  exact Reads.map (g := fun d => d ++ old.drop n) (Reads.take h)

/-- The backtrace read back into an object holding `old`. -/
def Bt.back (b old : Bt) : Bt :=
  ⟨b.addrs.take (b.nFrames * 8) ++ old.addrs.drop (b.nFrames * 8), some (b.syms.getD []), b.nFrames, b.symsSize⟩

theorem Bt.read_eq (junk : List Byte) (old : Bt) : Bt.read junk old =
    (IS.readInt 4 old.nFrames >>= fun n => IS.readInt 4 old.symsSize >>= fun z => btRest junk old n z) := by
  unfold Bt.read; rfl

theorem btRest_eq (junk : List Byte) (old : Bt) (n z : Nat) : btRest junk old n z =
    (btSyms junk z >>= fun y => IS.align 8 >>= fun _ => btAddrs old.addrs (n * 8) >>= fun a =>
      Pure.pure (⟨a, some y, n, z⟩ : Bt)) := by
  unfold btRest; rfl

theorem Rd.rest {junk : List Byte} {b old : Bt} (h : b.Ok) (ho : old.addrs.length = 512) :
    Rd (btRest junk old b.nFrames b.symsSize) (cat (Exn.raw (b.syms.getD [])) (cat fill8
      (Exn.raw (b.addrs.take (b.nFrames * 8))))) (b.back old) := by
  have hf := h.frames
  have hl : (b.addrs.take (b.nFrames * 8)).length = b.nFrames * 8 := by
    rw [List.length_take, h.slots]; omega
  rw [btRest_eq]
  refine Rd.seq (Rd.syms h.table h.small) (Rd.seq Rd.fill ?_)
  exact Rd.map (g := fun a => (⟨a, some (b.syms.getD []), b.nFrames, b.symsSize⟩ : Bt)) (Rd.addrs hl (by omega))

theorem Rd.ints {α β γ : Type} {m : M IS α} {n : M IS β} {f : α → β → M IS γ} {d e c : Nat → List Byte} {v : α} {w : β}
    {z : γ} (h : Rd m d v) (g : Rd n e w) (i : Rd (f v w) c z) :
    Rd (m >>= fun x => n >>= fun y => f x y) (cat d (cat e c)) z :=
  Rd.seq h (Rd.seq g i)

theorem Rd.bt {junk : List Byte} {b old : Bt} (h : b.Ok) (ho : old.addrs.length = 512) :
    Rd (Bt.read junk old) (encBt b) (b.back old) := by
  have h1 : b.nFrames < 256 ^ 4 := by have := h.frames; omega
  have h2 : b.symsSize < 256 ^ 4 := by have := h.small; omega
  rw [Bt.read_eq]
  exact Rd.ints (Rd.int h1) (Rd.int h2) (Rd.rest h ho)

theorem Rd.two {α β γ : Type} {m : M IS α} {n : M IS β} {d e : Nat → List Byte} {v : α} {w : β} (f : α → β → γ)
    (h : Rd m d v) (g : Rd n e w) : Rd (m >>= fun x => n >>= fun y => Pure.pure (f x y)) (cat d e) (f v w) :=
  Rd.seq h (Rd.map (g := fun y => f v y) g)

theorem Rd.three {α β γ δ : Type} {m : M IS α} {n : M IS β} {k : M IS γ} {d e c : Nat → List Byte} {v : α} {w : β}
    {z : γ} (f : α → β → γ → δ) (h : Rd m d v) (g : Rd n e w) (i : Rd k c z) :
    Rd (m >>= fun x => n >>= fun y => k >>= fun z => Pure.pure (f x y z)) (cat d (cat e c)) (f v w z) :=
  Rd.seq h (Rd.two (fun y z => f v y z) g i)

theorem Rd.four {α β γ δ ε : Type} {m : M IS α} {n : M IS β} {k : M IS γ} {l : M IS δ} {d e c b : Nat → List Byte}
    {v : α} {w : β} {z : γ} {u : δ} (f : α → β → γ → δ → ε) (h : Rd m d v) (g : Rd n e w) (i : Rd k c z)
    (j : Rd l b u) :
    Rd (m >>= fun x => n >>= fun y => k >>= fun z => l >>= fun u => Pure.pure (f x y z u)) (cat d (cat e (cat c b)))
      (f v w z u) :=
  Rd.seq h (Rd.three (fun y z u => f v y z u) g i j)

theorem readBase_eq (junk : List Byte) (old : Base) : readBase junk old =
    (IS.readInt 4 0 >>= fun f => IS.readInt 4 0 >>= fun _ => Bt.read junk old.bt >>= fun b =>
      Pure.pure (⟨f, b⟩ : Base)) := by unfold readBase; rfl

theorem readMsg_eq (junk : List Byte) (b : Base) (arg : List Byte) : readMsg junk b arg =
    (readBase junk b >>= fun b' => readStrA junk arg >>= fun a => Pure.pure (b', a)) := by unfold readMsg; rfl

theorem readSys_eq (junk : List Byte) (b : Base) (arg op : List Byte) (e : Nat) : readSys junk b arg op e =
    (readMsg junk b arg >>= fun x => readStrA junk op >>= fun o => IS.readInt 4 e >>= fun e => IS.align 8 >>= fun _ =>
      Pure.pure (x, o, e)) := by unfold readSys; rfl

theorem readBounds_eq (t o e r : Nat) : readBounds t o e r =
    (IS.readInt 8 t >>= fun t => IS.readInt 8 o >>= fun o => IS.readInt 8 e >>= fun e => IS.readInt 8 r >>= fun r =>
      Pure.pure (t, o, e, r)) := by unfold readBounds; rfl

theorem Rd.baseOf {m n : M IS Nat} {k : M IS Bt} {d e c : Nat → List Byte} {v w : Nat} {z : Bt} (h : Rd m d v)
    (g : Rd n e w) (i : Rd k c z) :
    Rd (m >>= fun f => n >>= fun _ => k >>= fun b => Pure.pure (⟨f, b⟩ : Base)) (cat d (cat e c)) ⟨v, z⟩ :=
  Rd.three (fun f _ b => (⟨f, b⟩ : Base)) h g i

theorem Rd.sysOf {α β : Type} {m : M IS α} {n : M IS β} {k : M IS Nat} {l : M IS Unit} {d e c b : Nat → List Byte}
    {v : α} {w : β} {z : Nat} (h : Rd m d v) (g : Rd n e w) (i : Rd k c z) (j : Rd l b ()) :
    Rd (m >>= fun x => n >>= fun o => k >>= fun e => l >>= fun _ => Pure.pure (x, o, e)) (cat d (cat e (cat c b)))
      (v, w, z) :=
  Rd.four (fun x o e _ => (x, o, e)) h g i j

theorem Rd.boundsOf {m n k l : M IS Nat} {d e c b : Nat → List Byte} {v w z u : Nat} (h : Rd m d v) (g : Rd n e w)
    (i : Rd k c z) (j : Rd l b u) :
    Rd (m >>= fun t => n >>= fun o => k >>= fun e => l >>= fun r => Pure.pure (t, o, e, r)) (cat d (cat e (cat c b)))
      (v, w, z, u) :=
  Rd.four (fun t o e r => (t, o, e, r)) h g i j

theorem Rd.base {junk : List Byte} {total : Nat} {b old : Base} (h : b.bt.Ok) (hf : b.fmt < 2 ^ 32)
    (ht : total < 2 ^ 32) (ho : old.bt.addrs.length = 512) :
    Rd (readBase junk old) (encBase total b) ⟨b.fmt, b.bt.back old.bt⟩ := by
  rw [readBase_eq]
  have h1 : b.fmt < 256 ^ 4 := by omega
  have h2 : total - 8 < 256 ^ 4 := by omega
  exact Rd.baseOf (Rd.int h1) (Rd.int h2) (Rd.bt h ho)

theorem Rd.msg {junk : List Byte} {total : Nat} {b old : Base} {a oa : List Byte} (h : b.bt.Ok) (hf : b.fmt < 2 ^ 32)
    (ht : total < 2 ^ 32) (ho : old.bt.addrs.length = 512) (ha : a.length < 2 ^ 31) :
    Rd (readMsg junk old oa) (cat (encBase total b) (encStrA a)) (⟨b.fmt, b.bt.back old.bt⟩, a) := by
  rw [readMsg_eq]
  exact Rd.two Prod.mk (Rd.base h hf ht ho) (Rd.strA ha)

theorem Rd.sys {junk : List Byte} {total : Nat} {b old : Base} {a oa o oo : List Byte} {e oe : Nat} (h : b.bt.Ok)
    (hf : b.fmt < 2 ^ 32) (ht : total < 2 ^ 32) (hold : old.bt.addrs.length = 512) (ha : a.length < 2 ^ 31)
    (ho : o.length < 2 ^ 31) (he : e < 2 ^ 32) :
    Rd (readSys junk old oa oo oe) (encSys total b a o e) ((⟨b.fmt, b.bt.back old.bt⟩, a), o, e) := by
  rw [readSys_eq]
  have h1 : e < 256 ^ 4 := by omega
  exact Rd.sysOf (Rd.msg h hf ht hold ha) (Rd.strA ho) (Rd.int h1) Rd.fill

theorem Rd.bounds {t o n r t' o' n' r' : Nat} (h1 : t < 256 ^ 8) (h2 : o < 256 ^ 8) (h3 : n < 256 ^ 8) (h4 : r < 256 ^ 8) :
    Rd (readBounds t' o' n' r') (cat (Exn.raw (leBytes 8 t)) (cat (Exn.raw (leBytes 8 o)) (cat (Exn.raw (leBytes 8 n))
      (Exn.raw (leBytes 8 r))))) (t, o, n, r) := by
  rw [readBounds_eq]
  exact Rd.boundsOf (Rd.int h1) (Rd.int h2) (Rd.int h3) (Rd.int h4)

/-- A C string has no NUL in it. -/
theorem cstr_no_nul (m : List Byte) : ∀ c ∈ cstr m, c ≠ 0 := by
  unfold cstr
  induction m with
  | nil => intro c hc; cases hc
  | cons x m ih =>
    intro c hc
    by_cases hx : x = 0
    · rw [List.takeWhile_cons_of_neg (by simpa using hx)] at hc; cases hc
    · rw [List.takeWhile_cons_of_pos (by simpa using hx)] at hc
      rcases List.mem_cons.1 hc with rfl | h
      · exact hx
      · exact ih c h

theorem cstr_of_no_nul : ∀ {t : List Byte} {r : List Byte}, (∀ c ∈ t, c ≠ 0) → cstr (t ++ 0 :: r) = t
  | [], r, _ => by simp [cstr]
  | c :: t, r, h => by
    have hc := h c (List.mem_cons_self ..)
    have := cstr_of_no_nul (t := t) (r := r) (fun x hx => h x (List.mem_cons_of_mem _ hx))
    unfold cstr at this ⊢
    rw [List.cons_append, List.takeWhile_cons_of_pos (by simpa using hc), this]

theorem cstr_idem : ∀ {t : List Byte}, (∀ c ∈ t, c ≠ 0) → cstr t = t
  | [], _ => rfl
  | c :: t, h => by
    have hc := h c (List.mem_cons_self ..)
    have := cstr_idem (t := t) (fun x hx => h x (List.mem_cons_of_mem _ hx))
    unfold cstr at this ⊢
    rw [List.takeWhile_cons_of_pos (by simpa using hc), this]

/-- The array holds the C string, cut so that its NUL fits, and zeros. -/
theorem setName_eq (n : Nat) (s : List Byte) (hn : 0 < n) :
    setName n s = (cstr s).take (n - 1) ++ List.replicate (n - min (n - 1) (cstr s).length) 0 := by
  unfold setName
  generalize cstr s = t
  apply List.ext_getElem
  · simp; omega
  · intro i h1 h2
    simp at h1
    rw [List.getElem_set, List.getElem_take]
    by_cases hi : n - 1 = i
    · rw [if_pos hi, List.getElem_append_right (by simp; omega), List.getElem_replicate]
    · rw [if_neg hi]
      by_cases ht : i < t.length
      · rw [List.getElem_append_left ht, List.getElem_append_left (by simp; omega), List.getElem_take]
      · rw [List.getElem_append_right (by omega), List.getElem_append_right (by simp; omega), List.getElem_replicate,
          List.getElem_replicate]

theorem cstr_setName (n : Nat) (s : List Byte) (hn : 0 < n) : cstr (setName n s) = (cstr s).take (n - 1) := by
  rw [setName_eq n s hn]
  obtain ⟨k, hk⟩ : ∃ k, n - min (n - 1) (cstr s).length = k + 1 := ⟨n - min (n - 1) (cstr s).length - 1, by omega⟩
  rw [hk, List.replicate_succ]
  exact cstr_of_no_nul (fun c hc => cstr_no_nul s c (List.mem_of_mem_take hc))

/-- `strncpy` of a C string taken out of a buffer filled by `strncpy` gives that buffer. -/
theorem setName_cstr (n : Nat) (s : List Byte) (hn : 0 < n) : setName n (cstr (setName n s)) = setName n s := by
  have h1 := cstr_setName n s hn
  rw [h1, setName_eq n _ hn, setName_eq n s hn, cstr_idem (fun c hc => cstr_no_nul s c (List.mem_of_mem_take hc))]
  simp only [List.take_take, List.length_take]
  congr 2
  · omega
  · omega

theorem fileName_back (f : Option (List Byte)) : setName pathMax (cstr (fileName f)) = fileName f := by
  cases f with
  | some s => exact setName_cstr _ s (by decide)
  | none =>
    show setName pathMax (cstr (List.replicate pathMax 0)) = List.replicate pathMax 0
    have h : ∀ n, 0 < n → cstr (List.replicate n 0) = [] := by
      intro n hn
      obtain ⟨k, rfl⟩ : ∃ k, n = k + 1 := ⟨n - 1, by omega⟩
      rw [List.replicate_succ]
      simp [cstr]
    rw [h pathMax (by decide), setName_eq _ _ (by decide)]
    have h2 : cstr [] = [] := rfl
    rw [h2]
    simp

end Ustl.Exn
