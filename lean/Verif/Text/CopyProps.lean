import Verif.Text.Copy
/-!
# C102: text streams are values
-/
namespace Ustl.Text.Copy
open Ustl.Memblock Ustl.Str

variable {lit : Nat × Nat}

/-- A stream holds the text, and its buffer holds nothing more. -/
structure Tight (b : Base) (t : List Byte) : Prop where
  pos : b.pos = t.length
  size : b.size = t.length
  len : t.length < 2 ^ 31

/-- A stream writes in its own buffer and has written the text; there may be room left. With `nul`: the buffer ends, with a NUL, where the stream does. -/
def Loose (nul : Bool) (h : Heap Byte) (o : Obj) (b : Base) (t : List Byte) : Prop :=
  ∃ id bs, Own h o id bs ∧ b.data = o.ptr ∧ b.pos = t.length ∧ b.pos ≤ b.size ∧ b.size + 1 ≤ o.cap ∧ bs.take t.length = t ∧ t.length < 2 ^ 31 ∧
    (nul = true → o.size = b.size ∧ bs[b.size]? = some 0)

/-- There is room for at most one byte more, and a copy takes all that was written. -/
structure Roomy (o : Obj) (b : Base) (t : List Byte) : Prop where
  one : b.size ≤ t.length + 1
  size : b.size ≤ o.size + 1
  cap : o.size + 1 ≤ o.cap

/-- A stream has its text in its own buffer, but may be linked to another. -/
def Cut (h : Heap Byte) (o : Obj) (b : Base) (t : List Byte) : Prop :=
  ∃ id bs, Own h o id bs ∧ b.pos = t.length ∧ bs.take t.length = t ∧ t.length < 2 ^ 31 ∧ t.length ≤ o.size + 1 ∧ o.size + 1 ≤ o.cap

/-- The stream has the value. -/
def Rep (h : Heap Byte) (o : Obj) (b : Base) : Val → Prop
  | .none => o = Obj.empty
  | .moved => True
  | .text t => SRep h o t ∧ Tight b t
  | .num t => Loose false h o b t ∧ Roomy o b t
  | .seen t => Cut h o b t

/-- The streams have the values `v`. -/
structure Holds (lit : Nat × Nat) (s : St) (v : Nat → Val) : Prop where
  hok : HOK s.str.heap
  owns : Owns s.str
  noleak : NoLeak s.str
  lit : HasLit lit s.str.heap
  rep : ∀ i, Rep s.str.heap (s.str.obj i) (s.os i) (v i)

theorem setOs_self (f : Nat → Base) (i : Nat) (b : Base) : setOs f i b i = b := by simp [setOs]

theorem setOs_other (f : Nat → Base) {i k : Nat} (b : Base) (h : k ≠ i) : setOs f i b k = f k := by simp [setOs, h]

theorem upd_same (v : Nat → Val) (i : Nat) : upd v i (v i) = v := by
  funext k; unfold upd; split <;> simp_all

theorem upd_upd (v : Nat → Val) (i : Nat) (x y : Val) : upd (upd v i x) i y = upd v i y := by
  funext k; unfold upd; split <;> rfl

theorem upd_at (v : Nat → Val) (i : Nat) (x : Val) : upd v i x i = x := by simp [upd]

/-- The blocks of the others survive an operation on object `i`. -/
theorem keep_blk {w : World Byte} (hh : HOK w.heap) (ho : Owns w) {i k : Nat} {h' : Heap Byte} {o' : Obj} (e : Eff w.heap (w.obj i) h' o') (hki : k ≠ i)
    (q : Nat × Nat) (b : Blk Byte) (hq : (w.obj k).ptr = some q) (hb : w.heap.blk q.1 = some b) : h'.blk q.1 = some b := by
  have r := ho.ook k
  obtain ⟨_, _, _, _, g5⟩ := lift hh ho e.toEff0
  by_cases hc : (w.obj k).cap = 0
  · rcases r.linked hc with ⟨h1, _⟩ | ⟨p, h1, b', h2, h3, _⟩
    · rw [h1] at hq; cases hq
    · rw [h1] at hq; cases hq
      rw [h2] at hb; cases hb
      exact g5 _ _ h2 h3
  · obtain ⟨id, b', h1, h2, h3, _⟩ := r.owned hc
    rw [h1] at hq; cases hq
    rw [e.keep id (hh.lt h2), hb]
    by_cases hci : (w.obj i).cap = 0
    · exact Or.inl hci
    · right; rw [← h1]; exact ho.unique i k (Ne.symm hki) hci hc

theorem rep_keep {h h' : Heap Byte} {o : Obj} {b : Base} {x : Val} (r : Rep h o b x) (ho : OOK h' o)
    (hk : ∀ q b, o.ptr = some q → h.blk q.1 = some b → h'.blk q.1 = some b) : Rep h' o b x := by
  cases x with
  | none => exact r
  | moved => trivial
  | text t => exact ⟨⟨ho, r.1.size, ld_congr r.1.read hk⟩, r.2⟩
  | num t =>
    obtain ⟨⟨id, bs, own, r2⟩, r3⟩ := r
    exact ⟨⟨id, bs, ⟨own.cap, own.ptr, hk _ _ own.ptr own.blk, own.len, own.size⟩, r2⟩, r3⟩
  | seen t =>
    obtain ⟨id, bs, own, r2⟩ := r
    exact ⟨id, bs, ⟨own.cap, own.ptr, hk _ _ own.ptr own.blk, own.len, own.size⟩, r2⟩

/-- One stream gets a new buffer, base and value. -/
theorem holds_upd {s : St} {v : Nat → Val} (hs : Holds lit s v) {i : Nat} {h' : Heap Byte} {o' : Obj} {f : Nat → Base} {x : Val}
    (e : Eff s.str.heap (s.str.obj i) h' o') (hf : ∀ k, k ≠ i → f k = s.os k) (hx : Rep h' o' (f i) x) :
    Holds lit ⟨⟨h', fun k => if k = i then o' else s.str.obj k⟩, f⟩ (upd v i x) := by
  obtain ⟨g1, g2, _, _, g5⟩ := lift hs.hok hs.owns e.toEff0
  refine ⟨g1, g2, noLeak_put (ok := true) hs.noleak e rfl, hs.lit.keep g5, ?_⟩
  intro k
  by_cases hki : k = i
  · subst hki
    simp only [upd, if_pos]
    exact hx
  · simp only [upd, if_neg hki]
    rw [hf k hki]
    have hook : OOK h' (s.str.obj k) := by
      have := g2.ook k
      simpa only [if_neg hki] using this
    exact rep_keep (hs.rep k) hook (keep_blk hs.hok hs.owns e hki)

theorem obj_same (w : World Byte) (i : Nat) (h : Heap Byte) : (⟨h, fun k => if k = i then w.obj i else w.obj k⟩ : World Byte) = { w with heap := h } := by
  congr 1
  funext k; split <;> simp_all

/-- The value of one stream is seen differently. -/
theorem holds_set {s : St} {v : Nat → Val} (hs : Holds lit s v) {i : Nat} {x : Val} (hx : Rep s.str.heap (s.str.obj i) (s.os i) x) :
    Holds lit s (upd v i x) := by
  refine ⟨hs.hok, hs.owns, hs.noleak, hs.lit, fun k => ?_⟩
  by_cases hki : k = i
  · subst hki; rw [upd_at]; exact hx
  · rw [upd, if_neg hki]; exact hs.rep k

/-- What every call guarantees. -/
def StepOk (lit : Nat × Nat) (r : Option (Bool × St)) (v1 v2 : Nat → Val) : Prop :=
  ∃ ok s', r = some (ok, s') ∧ Holds lit s' (if ok = true then v1 else v2)

/-- An operation on the buffer. -/
theorem put_ok {s : St} {v : Nat → Val} (hs : Holds lit s v) {i : Nat} {r : Res} {f : Obj → Base} {x : Val} {a : Option (Nat → Byte)}
    {Q : Heap Byte → Obj → Prop} (d : Done s.str.heap (s.str.obj i) a r Q) (hq : ∀ h' o', Q h' o' → Rep h' o' (f o') x) :
    StepOk lit (s.put i r f) (upd v i x) v := by
  rcases d with ⟨_, d⟩ | ⟨h', o', d1, d2, d3⟩
  · rw [d]
    refine ⟨false, _, rfl, ?_⟩
    rw [obj_same]
    exact hs
  · rw [d1]
    refine ⟨true, _, rfl, holds_upd hs d2 (fun k hk => setOs_other _ _ hk) ?_⟩
    rw [setOs_self]
    exact hq h' o' d3

/-! ### Growing -/

theorem prefix_len {bs t : List Byte} (h : bs.take t.length = t) : t.length ≤ bs.length := by
  have := congrArg List.length h
  simp only [List.length_take] at this
  omega

theorem take_patch {bs xs t : List Byte} {k : Nat} (h : bs.take t.length = t) (hk : t.length ≤ k) (hx : k + xs.length ≤ bs.length) :
    (patch bs k xs).take t.length = t := by
  unfold patch
  rw [List.append_assoc, List.take_append_of_le_length (by simp; omega), List.take_take, Nat.min_eq_left hk, h]

theorem get_patch {bs xs : List Byte} {k n : Nat} (hk : k + xs.length ≤ n) (hn : n ≤ bs.length) : (patch bs k xs)[n]? = bs[n]? := by
  unfold patch
  rw [List.getElem?_append_right (by simp; omega), List.getElem?_drop]
  congr 1
  simp; omega

/-- `resize (n)` of a string that has the room. -/
theorem resize_in {h : Heap Byte} {o : Obj} {id : Nat} {bs : List Byte} {n : Nat} (a : Option (Nat → Byte)) (hh : HOK h) (own : Own h o id bs)
    (hn : n + 1 ≤ o.cap) : ∃ h2, Str.resize lit h o n a = some (true, h2, { o with size := n }) ∧ Eff h o h2 { o with size := n } ∧
      Own h2 { o with size := n } id (patch bs n [0]) := by
  have hc := own.cap
  have own1 : Own h { o with size := n } id bs := ⟨own.cap, own.ptr, own.blk, own.len, by simp; omega⟩
  obtain ⟨h2, k1, k2, k3⟩ := st_own (xs := [0]) (k := n) hh own1 (by have := own.len; simp; omega)
  have ook : OOK h { o with size := n } := ⟨fun _ => ⟨id, _, own1.ptr, own1.blk, rfl, own1.len, own1.size⟩, fun hc => absurd hc own1.cap⟩
  refine ⟨h2, ?_, (Eff.size hh ook).trans k2, k3⟩
  unfold Str.resize Memblock.resize
  rw [if_neg (by omega), if_neg (by omega)]
  simp only [thenStore]
  rw [k1]

/-- The buffer as `reserve` finds it. -/
def Before (h : Heap Byte) (o : Obj) (t : List Byte) : Prop := SRep h o t ∨ ∃ id bs, Own h o id bs ∧ bs.take t.length = t

theorem reserve_any {h : Heap Byte} {o : Obj} {t : List Byte} (n : Nat) (a : Option (Nat → Byte)) (hh : HOK h) (r : Before h o t) (ht : t.length ≤ n)
    (hlim : n + 1 ≤ 2 ^ 31) : Memblock.reserve 1 h o n false a = some (false, h, o) ∨
      ∃ h1 o1 id bs, Memblock.reserve 1 h o n false a = some (true, h1, o1) ∧ Eff h o h1 o1 ∧ Own h1 o1 id bs ∧ n + 1 ≤ o1.cap ∧ bs.take t.length = t := by
  have hook : OOK h o := by
    rcases r with r | ⟨id, bs, own, _⟩
    · exact r.ook
    · exact ⟨fun _ => ⟨id, _, own.ptr, own.blk, rfl, own.len, own.size⟩, fun hc => absurd hc own.cap⟩
  rcases Nat.lt_or_ge o.cap (n + 1) with hcap | hcap
  · by_cases hc : o.cap = 0
    · -- a link
      have r : SRep h o t := by
        rcases r with r | ⟨id, bs, own, _⟩
        · exact r
        · exact absurd hc own.cap
      have hg := reserve_grow 1 n false a hh r.ook hcap (fun _ => hlim)
      rcases reserve_s n a hh r hlim (fun _ => ht) with ⟨_, d⟩ | ⟨h1, o1, d1, d2, d3⟩
      · exact Or.inl d
      · right
        have hcap1 : n + 1 ≤ o1.cap := by
          rcases hg with ⟨_, g⟩ | ⟨h', bs, n', g1, _, g2, _⟩
          · rw [d1] at g; cases g
          · rw [d1] at g2; cases g2; exact g1
        obtain ⟨id, bs, own, p1, p2⟩ := d3.own (by omega)
        refine ⟨h1, o1, id, bs, d1, d2, own, hcap1, ?_⟩
        have := congrArg (List.take t.length) p1
        rw [List.take_take, Nat.min_eq_left (by omega), List.take_append_of_le_length (by omega), List.take_length] at this
        exact this
    · have hown : ∃ id bs, Own h o id bs ∧ bs.take t.length = t := by
        rcases r with r | r
        · obtain ⟨id, bs, own, p1, p2⟩ := r.own hc
          refine ⟨id, bs, own, ?_⟩
          have := congrArg (List.take t.length) p1
          rw [List.take_take, Nat.min_eq_left (by omega), List.take_append_of_le_length (by omega), List.take_length] at this
          exact this
        · exact r
      obtain ⟨id, bs0, own0, hp⟩ := hown
      rcases reserve_grow 1 n false a hh hook hcap (fun _ => hlim) with ⟨_, g⟩ | ⟨h', bs, n', h1, h0, h2, h3, h4, h5, h6, h7, h8, h9⟩
      · exact Or.inl g
      · right
        have hsz := own0.size
        refine ⟨h', _, h.next, bs, h2, eff_fresh hh h3 h4 h5 (by omega) (by omega) h7 h8 h9, ⟨by simp; omega, rfl, h4, h5, by simp; omega⟩, h1, ?_⟩
        obtain ⟨junk, m, k1, k2⟩ := reserve_own own0 hcap h2
        simp only at k2
        subst k1 k2
        have h4' := malloc_get (h.setBlk id none) n' bs0 junk
        rw [show (h.setBlk id none).next = h.next from rfl, h4] at h4'
        injection h4' with h4'
        injection h4' with _ h4'
        have := prefix_len hp
        rw [h4', List.take_append_of_le_length (by rw [List.length_take]; omega), List.take_take, Nat.min_eq_left (by omega), hp]
  · right
    have hown : ∃ id bs, Own h o id bs ∧ bs.take t.length = t := by
      rcases r with r | r
      · obtain ⟨id, bs, own, p1, p2⟩ := r.own (by omega)
        refine ⟨id, bs, own, ?_⟩
        have := congrArg (List.take t.length) p1
        rw [List.take_take, Nat.min_eq_left (by omega), List.take_append_of_le_length (by omega), List.take_length] at this
        exact this
      · exact r
    obtain ⟨id, bs, own, hp⟩ := hown
    exact ⟨h, o, id, bs, reserve_noop 1 n _ _ hcap, Eff.refl hh hook, own, hcap, hp⟩

/-- The buffer of a stream is grown. -/
theorem grow_any {h : Heap Byte} {o : Obj} {t : List Byte} (n : Nat) (a : Ans) (hh : HOK h) (r : Before h o t) (ht : t.length ≤ n) (hlim : n + 1 ≤ 2 ^ 31) :
    grow lit h o n a = some (false, h, o) ∨ ∃ h1 o1, grow lit h o n a = some (true, h1, o1) ∧ Eff h o h1 o1 ∧ o1.size = n ∧
      Loose true h1 o1 ⟨o1.ptr, n, t.length⟩ t := by
  unfold grow
  rcases reserve_any n (a 0) hh r ht hlim with d | ⟨h1, o1, id, bs, d1, d2, d3, d4, d5⟩
  · rw [d]; exact Or.inl rfl
  · right
    rw [d1]
    obtain ⟨h2, e1, e2, e3⟩ := resize_in (lit := lit) (a 1) d2.hok d3 d4
    have hl := d3.len
    refine ⟨h2, _, e1, d2.trans e2, rfl, id, _, e3, rfl, rfl, ht, d4, take_patch d5 ht (by simp; omega), by omega, fun _ => ⟨rfl, ?_⟩⟩
    show (bs.take n ++ [0] ++ _)[n]? = _
    rw [List.getElem?_append_left (by simp; omega), List.getElem?_append_right (by rw [List.length_take]; omega)]
    rw [List.length_take, Nat.min_eq_left (by omega), Nat.sub_self]
    rfl

/-- Bytes stored behind the text of a stream that has the room. -/
theorem poke {nul : Bool} {h : Heap Byte} {o : Obj} {b : Base} {t y : List Byte} (hh : HOK h) (r : Loose nul h o b t) (hy : y.length ≤ b.remaining)
    (hl : t.length + y.length < 2 ^ 31) : ∃ h', st h (adv b.data b.pos) y = some h' ∧ Eff h o h' o ∧
      ∀ k, k ≤ y.length → Loose nul h' o { b with pos := t.length + k } (t ++ y.take k) := by
  obtain ⟨id, bs, own, r1, r2, r3, r4, r5, r6, r7⟩ := r
  have hlen := own.len
  have hle : b.pos + y.length ≤ b.size := by unfold Base.remaining at hy; omega
  obtain ⟨h', e1, e2, e3⟩ := st_own (xs := y) (k := b.pos) hh own (by omega)
  rw [r1]
  refine ⟨h', e1, e2, fun k hk => ⟨id, _, e3, rfl, ?_, ?_, r4, ?_, ?_, fun hn => ⟨(r7 hn).1, ?_⟩⟩⟩
  · simp only [List.length_append, List.length_take]; omega
  · show t.length + k ≤ b.size; omega
  · have : (patch bs b.pos y).take (t.length + y.length) = t ++ y := by
      rw [r2, take_patch_end (by omega), r5]
    have := congrArg (List.take (t ++ y.take k).length) this
    rw [List.take_take, Nat.min_eq_left (by simp; omega)] at this
    rw [this, List.length_append, List.length_take, Nat.min_eq_left hk, List.take_append, Nat.add_sub_cancel_left, List.take_of_length_le (by omega)]
  · simp only [List.length_append, List.length_take]; omega
  · show (patch bs b.pos y)[b.size]? = _
    rw [get_patch hle (by omega)]
    exact (r7 hn).2

/-! ### Writing -/

theorem rep_before {h : Heap Byte} {o : Obj} {b : Base} {x : Val} {t : List Byte} (r : Rep h o b x) (hx : x.Has t) :
    Before h o t ∧ b.pos = t.length ∧ b.pos ≤ b.size := by
  rcases hx with rfl | rfl
  · exact ⟨Or.inl r.1, r.2.pos, by rw [r.2.pos, r.2.size]; omega⟩
  · obtain ⟨⟨id, bs, own, _, r2, r3, _, r5, _⟩, _⟩ := r
    exact ⟨Or.inr ⟨id, bs, own, r5⟩, r2, r3⟩

theorem loose_weak {nul : Bool} {h : Heap Byte} {o : Obj} {b : Base} {t : List Byte} (r : Loose nul h o b t) : Loose false h o b t := by
  obtain ⟨id, bs, own, r1, r2, r3, r4, r5, r6, _⟩ := r
  exact ⟨id, bs, own, r1, r2, r3, r4, r5, r6, (fun h => nomatch h)⟩

/-- A full buffer that ends with a NUL is a string. -/
theorem loose_full {h : Heap Byte} {o : Obj} {b : Base} {t : List Byte} (r : Loose true h o b t) (hb : b.size = t.length) : Rep h o b (.text t) := by
  obtain ⟨id, bs, own, r1, r2, r3, r4, r5, r6, r7⟩ := r
  obtain ⟨h1, h2⟩ := r7 rfl
  refine ⟨own.srep (by omega) ?_, ⟨r2, hb, r6⟩⟩
  rw [hb] at h2
  rw [List.take_add_one, r5, h2]
  rfl

theorem loose_pos {nul : Bool} {h : Heap Byte} {o : Obj} {b : Base} {t : List Byte} (r : Loose nul h o b t) : b.pos = t.length := by
  obtain ⟨_, _, _, _, r2, _⟩ := r; exact r2

/-- The buffer of a stream is grown, and the stream linked to it. -/
theorem overflow_at {s : St} {v : Nat → Val} (hs : Holds lit s v) {i n : Nat} {t : List Byte} (a : Ans) (hv : (v i).Has t) (hn : n > (s.os i).remaining)
    (hl : t.length + n + 1 ≤ 2 ^ 31) : (∃ s1, overflow lit s i n a = some (false, s1) ∧ Holds lit s1 v) ∨
      ∃ s1, overflow lit s i n a = some (true, s1) ∧ Holds lit s1 (upd v i .moved) ∧ Loose true s1.str.heap (s1.str.obj i) (s1.os i) t ∧
        (s1.os i).size = t.length + n := by
  obtain ⟨hb, hp, _⟩ := rep_before (hs.rep i) hv
  unfold overflow
  rw [if_pos hn, hp]
  rcases grow_any (lit := lit) (t.length + n) a hs.hok hb (by omega) hl with d | ⟨h1, o1, d1, d2, d3, d4⟩
  · left
    rw [d]
    refine ⟨_, rfl, ?_⟩
    rw [obj_same]
    exact hs
  · right
    rw [d1]
    refine ⟨_, rfl, holds_upd hs d2 (fun k hk => setOs_other _ _ hk) trivial, ?_, ?_⟩
    · simp only [if_pos, setOs_self]; rw [d3]; exact d4
    · simp only [setOs_self]; exact d3

/-- A stream that owns its buffer is at the end of it. -/
theorem holds_num {s : St} {v : Nat → Val} (hs : Holds lit s v) {i : Nat} {t : List Byte} (r : Loose false s.str.heap (s.str.obj i) (s.os i) t)
    (rm : Roomy (s.str.obj i) (s.os i) t) : Holds lit s (upd v i (.num t)) := holds_set hs ⟨r, rm⟩

/-- A buffer that ends where the stream does is roomy. -/
theorem loose_roomy {h : Heap Byte} {o : Obj} {b : Base} {t : List Byte} (r : Loose true h o b t) (hb : b.size ≤ t.length + 1) : Roomy o b t := by
  obtain ⟨id, bs, own, r1, r2, r3, r4, r5, r6, r7⟩ := r
  obtain ⟨h1, _⟩ := r7 rfl
  exact ⟨hb, by omega, by omega⟩

/-- Text stored behind the text of a stream that has the room. -/
theorem store_at {nul : Bool} {s : St} {v : Nat → Val} (hs : Holds lit s v) {i : Nat} {t d : List Byte}
    (r : Loose nul s.str.heap (s.str.obj i) (s.os i) t) (hd : d.length ≤ (s.os i).remaining) (hl : t.length + d.length < 2 ^ 31) :
    ∃ s', store s i d = some s' ∧ Holds lit s' (upd v i .moved) ∧ Loose nul s'.str.heap (s'.str.obj i) (s'.os i) (t ++ d) ∧
      (s'.os i).size = (s.os i).size ∧ s'.str.obj i = s.str.obj i := by
  obtain ⟨h', e1, e2, e3⟩ := poke hs.hok r hd hl
  have e4 := e3 d.length (Nat.le_refl _)
  rw [List.take_length, ← loose_pos r] at e4
  have := holds_upd hs e2 (f := setOs s.os i { s.os i with pos := (s.os i).pos + d.length }) (x := .moved) (fun k hk => setOs_other _ _ hk) trivial
  rw [obj_same] at this
  unfold store
  rw [e1]
  refine ⟨_, rfl, this, ?_, ?_, rfl⟩
  · simp only [setOs_self]; exact e4
  · simp only [setOs_self]

theorem writeLoop_nil (f : Nat) (s : St) (i : Nat) (a : Ans) : writeLoop lit f s i [] a = some (true, s) := by
  cases f with
  | zero => rfl
  | succ f =>
    rw [writeLoop]
    unfold overflow
    simp

/-- Text written to a stream that has no room left. -/
theorem write_full {s : St} {v : Nat → Val} (hs : Holds lit s v) {i : Nat} {t d : List Byte} (f : Nat) (a : Ans) (hv : (v i).Has t) (hd : d ≠ [])
    (h0 : (s.os i).remaining = 0) (hl : t.length + d.length + 1 ≤ 2 ^ 31) : (∃ s1, writeLoop lit (f + 1) s i d a = some (false, s1) ∧ Holds lit s1 v) ∨
      ∃ s1, writeLoop lit (f + 1) s i d a = some (true, s1) ∧ Holds lit s1 (upd v i .moved) ∧
        Loose true s1.str.heap (s1.str.obj i) (s1.os i) (t ++ d) ∧ (s1.os i).size = (t ++ d).length := by
  have hd0 : d.length ≠ 0 := by simpa using hd
  rw [writeLoop, if_neg (by simp [h0])]
  rcases overflow_at (n := d.length) hs a hv (by omega) hl with ⟨s1, e1, e2⟩ | ⟨s1, e1, e2, e3, e4⟩
  · left; rw [e1]; exact ⟨s1, rfl, e2⟩
  · right
    rw [e1]
    have hp := loose_pos e3
    have hrem : (s1.os i).remaining = d.length := by unfold Base.remaining; omega
    obtain ⟨s2, k1, k2, k3, k4, _⟩ := store_at (d := d) e2 e3 (by omega) (by omega)
    simp only [hrem, Nat.min_self, if_neg hd0, List.take_length, List.drop_length]
    rw [k1]
    simp only [writeLoop_nil]
    rw [upd_upd] at k2
    exact ⟨s2, rfl, k2, k3, by rw [k4, e4, List.length_append]⟩

theorem write_text {s : St} {v : Nat → Val} (hs : Holds lit s v) {i : Nat} {t d : List Byte} (a : Ans) (hv : v i = .text t)
    (hl : t.length + d.length + 2 ≤ 2 ^ 31) : StepOk lit (write lit s i d a) (upd v i (.text (t ++ d))) v := by
  unfold write
  by_cases hd : d = []
  · subst hd
    rw [writeLoop_nil, List.append_nil, ← hv, upd_same]
    exact ⟨true, s, rfl, hs⟩
  · have r := hs.rep i
    rw [hv] at r
    rcases write_full hs d.length a (Or.inl hv) hd (by unfold Base.remaining; rw [r.2.pos, r.2.size]; omega) (by omega) with
      ⟨s1, e1, e2⟩ | ⟨s1, e1, e2, e3, e4⟩
    · exact ⟨false, s1, e1, e2⟩
    · refine ⟨true, s1, e1, ?_⟩
      have := holds_set e2 (loose_full e3 e4)
      rw [upd_upd] at this
      exact this

theorem write_num {s : St} {v : Nat → Val} (hs : Holds lit s v) {i : Nat} {t d : List Byte} (a : Ans) (hv : v i = .num t)
    (hl : t.length + d.length + 2 ≤ 2 ^ 31) : StepOk lit (write lit s i d a) (upd v i (.num (t ++ d))) (upd v i .moved) := by
  have fin : ∀ {s1 : St} {x : Val} {y : List Byte}, Holds lit s1 (upd v i x) → Loose false s1.str.heap (s1.str.obj i) (s1.os i) y →
      Roomy (s1.str.obj i) (s1.os i) y → Holds lit s1 (upd v i (.num y)) := by
    intro s1 x y h r1 r2
    have := holds_num h r1 r2
    rwa [upd_upd] at this
  have bad : ∀ {s1 : St} {x : Val}, Holds lit s1 (upd v i x) → Holds lit s1 (upd v i .moved) := by
    intro s1 x h
    have := holds_set h (i := i) (x := .moved) trivial
    rwa [upd_upd] at this
  unfold write
  by_cases hd : d = []
  · subst hd
    rw [writeLoop_nil, List.append_nil, ← hv, upd_same]
    exact ⟨true, s, rfl, hs⟩
  · have r := hs.rep i
    rw [hv] at r
    obtain ⟨r, rm⟩ := r
    have hd0 : d.length ≠ 0 := by simpa using hd
    by_cases h0 : (s.os i).remaining = 0
    · rcases write_full hs d.length a (Or.inr hv) hd h0 (by omega) with ⟨s1, e1, e2⟩ | ⟨s1, e1, e2, e3, e4⟩
      · refine ⟨false, s1, e1, ?_⟩
        rw [if_neg (by simp)]
        exact bad (x := v i) (by rw [upd_same]; exact e2)
      · exact ⟨true, s1, e1, fin e2 (loose_weak e3) (loose_roomy e3 (by omega))⟩
    · rw [writeLoop, if_pos h0]
      have hm : min d.length (s.os i).remaining ≠ 0 := by omega
      simp only [if_neg hm]
      obtain ⟨s2, k1, k2, k3, k4, k5⟩ := store_at (d := d.take (min d.length (s.os i).remaining)) hs r (by rw [List.length_take]; omega)
        (by rw [List.length_take]; omega)
      have k6 : Holds lit s2 (upd v i (.num (t ++ d.take (min d.length (s.os i).remaining)))) :=
        fin k2 (loose_weak k3) ⟨by rw [k4, List.length_append]; have := rm.one; omega, by rw [k4, k5]; exact rm.size, by rw [k5]; exact rm.cap⟩
      rw [k1]
      simp only
      by_cases hr : d.drop (min d.length (s.os i).remaining) = []
      · rw [hr, writeLoop_nil]
        refine ⟨true, s2, rfl, ?_⟩
        have := List.take_append_drop (min d.length (s.os i).remaining) d
        rw [hr, List.append_nil] at this
        rw [this] at k6
        exact k6
      · have hlt : (s.os i).remaining < d.length := by
          rcases Nat.lt_or_ge (s.os i).remaining d.length with h | h
          · exact h
          · exact absurd (List.drop_eq_nil_of_le (by omega)) hr
        have hp : (s2.os i).pos = t.length + (s.os i).remaining := by
          rw [loose_pos k3, List.length_append, List.length_take]; omega
        have hrem : (s2.os i).remaining = 0 := by
          have := loose_pos r
          unfold Base.remaining at hp ⊢
          rw [k4]; omega
        obtain ⟨f, hf⟩ := Nat.exists_eq_succ_of_ne_zero hd0
        have hf' : writeLoop lit d.length s2 = writeLoop lit (f + 1) s2 := by rw [hf]
        rw [hf']
        rcases write_full k6 f a (Or.inr (upd_at _ _ _)) hr hrem (by simp only [List.length_append, List.length_take, List.length_drop]; omega) with
          ⟨s1, e1, e2⟩ | ⟨s1, e1, e2, e3, e4⟩
        · exact ⟨false, s1, e1, bad e2⟩
        · refine ⟨true, s1, e1, ?_⟩
          rw [upd_upd] at e2
          have := fin e2 (loose_weak e3) (loose_roomy e3 (by omega))
          rw [List.append_assoc, List.take_append_drop] at this
          exact this

/-- A number written to a stream that has the room. -/
theorem format_fits {nul : Bool} {s : St} {v : Nat → Val} (hs : Holds lit s v) {i : Nat} {t d : List Byte} (f : Nat) (a : Ans)
    (r : Loose nul s.str.heap (s.str.obj i) (s.os i) t) (hr : d.length < (s.os i).remaining) (hl : t.length + d.length + 2 ≤ 2 ^ 31)
    (rm : Roomy (s.str.obj i) (s.os i) (t ++ d)) :
    ∃ s', formatLoop lit (f + 1) s i d a = some (true, s') ∧ Holds lit s' (upd v i (.num (t ++ d))) := by
  obtain ⟨h', e1, e2, e3⟩ := poke (y := d.take ((s.os i).remaining - 1) ++ [0]) hs.hok r (by simp; omega) (by simp; omega)
  have hp := loose_pos r
  have e4 := e3 d.length (by simp; omega)
  rw [List.take_of_length_le (l := d) (i := (s.os i).remaining - 1) (by omega), List.take_append_of_le_length (by omega), List.take_length, ← hp] at e4
  have := holds_upd hs e2 (f := setOs s.os i { s.os i with pos := (s.os i).pos + d.length }) (x := .num (t ++ d)) (fun k hk => setOs_other _ _ hk)
    (by rw [setOs_self]; exact ⟨loose_weak e4, rm.one, rm.size, rm.cap⟩)
  rw [obj_same] at this
  refine ⟨_, ?_, this⟩
  rw [formatLoop]
  simp only
  rw [if_neg (by omega), e1]
  simp only
  rw [if_neg (by omega)]

/-- A number written to a stream that has not the room. -/
theorem format_grow {s : St} {v : Nat → Val} (hs : Holds lit s v) {i : Nat} {t d : List Byte} (f : Nat) (a : Ans) (hv : (v i).Has t)
    (hr : (s.os i).remaining ≤ d.length) (hl : t.length + d.length + 2 ≤ 2 ^ 31) :
    StepOk lit (match overflow lit s i (d.length + 1) a with
      | none => none
      | some (false, s2) => some (false, s2)
      | some (true, s2) => formatLoop lit (f + 1) s2 i d a) (upd v i (.num (t ++ d))) v := by
  rcases overflow_at (n := d.length + 1) hs a hv (by omega) (by omega) with ⟨s1, e1, e2⟩ | ⟨s1, e1, e2, e3, e4⟩
  · rw [e1]; exact ⟨false, s1, rfl, e2⟩
  · rw [e1]
    have hp := loose_pos e3
    have rm : Roomy (s1.str.obj i) (s1.os i) (t ++ d) := by
      obtain ⟨_, _, _, _, _, _, r4, _, _, r7⟩ := e3
      obtain ⟨h1, _⟩ := r7 rfl
      exact ⟨by rw [e4, List.length_append]; omega, by omega, by omega⟩
    obtain ⟨s', k1, k2⟩ := format_fits e2 f a e3 (d := d) (by unfold Base.remaining; omega) hl rm
    rw [upd_upd] at k2
    exact ⟨true, s', k1, k2⟩

theorem format_ok {s : St} {v : Nat → Val} (hs : Holds lit s v) {i : Nat} {t d : List Byte} (a : Ans) (hv : (v i).Has t)
    (hl : t.length + d.length + 2 ≤ 2 ^ 31) : StepOk lit (format lit s i d a) (upd v i (.num (t ++ d))) v := by
  obtain ⟨_, hp, hle⟩ := rep_before (hs.rep i) hv
  unfold format
  rcases Nat.lt_or_ge d.length (s.os i).remaining with h | h
  · have r := hs.rep i
    rcases hv with hv | hv
    · rw [hv] at r
      have := r.2.size
      unfold Base.remaining at h
      omega
    · rw [hv] at r
      have rm := r.2
      obtain ⟨s', e1, e2⟩ := format_fits hs 2 a r.1 h hl ⟨by rw [List.length_append]; have := rm.one; omega, rm.size, rm.cap⟩
      exact ⟨true, s', e1, e2⟩
  · rw [formatLoop]
    simp only
    by_cases h0 : (s.os i).remaining = 0
    · rw [if_pos h0]
      simp only
      rw [if_pos (by omega)]
      exact format_grow hs 1 a hv (by omega) hl
    · rw [if_neg h0]
      have r := hs.rep i
      rcases hv with hv | hv
      · rw [hv] at r
        have := r.2.size
        unfold Base.remaining at h0
        omega
      · rw [hv] at r
        obtain ⟨h', e1, e2, e3⟩ := poke (y := d.take ((s.os i).remaining - 1) ++ [0]) hs.hok r.1 (by simp; omega) (by simp; omega)
        have e4 := e3 0 (by omega)
        rw [List.take_zero, List.append_nil, Nat.add_zero, ← hp] at e4
        have := holds_upd hs e2 (f := s.os) (x := .num t) (fun _ _ => rfl) ⟨e4, r.2⟩
        rw [obj_same, ← hv, upd_same] at this
        rw [e1]
        simp only
        rw [if_pos (by omega)]
        exact format_grow this 1 a (Or.inr hv) h hl

/-! ### The other calls -/

theorem ctor_ok {s : St} {v : Nat → Val} (hs : Holds lit s v) {i : Nat} (hv : v i = .none) : StepOk lit (ctor lit s i) (upd v i (.text [])) v := by
  have he : s.str.obj i = Obj.empty := by have := hs.rep i; rw [hv] at this; exact this
  have hr := hs.lit.srep
  have h0 : foreign s.str.heap lit 0 = [] := List.length_eq_zero_iff.1 hr.size.symm
  rw [h0] at hr
  have d := ctor_d (a := .none) hs.hok rfl hr
  rw [← he] at d
  exact put_ok hs d fun _ o' h => ⟨h, rfl, h.size, by decide⟩

/-- `reserve (n, true)` of an owned buffer keeps the old bytes. -/
theorem reserve_exact {a : Option (Nat → Byte)} {h : Heap Byte} {o : Obj} {id : Nat} {bs : List Byte} (own : Own h o id bs)
    {n : Nat} (hcap : o.cap < n + 1) {h' : Heap Byte} {o' : Obj} (hr : Memblock.reserve 1 h o n true a = some (true, h', o')) :
    ∃ junk m, h' = (h.setBlk id none).malloc m bs junk ∧ o'.cap = m := by
  unfold Memblock.reserve at hr
  simp only [if_true] at hr
  rw [if_neg (Nat.not_le.2 hcap)] at hr
  generalize n + 1 = m at hr
  have hc := own.cap
  simp only [hc, if_false, own.ptr, realloc, own.blk, ne_eq, not_true_eq_false] at hr
  by_cases hm : m = 0
  · simp only [hm, if_true] at hr
    simp at hr
  · simp only [hm, if_false] at hr
    cases a with
    | none => simp at hr
    | some junk => simp at hr; exact ⟨junk, m, hr.1.symm, by rw [← hr.2]⟩

/-- `str ()` of a stream that owns its buffer. -/
theorem str_own {s : St} {v : Nat → Val} (hs : Holds lit s v) {i : Nat} {t : List Byte} (a : Ans) {id : Nat} {bs : List Byte}
    (own : Own s.str.heap (s.str.obj i) id bs) (hp : (s.os i).pos = t.length) (ht : bs.take t.length = t) (hl : t.length < 2 ^ 31) :
    Done s.str.heap (s.str.obj i) (a 0) (Str.resize lit s.str.heap (s.str.obj i) (s.os i).pos (a 0)) fun h' o' =>
      ∃ id bs, Own h' o' id bs ∧ bs.take t.length = t ∧ o'.size = t.length ∧ o'.size + 1 ≤ o'.cap ∧
        (t.length + 1 ≤ (s.str.obj i).cap → o'.ptr = (s.str.obj i).ptr ∧ o'.cap = (s.str.obj i).cap) := by
  rw [hp]
  rcases Nat.lt_or_ge t.length (s.str.obj i).cap with hc | hc
  · right
    obtain ⟨h2, e1, e2, e3⟩ := resize_in (lit := lit) (n := t.length) (a 0) hs.hok own hc
    have hlen := own.len
    exact ⟨h2, _, e1, e2, id, _, e3, take_patch ht (Nat.le_refl _) (by simp; omega), rfl, hc, fun _ => ⟨rfl, rfl⟩⟩
  · unfold Str.resize Memblock.resize
    rw [if_neg (by have := own.cap; omega), if_pos (by omega)]
    have hook : OOK s.str.heap (s.str.obj i) := hs.owns.ook i
    rcases reserve_grow 1 t.length true (a 0) hs.hok hook (by omega) (fun h => by cases h) with ⟨g0, g⟩ | ⟨h', bs', n', h1, h0, h2, h3, h4, h5, h6, h7, h8, h9⟩
    · rw [g]; exact Or.inl ⟨g0, rfl⟩
    · right
      have hlen := own.len
      have hple := prefix_len ht
      obtain ⟨junk, m, k1, k2⟩ := reserve_exact own (by omega) h2
      simp only at k2
      subst k1 k2
      have h4' := malloc_get (s.str.heap.setBlk id none) n' bs junk
      rw [show (s.str.heap.setBlk id none).next = s.str.heap.next from rfl, h4] at h4'
      injection h4' with h4'
      injection h4' with _ h4'
      have hb : bs'.take t.length = t := by
        rw [h4', List.take_append_of_le_length (by rw [List.length_take]; omega), List.take_take, Nat.min_eq_left (by omega), ht]
      have e := eff_fresh (sz := t.length) hs.hok h3 h4 h5 (by omega) (by omega) h7 h8 h9
      have own1 : Own _ ⟨some (s.str.heap.next, 0), t.length, n'⟩ s.str.heap.next bs' := ⟨by simp; omega, rfl, h4, h5, by simp; omega⟩
      obtain ⟨g2, l1, l2, l3⟩ := st_own (xs := [0]) (k := t.length) e.hok own1 (by simp; omega)
      rw [h2]
      simp only [thenStore]
      rw [l1]
      exact ⟨g2, _, rfl, e.trans l2, _, _, l3, take_patch hb (Nat.le_refl _) (by simp; omega), rfl, by simp; omega, fun h => absurd h (by omega)⟩

theorem str_ok {s : St} {v : Nat → Val} (hs : Holds lit s v) {i : Nat} {t : List Byte} (a : Ans) (hv : (v i).Shows t) :
    StepOk lit (str lit s i a) v v ∧ ∀ s', str lit s i a = some (true, s') → shown s' i = t := by
  have r := hs.rep i
  have seen : ∀ {h : Heap Byte} {o : Obj} {id : Nat} {bs : List Byte}, Own h o id bs → bs.take t.length = t → o.size = t.length → view h o = t := by
    intro h o id bs own h1 h2
    unfold view
    rw [own.ptr]
    simp only
    rw [own.blk]
    simp only [List.drop_zero]
    rw [h2, h1]
  have d : Done s.str.heap (s.str.obj i) (a 0) (Str.resize lit s.str.heap (s.str.obj i) (s.os i).pos (a 0)) fun h' o' =>
      Rep h' o' (s.os i) (v i) ∧ view h' o' = t := by
    rcases hv with (hv | hv) | hv
    · rw [hv] at r ⊢
      rw [r.2.pos]
      refine (resize_s t.length (a 0) hs.hok r.1.ook hs.lit).mono ?_
      rintro h' o' ⟨t', ⟨q1, q1'⟩, q2, _⟩
      rw [r.1.view, List.take_length, List.take_of_length_le (by omega)] at q1'
      subst q1'
      exact ⟨⟨q2, r.2⟩, q2.view⟩
    · rw [hv] at r ⊢
      obtain ⟨⟨id, bs, own, r1, r2, r3, r4, r5, r6, _⟩, rm⟩ := r
      refine (str_own hs a own r2 r5 r6).mono ?_
      rintro h' o' ⟨id', bs', q1, q2, q3, q4, q5⟩
      obtain ⟨p1, p2⟩ := q5 (by omega)
      exact ⟨⟨⟨id', bs', q1, by rw [r1, p1], r2, r3, by rw [p2]; exact r4, q2, r6, (fun h => nomatch h)⟩, rm.one, by have := rm.one; omega, q4⟩,
        seen q1 q2 q3⟩
    · rw [hv] at r ⊢
      obtain ⟨id, bs, own, r2, r5, r6, _⟩ := r
      refine (str_own hs a own r2 r5 r6).mono ?_
      rintro h' o' ⟨id', bs', q1, q2, q3, q4, _⟩
      exact ⟨⟨id', bs', q1, r2, q2, r6, by omega, q4⟩, seen q1 q2 q3⟩
  constructor
  · have := put_ok hs (f := fun _ => s.os i) (x := v i) d fun _ _ h => h.1
    rw [upd_same] at this
    exact this
  · intro s' h
    unfold str at h
    rcases d with ⟨_, d⟩ | ⟨h', o', d1, _, d3⟩
    · rw [d] at h; cases h
    · rw [d1] at h
      cases h
      unfold shown
      simp only [if_true]
      exact d3.2

theorem setStr_ok {s : St} {v : Nat → Val} (hs : Holds lit s v) (i : Nat) {t : List Byte} (a : Ans) (hl : t.length < 2 ^ 31) :
    StepOk lit (setStr lit s i t a) (upd v i (.text t)) v :=
  put_ok hs (assign_s t (a 0) hs.hok (hs.owns.ook i) hs.lit) fun _ _ h => ⟨h, h.size, h.size, hl⟩

/-- A copy of a string that owns its buffer takes the bytes behind the end too. -/
theorem ctorCopy_own {h : Heap Byte} {o : Obj} {id : Nat} {bs t : List Byte} (a : Option (Nat → Byte)) (hh : HOK h) (own : Own h o id bs)
    (ht : bs.take t.length = t) (h1 : t.length ≤ o.size + 1) (h2 : o.size + 1 ≤ o.cap) :
    Done h Obj.empty a (Str.ctorCopy h o a) fun h' o' => ∃ id bs, Own h' o' id bs ∧ bs.take t.length = t ∧ o'.size = o.size ∧ o'.size + 1 ≤ o'.cap := by
  unfold Str.ctorCopy
  rw [if_neg own.cap]
  have hlen := own.len
  rcases exact_d o.size a hh with ⟨d1, d2⟩ | ⟨g1, o1, d1, d2, d3, d4⟩
  · left; rw [d2]; exact ⟨d1, rfl⟩
  · right
    rw [d1]
    simp only
    have hread : ld g1 o.ptr (o.size + 1) = some (bs.take (o.size + 1)) := by
      refine ld_congr (ld_own own (by omega)) fun q b _ hb => ?_
      rw [d2.keep q.1 (hh.lt hb) (Or.inl rfl), hb]
    rw [hread]
    simp only
    obtain ⟨id', bs', own'⟩ := own_of d2.ook (by omega)
    have hl := own'.len
    obtain ⟨g2, k1, k2, k3⟩ := st_own (xs := bs.take (o.size + 1)) (k := 0) d2.hok own' (by rw [List.length_take]; omega)
    have : adv o1.ptr 0 = o1.ptr := by rw [own'.ptr]; rfl
    rw [this] at k1
    rw [k1]
    refine ⟨g2, _, rfl, shrink_eff (d2.trans k2) (by omega), id', _, ⟨own'.cap, own'.ptr, k3.blk, k3.len, by simp; omega⟩, ?_, rfl, d4⟩
    have hp := take_patch_end (bs := bs') (xs := bs.take (o.size + 1)) (k := 0) (by rw [List.length_take]; omega)
    rw [List.take_zero, List.nil_append, Nat.zero_add, List.length_take, Nat.min_eq_left (by omega)] at hp
    have := congrArg (List.take t.length) hp
    rw [List.take_take, List.take_take, Nat.min_eq_left h1, ht] at this
    exact this

theorem copyCtor_ok {s : St} {v : Nat → Val} (hs : Holds lit s v) {i j : Nat} {t : List Byte} (a : Ans) (hi : v i = .none)
    (hj : (v j).Shows t) : StepOk lit (copyCtor s i j a) (upd v i (v j).copied) v := by
  have r := hs.rep j
  have he : s.str.obj i = Obj.empty := by have := hs.rep i; rw [hi] at this; exact this
  rcases hj with (hj | hj) | hj
  · rw [hj] at r
    have d := ctorCopy_s (a 0) hs.hok r.1
    rw [← he] at d
    rw [hj]
    exact put_ok hs d fun _ _ h => ⟨h, r.2⟩
  · rw [hj] at r
    obtain ⟨⟨id, bs, own, r1, r2, r3, r4, r5, r6, _⟩, rm⟩ := r
    have d := ctorCopy_own (a 0) hs.hok own r5 (by have := rm.size; omega) rm.cap
    rw [← he] at d
    rw [hj]
    refine put_ok hs d ?_
    rintro h' o' ⟨id', bs', q1, q2, q3, q4⟩
    exact ⟨id', bs', q1, r2, q2, r6, by have := rm.size; omega, q4⟩
  · rw [hj] at r
    obtain ⟨id, bs, own, r2, r5, r6, r7, r8⟩ := r
    have d := ctorCopy_own (a 0) hs.hok own r5 r7 r8
    rw [← he] at d
    rw [hj]
    refine put_ok hs d ?_
    rintro h' o' ⟨id', bs', q1, q2, q3, q4⟩
    exact ⟨id', bs', q1, r2, q2, r6, by omega, q4⟩

theorem assignBase_self (f : Nat → Base) {i j : Nat} (h : i ≠ j) : assignBase f i j i = f j := by
  simp only [assignBase, setOs, if_pos, if_neg (Ne.symm h)]

theorem assignBase_other (f : Nat → Base) {i j k : Nat} (h : k ≠ i) : assignBase f i j k = f k := by
  simp only [assignBase, setOs, if_neg h]

theorem moved_ok {s : St} {v : Nat → Val} (hs : Holds lit s v) (i : Nat) {f : Nat → Base} (hf : ∀ k, k ≠ i → f k = s.os k) :
    Holds lit ⟨s.str, f⟩ (upd v i .moved) := by
  refine ⟨hs.hok, hs.owns, hs.noleak, hs.lit, fun k => ?_⟩
  by_cases hki : k = i
  · subst hki; rw [upd_at]; trivial
  · rw [upd, if_neg hki]
    show Rep _ _ (f k) _
    rw [hf k hki]
    exact hs.rep k

theorem copyAssign_ok {s : St} {v : Nat → Val} (hs : Holds lit s v) {i j : Nat} {t : List Byte} (a : Ans) (hij : i ≠ j)
    (hj : v j = .text t) : StepOk lit (copyAssign lit s i j a) (upd v i (v j)) (upd v i .moved) := by
  have r := hs.rep j
  rw [hj] at r
  have hm := moved_ok hs i (f := assignBase s.os i j) fun k hk => assignBase_other _ hk
  have hn : 0 + (s.str.obj j).size < 2 ^ 64 := by have := r.2.len; rw [r.1.size]; omega
  have htk : (t.drop 0).take (s.str.obj j).size = t := by rw [r.1.size]; simp
  have e := assignSub_eq (lit := lit) (o := s.str.obj i) (a := a 0) r.1.size hn fun h1 o1 hr => by
    have he := Done.eff (resize_s (lit := lit) _ (a 0) hs.hok (hs.owns.ook i) hs.lit) hr
    have h1 := read_range r.1.size hn (ld_congr r.1.chars (keep_blk hs.hok hs.owns he (Ne.symm hij)))
    rwa [(range_eq r.1.size hn).2.2.1] at h1
  rw [htk] at e
  unfold copyAssign
  rw [e]
  have := put_ok hm (f := fun _ => assignBase s.os i j i) (x := .text t) (assign_s t (a 0) hs.hok (hs.owns.ook i) hs.lit)
    fun _ _ h => ⟨h, by rw [assignBase_self _ hij]; exact r.2⟩
  rw [upd_upd, ← hj] at this
  exact this

/-- The buffers change places and stream `i` gets the base of stream `j`. -/
theorem exchange_ok {s : St} {v : Nat → Val} (hs : Holds lit s v) {i j : Nat} (hij : i ≠ j) {f : Nat → Base} (hfi : f i = s.os j)
    (hf : ∀ k, k ≠ i → f k = s.os k) : Holds lit ⟨(s.str.setObj i (s.str.obj j)).setObj j (s.str.obj i), f⟩ (upd (upd v j .moved) i (v j)) := by
  let σ : Nat → Nat := fun k => if k = j then i else if k = i then j else k
  have hσ : ∀ k, ((s.str.setObj i (s.str.obj j)).setObj j (s.str.obj i)).obj k = s.str.obj (σ k) := by
    intro k
    simp only [World.setObj, σ]
    split
    · rfl
    · split <;> rfl
  have hinj : ∀ k l, k ≠ l → σ k ≠ σ l := by
    intro k l hkl
    simp only [σ]
    split <;> split <;> (try split) <;> (try split) <;> omega
  have hinv : ∀ k, σ (σ k) = k := by
    intro k
    simp only [σ]
    by_cases h1 : k = j
    · subst h1; simp [hij]
    · by_cases h2 : k = i
      · subst h2; simp [h1]
      · simp [h1, h2]
  refine ⟨hs.hok, ⟨?_, ?_, ?_⟩, ?_, hs.lit, ?_⟩
  · intro k; rw [hσ]; exact hs.owns.owned (σ k)
  · intro k; rw [hσ]; exact hs.owns.linked (σ k)
  · intro k l hkl; rw [hσ, hσ]; exact hs.owns.unique _ _ (hinj k l hkl)
  · intro id b h1 h2
    obtain ⟨k, h3⟩ := hs.noleak id b h1 h2
    exact ⟨σ k, by rw [hσ, hinv]; exact h3⟩
  · intro k
    show Rep s.str.heap (((s.str.setObj i (s.str.obj j)).setObj j (s.str.obj i)).obj k) (f k) _
    rw [hσ]
    by_cases hki : k = i
    · subst hki
      rw [upd_at, hfi]
      simp only [σ, if_neg hij, if_pos]
      exact hs.rep j
    · by_cases hkj : k = j
      · subst hkj
        simp only [upd, if_neg hki, if_pos]
        trivial
      · simp only [upd, if_neg hki, if_neg hkj, σ]
        rw [hf k hki]
        exact hs.rep k

theorem moveAssign_ok {s : St} {v : Nat → Val} (hs : Holds lit s v) {i j : Nat} (hij : i ≠ j) :
    Holds lit (moveAssign s i j) (upd (upd v j .moved) i (v j)) :=
  exchange_ok hs hij (assignBase_self _ hij) fun _ hk => assignBase_other _ hk

theorem moveCtor_ok {s : St} {v : Nat → Val} (hs : Holds lit s v) {i j : Nat} (hij : i ≠ j) (hi : v i = .none) :
    Holds lit (moveCtor s i j) (upd (upd v j .moved) i (v j)) := by
  have he : s.str.obj i = Obj.empty := by have := hs.rep i; rw [hi] at this; exact this
  have := exchange_ok hs hij (f := setOs s.os i (s.os j)) (setOs_self _ _ _) fun k hk => setOs_other _ _ hk
  have e : (s.str.setObj i (s.str.obj j)).setObj j (s.str.obj i) = (s.str.setObj j Obj.empty).setObj i (s.str.obj j) := by
    rw [he]
    unfold World.setObj
    congr 1
    funext k
    by_cases hki : k = i
    · subst hki; simp [hij]
    · simp [hki]
  rw [e] at this
  exact this

theorem destroy_ok {s : St} {v : Nat → Val} (hs : Holds lit s v) (i : Nat) : ∃ s', destroy s i = some (true, s') ∧ Holds lit s' (upd v i .none) := by
  obtain ⟨h', e1, e2, _⟩ := deallocate_spec hs.hok (hs.owns.ook i)
  exact ⟨_, by unfold destroy; rw [e1]; rfl, holds_upd hs e2 (x := .none) (fun k hk => setOs_other _ _ hk) rfl⟩

theorem shows_ne {x y : Val} {t : List Byte} (hx : x = .none) (hy : y.Shows t) : x ≠ y := by
  rintro rfl
  rcases hy with (h | h) | h <;> rw [hx] at h <;> cases h

/-- **C102** one call within the contract: never undefined; the streams have the values the call gives them, or `bad_alloc` was thrown. -/
theorem streams_step {s : St} {v : Nat → Val} (op : Op) (a : Ans) (hs : Holds lit s v) (hp : Pre op v) :
    StepOk lit (step lit s op a) (op.apply v) (op.threw v) := by
  cases op with
  | ctor i => exact ctor_ok hs hp
  | write i d =>
    obtain ⟨t, h1, h2⟩ := hp
    rcases h1 with h1 | h1
    · have := write_text hs a h1 h2
      simp only [Op.apply, Op.threw, h1, Val.write]
      exact this
    · have := write_num hs a h1 h2
      simp only [Op.apply, Op.threw, h1, Val.write]
      exact this
  | format i d =>
    obtain ⟨t, h1, h2⟩ := hp
    have := format_ok hs a h1 h2
    rcases h1 with h1 | h1
    · simp only [Op.apply, h1, Val.format]
      exact this
    · simp only [Op.apply, h1, Val.format]
      exact this
  | str i => obtain ⟨t, h1⟩ := hp; exact (str_ok hs a h1).1
  | setStr i t => exact setStr_ok hs i a hp.2
  | copyCtor i j => obtain ⟨h1, t, h2⟩ := hp; exact copyCtor_ok hs a h1 h2
  | copyAssign i j => obtain ⟨h0, h1, t, h2⟩ := hp; exact copyAssign_ok hs a h0 h2
  | moveCtor i j =>
    obtain ⟨h1, t, h2⟩ := hp
    exact ⟨true, _, rfl, moveCtor_ok hs (by rintro rfl; exact shows_ne h1 h2 rfl) h1⟩
  | moveAssign i j => obtain ⟨h0, h1, t, h2⟩ := hp; exact ⟨true, _, rfl, moveAssign_ok hs h0⟩
  | destroy i => obtain ⟨s', e, g⟩ := destroy_ok hs i; exact ⟨true, s', e, g⟩

theorem hist_ok {s0 s : St} {ops : List (Op × Bool)} {v : Nat → Val} (hi : Str.Initial lit s0.str) (hh : Hist lit s0 ops s v) : Holds lit s v := by
  induction hh with
  | nil =>
    have w := init_ws hi
    exact ⟨w.hok, w.owns, w.noleak, w.lit, fun k => w.gone k rfl⟩
  | ok _ hp hs ih =>
    obtain ⟨ok, s', e, g⟩ := streams_step _ _ ih hp
    rw [hs] at e; cases e; exact g
  | threw _ hp hs ih =>
    obtain ⟨ok, s', e, g⟩ := streams_step _ _ ih hp
    rw [hs] at e; cases e; exact g

/-- **C102** after any history of writing text and numbers, `str ()`, `str (v)`, copying, assigning, moving and destroying, with allocations that fail
among them, `str ()` of every stream returns the text that stream was given and written, whatever was done to its copies and originals. Missing: writing
to a copy of a stream that a number was written to (`copy_after_number_violated`), assigning from such a stream (`assign_after_number_violated`), a stream
assigned to itself (`self_assign_violated`). -/
theorem streams_are_values_partial {s0 s s' : St} {ops : List (Op × Bool)} {v : Nat → Val} (hi : Str.Initial lit s0.str) (hh : Hist lit s0 ops s v)
    {i : Nat} {t : List Byte} (hv : (v i).Shows t) {a : Ans} (hs : step lit s (.str i) a = some (true, s')) : shown s' i = t :=
  (str_ok (hist_ok hi hh) a hv).2 s' hs

/-- **C102** no call in such a history is undefined: nothing is stored in, or read from, memory that is not there, and nothing is freed twice; and when
`bad_alloc` is thrown the streams have the values `Op.threw` says. -/
theorem streams_no_ub_partial {s0 s : St} {ops : List (Op × Bool)} {v : Nat → Val} (hi : Str.Initial lit s0.str) (hh : Hist lit s0 ops s v)
    (op : Op) (a : Ans) (hp : Pre op v) : step lit s op a ≠ none := by
  obtain ⟨ok, s', e, _⟩ := streams_step op a (hist_ok hi hh) hp
  rw [e]; simp

/-- **C102** when all the streams are gone, so is their memory. -/
theorem streams_no_leak {s0 s : St} {ops : List (Op × Bool)} {v : Nat → Val} (hi : Str.Initial lit s0.str) (hh : Hist lit s0 ops s v)
    (hv : ∀ i, v i = .none) (id : Nat) (b : Blk Byte) (hb : s.str.heap.blk id = some b) : b.heap = false := by
  have h := hist_ok hi hh
  cases hf : b.heap with
  | false => rfl
  | true =>
    obtain ⟨k, h1, h2⟩ := h.noleak id b hb hf
    have := h.rep k
    rw [hv k] at this
    have this : s.str.obj k = Obj.empty := this
    rw [this] at h1
    exact absurd rfl h1

theorem swap_ok {s : St} {v : Nat → Val} (hs : Holds lit s v) {t i j : Nat} {x y : List Byte} (ht : v t = .none) (hij : i ≠ j) (hi : (v i).Shows x)
    (hj : (v j).Shows y) : ∃ s', swap s t i j = some (true, s') ∧ Holds lit s' (upd (upd v i (v j)) j (v i)) := by
  have hti : t ≠ i := by rintro rfl; exact shows_ne ht hi rfl
  have htj : t ≠ j := by rintro rfl; exact shows_ne ht hj rfl
  have h1 := moveCtor_ok hs hti ht
  have h2 := moveAssign_ok h1 hij
  have h3 := moveAssign_ok h2 (Ne.symm htj)
  obtain ⟨s', e, g⟩ := destroy_ok h3 t
  refine ⟨s', e, ?_⟩
  have ev : ∀ k, upd (upd v i (v j)) j (v i) k = upd (upd (upd (upd (upd (upd (upd v i .moved) t (v i)) j .moved) i
      (upd (upd v i .moved) t (v i) j)) t .moved) j (upd (upd (upd (upd v i .moved) t (v i)) j .moved) i
      (upd (upd v i .moved) t (v i) j) t)) t .none k := by
    intro k
    unfold upd
    by_cases hkt : k = t
    · subst hkt; simp [hti, htj, ht]
    · by_cases hkj : k = j
      · subst hkj; simp [hkt, hti, htj]
      · by_cases hki : k = i
        · subst hki; simp [hkt, hkj, Ne.symm hij, Ne.symm htj]
        · simp [hkt, hkj, hki]
  rw [funext ev]
  exact g

/-- **C102** `swap (a, b)`, in any such history: the streams change texts, nothing is lost; the others keep theirs. -/
theorem swap_exchanges {s0 s : St} {ops : List (Op × Bool)} {v : Nat → Val} (hi : Str.Initial lit s0.str) (hh : Hist lit s0 ops s v) {t i j : Nat}
    {x y : List Byte} (ht : v t = .none) (hij : i ≠ j) (hx : (v i).Shows x) (hy : (v j).Shows y) (a : Ans) :
    ∃ s', swap s t i j = some (true, s') ∧ ∀ k z, (upd (upd v i (v j)) j (v i) k).Shows z →
      step lit s' (.str k) a ≠ none ∧ ∀ s'', step lit s' (.str k) a = some (true, s'') → shown s'' k = z := by
  obtain ⟨s', e, g⟩ := swap_ok (hist_ok hi hh) ht hij hx hy
  refine ⟨s', e, fun k z hk => ?_⟩
  obtain ⟨ok, s'', e2, _⟩ := streams_step (.str k) a g ⟨z, hk⟩
  exact ⟨by rw [e2]; simp, (str_ok g a hk).2⟩

/-! ### What goes wrong otherwise -/

theorem resize_size {h h' : Heap Byte} {o o' : Obj} {n : Nat} {a : Option (Nat → Byte)} (e : Str.resize lit h o n a = some (true, h', o')) : o'.size = n := by
  unfold Str.resize at e
  split at e
  · rename_i hc; cases e; exact hc.1.symm
  · unfold Memblock.resize at e
    split at e
    · cases hr : reserve 1 h o n true a with
      | none => rw [hr] at e; cases e
      | some q =>
        obtain ⟨ok, h1, o1⟩ := q
        rw [hr] at e
        cases ok with
        | false => cases e
        | true =>
          simp only [thenStore] at e
          split at e <;> cases e
          rfl
    · simp only [thenStore] at e
      split at e <;> cases e
      rfl

theorem put_os {s s' : St} {i : Nat} {r : Res} {b : Base} (e : s.put i r (fun _ => b) = some (true, s')) : s'.os i = b := by
  unfold St.put at e
  split at e
  · cases e
  · cases e
  · cases e; exact setOs_self _ _ _

/-- **C102 violated** `os = os;` loses the text: the virtual `unlink` sets the position to 0 before it is copied. Whatever the stream, `str ()` is empty
afterwards. -/
theorem self_assign_violated {s s1 s2 : St} {i : Nat} {a b : Ans} (h1 : step lit s (.copyAssign i i) a = some (true, s1))
    (h2 : step lit s1 (.str i) b = some (true, s2)) : shown s2 i = [] := by
  have hb : (s1.os i).pos = 0 := by
    have : s1.os i = assignBase s.os i i i := put_os h1
    rw [this]
    simp [assignBase, setOs]
  have h3 : s1.put i (Str.resize lit s1.str.heap (s1.str.obj i) (s1.os i).pos (b 0)) (fun _ => s1.os i) = some (true, s2) := h2
  rw [hb] at h3
  unfold St.put at h3
  split at h3
  · cases h3
  · cases h3
  · rename_i h' o' he
    cases h3
    have hz := resize_size he
    unfold shown view
    simp only [if_true, hz, List.take_zero]
    split
    · rfl
    · split <;> rfl

/-- Nothing but the literal `""`. -/
def start : St := ⟨⟨⟨fun k => if k = 0 then some ⟨false, [0]⟩ else none, 1⟩, fun _ => Obj.empty⟩, fun _ => ⟨none, 0, 0⟩⟩

/-- The allocator always has memory, full of `7`. -/
def ans : Ans := fun _ => some fun _ => 7

/-- Continue with a call that completed. -/
def andThen (r : Option (Bool × St)) (f : St → Option (Bool × St)) : Option (Bool × St) :=
  match r with
  | some (true, s) => f s
  | _ => none

/-- Calls in a row. -/
def run (s : St) (ops : List Op) : Option (Bool × St) := ops.foldl (fun r op => andThen r fun s => step (0, 0) s op ans) (some (true, s))

/-- The text `str ()` returned last of stream `i`. -/
def result (r : Option (Bool × St)) (i : Nat) : Option (List Byte) := r.map fun s => shown s.2 i

/-- A stream that `42` was written to as a number, and a copy of it. -/
def numbered : Option (Bool × St) :=
  andThen (andThen (Copy.ctor (0, 0) start 0) fun s => format (0, 0) s 0 [52, 50] ans) fun s => copyCtor s 1 0 ans

/-- **C102 violated** `ostringstream a; a << 42; ostringstream b (a); b << "x";`: `format` has left room for one byte, so the `x` is stored in the memory
of `a`, and `b.str ()` has a NUL in its place. -/
theorem copy_after_number_violated :
    result (andThen (andThen numbered fun s => write (0, 0) s 1 [120] ans) fun s => str (0, 0) s 1 ans) 1 = some [52, 50, 0] := by
  decide +kernel

/-- **C102 violated** the same with `a` gone before the `x` is written: it is written to memory that was freed. -/
theorem copy_outlives_violated : andThen (andThen numbered fun s => destroy s 0) (fun s => (write (0, 0) s 1 [120] ans)) = none := by
  rfl

/-- **C102 violated** `a << 42; a.str (); a << "x"; b = a;`: `str ()` has cut the buffer and the `x` is written behind its end, in the room, so it is not
assigned: `b.str ()` has a NUL where `a.str ()` has the `x`. -/
theorem assign_after_number_violated :
    let a := run start [.ctor 0, .ctor 1, .format 0 [52, 50], .str 0, .write 0 [120], .copyAssign 1 0]
    result (andThen a fun s => str (0, 0) s 0 ans) 0 = some [52, 50, 120] ∧ result (andThen a fun s => str (0, 0) s 1 ans) 1 = some [52, 50, 0] := by
  decide +kernel

/-- Two streams, `abc` and `z`, after the member `swap`. -/
def swapped : Option (Bool × St) :=
  andThen (run start [.ctor 0, .ctor 1, .write 0 [97, 98, 99], .write 1 [122]]) fun s => some (true, memberSwap s 0 1)

/-- **C102 violated** `a.swap (b)` exchanges where the streams write and how far they are, but not the texts: `a` has its own text cut to the length of
the other, `b` its own and what else is there. -/
theorem member_swap_violated : result (andThen swapped fun s => str (0, 0) s 0 ans) 0 = some [97] ∧
    result (andThen swapped fun s => str (0, 0) s 1 ans) 1 = some [122, 0, 7] := by
  decide +kernel

/-! ### Examples -/

theorem start_initial : Str.Initial (0, 0) start.str := by
  refine ⟨⟨fun _ => rfl, fun id hid => ?_, fun id b hb => ?_⟩, ⟨_, rfl, rfl, rfl⟩⟩
  · have : id ≠ 0 := by have : 1 ≤ id := hid; omega
    show (if id = 0 then _ else _) = _
    rw [if_neg this]
  · have hb' : (if id = 0 then some (⟨false, [0]⟩ : Blk Byte) else none) = some b := hb
    split at hb'
    · cases hb'; rfl
    · cases hb'

/-- A history: two streams, the second a copy of the first; both written to; a third moved from the first, which is then given a new text. -/
def ops : List Op := [.ctor 0, .write 0 [97, 98], .copyCtor 1 0, .write 1 [99], .write 0 [100], .str 0, .moveCtor 2 0, .setStr 0 [101], .copyAssign 1 2,
  .write 1 [102]]

example : ∃ s v, Hist (0, 0) start (ops.map fun o => (o, true)) s v ∧ v 0 = .text [101] ∧ v 1 = .text [97, 98, 100, 102] ∧ v 2 = .text [97, 98, 100] ∧
    v 3 = .none := by
  refine ⟨_, _, .ok (.ok (.ok (.ok (.ok (.ok (.ok (.ok (.ok (.ok (.nil _) ?_ (a := ans) rfl) ?_ (a := ans) rfl) ?_ (a := ans) rfl) ?_ (a := ans) rfl) ?_
    (a := ans) rfl) ?_ (a := ans) rfl) ?_ (a := ans) rfl) ?_ (a := ans) rfl) ?_ (a := ans) rfl) ?_ (a := ans) rfl, ?_, ?_, ?_, ?_⟩
  · rfl
  · exact ⟨_, Or.inl rfl, by decide⟩
  · exact ⟨by decide, _, Or.inl (Or.inl rfl)⟩
  · exact ⟨_, Or.inl rfl, by decide⟩
  · exact ⟨_, Or.inl rfl, by decide⟩
  · exact ⟨_, Or.inl (Or.inl rfl)⟩
  · exact ⟨by decide, _, Or.inl (Or.inl rfl)⟩
  · exact ⟨by decide, by decide⟩
  · exact ⟨by decide, by decide, _, rfl⟩
  · exact ⟨_, Or.inl rfl, by decide⟩
  all_goals rfl

/-- And the program itself. -/
example : result (run start (ops ++ [.str 0])) 0 = some [101] ∧ result (run start (ops ++ [.str 1])) 1 = some [97, 98, 100, 102] ∧
    result (run start (ops ++ [.str 2])) 2 = some [97, 98, 100] := by decide +kernel

/-- A history with numbers: written behind a text, with a text behind them, moved, and written to again; the room that a number leaves is used. -/
def opsNum : List Op := [.ctor 0, .write 0 [97], .format 0 [52, 50], .write 0 [98, 99, 100], .moveCtor 1 0, .str 1, .format 1 [49], .setStr 0 [120],
  .copyCtor 2 0, .format 2 [50], .write 2 [121], .format 2 [51, 52]]

example : ∃ s v, Hist (0, 0) start (opsNum.map fun o => (o, true)) s v ∧ v 0 = .text [120] ∧ v 1 = .num [97, 52, 50, 98, 99, 100, 49] ∧
    v 2 = .num [120, 50, 121, 51, 52] := by
  refine ⟨_, _, .ok (.ok (.ok (.ok (.ok (.ok (.ok (.ok (.ok (.ok (.ok (.ok (.nil _) ?_ (a := ans) rfl) ?_ (a := ans) rfl) ?_ (a := ans) rfl) ?_
    (a := ans) rfl) ?_ (a := ans) rfl) ?_ (a := ans) rfl) ?_ (a := ans) rfl) ?_ (a := ans) rfl) ?_ (a := ans) rfl) ?_ (a := ans) rfl) ?_ (a := ans) rfl)
    ?_ (a := ans) rfl, ?_, ?_, ?_⟩
  · rfl
  · exact ⟨_, Or.inl rfl, by decide⟩
  · exact ⟨_, Or.inl rfl, by decide⟩
  · exact ⟨_, Or.inr rfl, by decide⟩
  · exact ⟨by decide, _, Or.inl (Or.inr rfl)⟩
  · exact ⟨_, Or.inl (Or.inr rfl)⟩
  · exact ⟨_, Or.inr rfl, by decide⟩
  · exact ⟨by decide, by decide⟩
  · exact ⟨by decide, _, Or.inl (Or.inl rfl)⟩
  · exact ⟨_, Or.inl rfl, by decide⟩
  · exact ⟨_, Or.inr rfl, by decide⟩
  · exact ⟨_, Or.inr rfl, by decide⟩
  all_goals rfl

example : result (run start (opsNum ++ [.str 1])) 1 = some [97, 52, 50, 98, 99, 100, 49] ∧
    result (run start (opsNum ++ [.str 2])) 2 = some [120, 50, 121, 51, 52] := by decide +kernel

/-- A history with copies of a stream that a number was written to: one taken after `str ()` and a text in the room left; the original gone; copied and
moved on, shown, and given a new text. -/
def opsSeen : List Op := [.ctor 0, .format 0 [52, 50], .copyCtor 1 0, .str 0, .write 0 [120], .copyCtor 2 0, .destroy 0, .str 2, .copyCtor 3 2, .moveCtor 4 1,
  .setStr 1 [121], .format 1 [122]]

example : ∃ s v, Hist (0, 0) start (opsSeen.map fun o => (o, true)) s v ∧ v 0 = .none ∧ v 1 = .num [121, 122] ∧ v 2 = .seen [52, 50, 120] ∧
    v 3 = .seen [52, 50, 120] ∧ v 4 = .seen [52, 50] := by
  refine ⟨_, _, .ok (.ok (.ok (.ok (.ok (.ok (.ok (.ok (.ok (.ok (.ok (.ok (.nil _) ?_ (a := ans) rfl) ?_ (a := ans) rfl) ?_ (a := ans) rfl) ?_
    (a := ans) rfl) ?_ (a := ans) rfl) ?_ (a := ans) rfl) ?_ (a := ans) rfl) ?_ (a := ans) rfl) ?_ (a := ans) rfl) ?_ (a := ans) rfl) ?_ (a := ans) rfl)
    ?_ (a := ans) rfl, ?_, ?_, ?_, ?_, ?_⟩
  · rfl
  · exact ⟨_, Or.inl rfl, by decide⟩
  · exact ⟨by decide, _, Or.inl (Or.inr rfl)⟩
  · exact ⟨_, Or.inl (Or.inr rfl)⟩
  · exact ⟨_, Or.inr rfl, by decide⟩
  · exact ⟨by decide, _, Or.inl (Or.inr rfl)⟩
  · unfold Pre; decide
  · exact ⟨_, Or.inr rfl⟩
  · exact ⟨by decide, _, Or.inr rfl⟩
  · exact ⟨by decide, _, Or.inr rfl⟩
  · exact ⟨by decide, by decide⟩
  · exact ⟨_, Or.inl rfl, by decide⟩
  all_goals rfl

example : [2, 3, 4].map (fun i => result (run start (opsSeen ++ [.str i])) i) = [some [52, 50, 120], some [52, 50, 120], some [52, 50]] := by decide +kernel

/-- No memory for the rest of a text behind a number: what fitted is written. -/
example : ∃ s1 s2, run start [.ctor 0, .format 0 [52, 50]] = some (true, s1) ∧ step (0, 0) s1 (.write 0 [97, 98]) (fun _ => .none) = some (false, s2) ∧
    (s1.os 0).pos = 2 ∧ (s2.os 0).pos = 3 := ⟨_, _, rfl, rfl, rfl, rfl⟩

/-- A stream assigned to itself. -/
example : result (run start [.ctor 0, .write 0 [97, 98], .copyAssign 0 0, .str 0]) 0 = some [] := by decide +kernel

/-- The temporary of `swap` is one more stream. -/
example : result (andThen (andThen (run start [.ctor 0, .ctor 1, .write 0 [97, 98], .write 1 [99]]) fun s => swap s 2 0 1) fun s => str (0, 0) s 0 ans) 0 =
    some [99] := by decide +kernel

/-- All destroyed: only the literal is left. -/
example : ∃ s v, Hist (0, 0) start ([Op.ctor 0, .write 0 [97], .destroy 0].map fun o => (o, true)) s v ∧ ∀ i, v i = .none := by
  refine ⟨_, _, .ok (.ok (.ok (.nil _) ?_ (a := ans) rfl) ?_ (a := ans) rfl) ?_ (a := ans) rfl, ?_⟩
  · rfl
  · exact ⟨_, Or.inl rfl, by decide⟩
  · unfold Pre; decide
  · intro i
    by_cases h : i = 0
    · subst h; rfl
    · simp [Op.apply, upd, h]

end Ustl.Text.Copy
