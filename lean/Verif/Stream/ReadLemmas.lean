import Verif.Stream.Lemmas
/-! # Binary streams: lemmas about reading -/
namespace Ustl.Stream

/-- Reading `e`, which begins at position `p` and has at least `r` bytes after it, gives `v` and moves the position
to the end of `e`. -/
def Reads {α : Type} (m : M IS α) (p : Nat) (e : List Byte) (r : Nat) (v : α) : Prop :=
  ∀ (s : IS) (pre post : List Byte), s.buf = pre ++ (e ++ post) → pre.length = p → s.pos = p → r ≤ post.length →
    s.buf.length + 8 ≤ W → m s = .ret v { s with pos := p + e.length }

theorem Reads.seq {α β : Type} {m : M IS α} {f : α → M IS β} {p r : Nat} {e e' : List Byte} {v : α} {w : β}
    (hm : Reads m p e (r + e'.length) v) (hf : Reads (f v) (p + e.length) e' r w) :
    Reads (m >>= f) p (e ++ e') r w := by
  intro s pre post hb hp hs hr hl
  have h1 := hm s pre (e' ++ post) (by rw [hb]; simp only [List.append_assoc]) hp hs
    (by simp only [List.length_append]; omega) hl
  rw [M.bind_ret h1]
  have h2 := hf { s with pos := p + e.length } (pre ++ e) post (by simp only [hb, List.append_assoc])
    (by simp only [List.length_append]; omega) rfl hr hl
  rw [h2]
  simp only [List.length_append, Nat.add_assoc]

theorem Reads.pure {α : Type} (v : α) (p r : Nat) : Reads (Pure.pure v) p [] r v := by
  intro s pre post _ _ hs _ _
  show Out.ret v s = _
  cases s; subst hs; rfl

/-- Sequencing with something that reads nothing. -/
theorem Reads.seq0 {α β : Type} {m : M IS α} {f : α → M IS β} {p r : Nat} {e : List Byte} {v : α} {w : β}
    (hm : Reads m p [] (r + e.length) v) (hf : Reads (f v) p e r w) : Reads (m >>= f) p e r w :=
  Reads.seq (e := []) hm hf

theorem Reads.map {α β : Type} {m : M IS α} {g : α → β} {p r : Nat} {e : List Byte} {v : α}
    (hm : Reads m p e r v) : Reads (m >>= fun a => Pure.pure (g a)) p e r (g v) := by
  have := Reads.seq (e' := []) (r := r) (f := fun a => Pure.pure (g a)) (by simpa using hm) (Reads.pure (g v) _ _)
  simpa using this

theorem IS.remaining_eq {s : IS} (h : s.pos ≤ s.buf.length) (hl : s.buf.length < W) :
    s.remaining = s.buf.length - s.pos := by
  unfold IS.remaining
  have : s.buf.length + W - s.pos = (s.buf.length - s.pos) + W := by omega
  rw [this, Nat.add_mod_right, Nat.mod_eq_of_lt (by omega)]

theorem IS.over_exn {α : Type} (a : α) (r : Nat) {s : IS} (he : s.ios.exc &&& 4 ≠ 0) :
    ∃ s', IS.over a r s = .exn s' := by
  unfold IS.over Ios.overrun
  have h6 : s.ios.exc &&& 6 ≠ 0 := by
    intro h; apply he
    have := Nat.and_assoc s.ios.exc 6 4
    rw [h, Nat.zero_and] at this
    exact this.symm
  by_cases hr : r % 2 ^ 32 ≠ 0
  · simp only [if_pos hr, decide_eq_true he]; exact ⟨_, rfl⟩
  · simp only [if_neg hr, decide_eq_true h6]; exact ⟨_, rfl⟩

theorem Reads.verify {n p r : Nat} (h : n ≤ r) : Reads (IS.verify n) p [] r true := by
  intro s pre post hb hp hs hr hl
  have hlen : s.buf.length = p + post.length := by rw [hb, List.nil_append, List.length_append, hp]
  unfold IS.verify
  rw [IS.remaining_eq (by omega) (by omega), if_pos (by omega)]
  cases s; simp only at hs; subst hs; rfl

theorem slice_at {pre e post b : List Byte} (hb : b = pre ++ (e ++ post)) :
    slice b pre.length e.length = some e := by
  subst hb
  unfold slice
  rw [if_pos (by simp only [List.length_append]; omega), List.drop_left, List.take_left]

theorem Reads.take {n p r : Nat} {e : List Byte} (h : e.length = n) : Reads (IS.take n) p e r e := by
  intro s pre post hb hp hs hr hl
  have hlen : s.buf.length = p + (e.length + post.length) := by rw [hb, List.length_append, List.length_append, hp]
  unfold IS.take
  rw [hs, ← hp, ← h, slice_at hb]
  show Out.ret e _ = _
  rw [Nat.mod_eq_of_lt (by omega)]

theorem Reads.guarded {α : Type} {n p r : Nat} {e : List Byte} {v : α} {f g : M IS α} (h : n ≤ e.length + r)
    (hf : Reads f p e r v) :
    Reads (IS.verify n >>= fun b => if b = true then f else g) p e r v :=
  Reads.seq0 (Reads.verify (by omega)) (by simpa using hf)

theorem Reads.read {old : List Byte} {n p r : Nat} {e : List Byte} (h : e.length = n) : Reads (IS.read old n) p e r e :=
  Reads.guarded (by omega) (Reads.take h)

theorem Reads.iread {old : List Byte} {n p r : Nat} {e : List Byte} (h : e.length = n) :
    Reads (IS.iread old n) p e r e :=
  Reads.guarded (by omega) (Reads.take h)

theorem Reads.int {n p r v old : Nat} (h : v < 256 ^ n) : Reads (IS.readInt n old) p (leBytes n v) r v := by
  refine Reads.guarded (by rw [leBytes_length]; omega) ?_
  have := Reads.map (g := leVal) (Reads.take (n := n) (p := p) (r := r) (leBytes_length n v))
  rwa [leVal_leBytes n v h] at this

theorem Reads.align {g p r : Nat} (hg : Grain g) : Reads (IS.align g) p (List.replicate (pad p g) 0) r () := by
  intro s pre post hb hp hs hr hl
  have hlen : s.buf.length = p + (pad p g + post.length) := by
    rw [hb, List.length_append, List.length_append, List.length_replicate, hp]
  have hpad := pad_lt (p := p) hg
  unfold IS.align IS.seek
  rw [if_neg (by rcases hg with h | h | h | h <;> omega), hs, align_eq hg (by omega), if_neg (by omega), List.length_replicate]

theorem Reads.bool {junk : List Byte} {p r : Nat} (b : Bool) : Reads (readBool junk) p [bif b then 1 else 0] r b := by
  have e : leBytes 1 (bif b then 1 else 0) = [bif b then 1 else 0] := by cases b <;> simp [leBytes]
  have e2 : toBool (bif b then 1 else 0) = b := by cases b <;> rfl
  have h := Reads.map (g := toBool)
    (Reads.int (n := 1) (p := p) (r := r) (v := bif b then 1 else 0) (old := (junk.headD 0).toNat)
      (by cases b <;> simp))
  rw [e, e2] at h
  exact h

theorem sext_eq {v : Nat} (h : v < 2 ^ 31) : sext v = v := by unfold sext; rw [if_pos h]

theorem Reads.str {junk old v : List Byte} {p r : Nat} (h : v.length < 2 ^ 31) :
    Reads (readStr junk old) p (encStr v) r v := by
  have ho := Utf8.out_is_table _ h
  obtain ⟨it, h1, h2, _, _, c, tl, hc, hlen⟩ := Utf8.read_back _ h _ ho [] (junk.drop (1 + (Utf8.table v.length).length - 1))
  unfold encStr
  rw [hc] at h1 hlen ⊢
  have hsz : Utf8.seqBytes c.toNat - 1 = tl.length := by rw [hlen]; rfl
  have e1 : c :: tl ++ v = [c] ++ (tl ++ v) := rfl
  rw [e1]
  unfold readStr
  refine Reads.seq (v := [c]) (Reads.iread rfl) ?_
  rw [show lenMore [c] = tl.length from hsz]
  unfold strTail
  refine Reads.guarded (by simp only [List.length_append]; omega) ?_
  refine Reads.seq (v := tl) (Reads.read rfl) ?_
  have e2 : Utf8.read ([c] ++ tl ++ junk.drop (1 + tl.length)) 0 = some it := by
    rw [← h1]
    simp only [List.length_cons, List.nil_append, List.length_nil, List.cons_append]
    congr 4
  unfold strDecode
  rw [e2]
  simp only [h2, sext_eq h]
  unfold strBody
  refine Reads.guarded (by omega) (Reads.read rfl)

theorem Reads.blk {old v : List Byte} {p r : Nat} (h : v.length < 2 ^ 32) :
    Reads (readBlk old) p (encBlk v p) r v := by
  unfold readBlk encBlk
  refine Reads.seq (v := v.length) (Reads.int (by simpa using h)) ?_
  rw [leBytes_length]
  unfold blkBody
  refine Reads.guarded (by simp only [List.length_append]; omega) ?_
  refine Reads.seq (v := v) (Reads.read rfl) ?_
  exact Reads.map (g := fun _ => v) (Reads.align (by simp [Grain]))

/-- Every size check made while reading a list of elements passes. -/
def chkAll {α : Type} (c : α → Nat → Nat → Prop) (e : α → Nat → List Byte) : List α → Nat → Nat → Prop
  | [], _, _ => True
  | x :: xs, p, r => c x p (r + (encAll e xs (p + (e x p).length)).length) ∧ chkAll c e xs (p + (e x p).length) r

/-- Every size check made while reading a pair passes. -/
def chkPair {α β : Type} (ga gb : Nat) (ea : α → Nat → List Byte) (eb : β → Nat → List Byte)
    (ca : α → Nat → Nat → Prop) (cb : β → Nat → Nat → Prop) (v : α × β) (p r : Nat) : Prop :=
  let p1 := p + (ea v.1 p).length
  let p2 := p1 + pad p1 gb
  let e2 := eb v.2 p2
  let p3 := p2 + e2.length
  ca v.1 p (r + (pad p1 gb + (e2.length + pad p3 ga))) ∧ cb v.2 p2 (r + pad p3 ga)

/-- Every size check made while reading a vector passes, the vector's own among them. -/
def chkVec {α : Type} (g k : Nat) (e : α → Nat → List Byte) (c : α → Nat → Nat → Prop) (v : List α) (p r : Nat) : Prop :=
  let q := if g > 4 then pad (p + 4) g else 0
  let p2 := p + 4 + q
  let n := (encAll e v p2).length
  v.length * k ≤ q + (n + pad (p2 + n) 4) + r ∧ chkAll c e v p2 (r + pad (p2 + n) 4)

/-- Every size check made while reading `v` from position `p`, with `r` bytes behind it, passes. -/
def chk : (t : Ty) → Val t → Nat → Nat → Prop
  | .int _, _, _, _ => True
  | .bool, _, _, _ => True
  | .raw _ _, _, _, _ => True
  | .str, _, _, _ => True
  | .blk, _, _, _ => True
  | .pair a b, v, p, r => chkPair (al a) (al b) (enc a) (enc b) (chk a) (chk b) v p r
  | .arr _ t, v, p, r => chkAll (chk t) (enc t) v p r
  | .vec t, v, p, r => chkVec (al t) (ss t (dflt t)) (enc t) (chk t) v p r

theorem Reads.pair {α β : Type} {ga gb p r : Nat} {ra : α → M IS α} {rb : β → M IS β} {ea : α → Nat → List Byte}
    {eb : β → Nat → List Byte} {ca : α → Nat → Nat → Prop} {cb : β → Nat → Nat → Prop} {old v : α × β}
    (ha : Grain ga) (hb : Grain gb)
    (h1 : ∀ p r, ca v.1 p r → Reads (ra old.1) p (ea v.1 p) r v.1)
    (h2 : ∀ p r, cb v.2 p r → Reads (rb old.2) p (eb v.2 p) r v.2)
    (hc : chkPair ga gb ea eb ca cb v p r) :
    Reads (readPair ga gb ra rb old) p (encPair ga gb ea eb v p) r v := by
  unfold readPair encPair
  unfold chkPair at hc
  simp only at hc ⊢
  refine Reads.seq (v := v.1) (h1 _ _ (by simpa only [List.length_append, List.length_replicate] using hc.1)) ?_
  refine Reads.seq (v := ()) (Reads.align hb) ?_
  rw [List.length_replicate]
  refine Reads.seq (v := v.2) (h2 _ _ (by simpa only [List.length_replicate] using hc.2)) ?_
  exact Reads.map (g := fun _ => (v.1, v.2)) (Reads.align ha)

theorem Reads.all {α : Type} {rd : α → M IS α} {e : α → Nat → List Byte} {c : α → Nat → Nat → Prop} :
    ∀ (vs olds : List α) (p r : Nat), olds.length = vs.length →
      (∀ v o, v ∈ vs → o ∈ olds → ∀ p r, c v p r → Reads (rd o) p (e v p) r v) → chkAll c e vs p r →
      Reads (readAll rd olds) p (encAll e vs p) r vs
  | [], [], p, r, _, _, _ => Reads.pure [] p r
  | [], _ :: _, _, _, h, _, _ => by simp at h
  | _ :: _, [], _, _, h, _, _ => by simp at h
  | v :: vs, o :: os, p, r, hl, h, hc => by
    have h1 := h v o (List.mem_cons_self ..) (List.mem_cons_self ..) p _ hc.1
    have h2 := Reads.all vs os (p + (e v p).length) r (by simpa using hl)
      (fun x y hx hy => h x y (List.mem_cons_of_mem _ hx) (List.mem_cons_of_mem _ hy)) hc.2
    exact Reads.seq (v := v) h1 (Reads.map (g := fun ys => v :: ys) h2)

theorem resize_length {α : Type} (d : α) (v : List α) (n : Nat) : (resize d v n).length = n := by
  unfold resize; simp only [List.length_append, List.length_take, List.length_replicate]; omega

theorem mem_resize {α : Type} {d x : α} {v : List α} {n : Nat} (h : x ∈ resize d v n) : x ∈ v ∨ x = d := by
  unfold resize at h
  rcases List.mem_append.1 h with h | h
  · exact Or.inl (List.mem_of_mem_take h)
  · exact Or.inr (List.eq_of_mem_replicate h)

theorem mul64_le (n k : Nat) : mul64 n k ≤ n * k := Nat.mod_le _ _

theorem Reads.vecRest {α : Type} {g b p r : Nat} {rd : α → M IS α} {e : α → Nat → List Byte}
    {c : α → Nat → Nat → Prop} {d : α} {old v : List α} (hg : Grain g)
    (h : ∀ x o, x ∈ v → (o ∈ old ∨ o = d) → ∀ p r, c x p r → Reads (rd o) p (e x p) r x)
    (hb : b ≤ (if g > 4 then pad p g else 0) + ((encAll e v (p + if g > 4 then pad p g else 0)).length +
      pad ((p + if g > 4 then pad p g else 0) + (encAll e v (p + if g > 4 then pad p g else 0)).length) 4) + r)
    (hc : chkAll c e v (p + if g > 4 then pad p g else 0)
      (r + pad ((p + if g > 4 then pad p g else 0) + (encAll e v (p + if g > 4 then pad p g else 0)).length) 4)) :
    Reads (Stream.vecRest g b v.length d rd old) p (List.replicate (if g > 4 then pad p g else 0) 0 ++
      (encAll e v (p + if g > 4 then pad p g else 0) ++ List.replicate
        (pad ((p + if g > 4 then pad p g else 0) + (encAll e v (p + if g > 4 then pad p g else 0)).length) 4) 0)) r v := by
  unfold Stream.vecRest
  refine Reads.guarded (by simp only [List.length_append, List.length_replicate]; omega) ?_
  have key : ∀ q, chkAll c e v (p + q) (r + pad (p + q + (encAll e v (p + q)).length) 4) →
      Reads (readAll rd (resize d old v.length) >>= fun w => IS.align 4 >>= fun _ => Pure.pure w) (p + q)
        (encAll e v (p + q) ++ List.replicate (pad (p + q + (encAll e v (p + q)).length) 4) 0) r v := by
    intro q hq
    refine Reads.seq (v := v) (Reads.all v _ _ _ (resize_length ..) (fun x o hx ho => h x o hx (mem_resize ho))
      (by simpa only [List.length_replicate] using hq)) ?_
    exact Reads.map (g := fun _ => v) (Reads.align (by simp [Grain]))
  by_cases ha : g > 4
  · simp only [if_pos ha] at hc ⊢
    refine Reads.seq (v := ()) (Reads.align hg) ?_
    rw [List.length_replicate]
    exact key _ hc
  · simp only [if_neg ha] at hc ⊢
    exact key 0 hc

theorem Reads.vec {α : Type} {g k p r : Nat} {rd : α → M IS α} {e : α → Nat → List Byte} {c : α → Nat → Nat → Prop}
    {d : α} {old v : List α} (hg : Grain g) (hn : v.length < 2 ^ 32)
    (h : ∀ x o, x ∈ v → (o ∈ old ∨ o = d) → ∀ p r, c x p r → Reads (rd o) p (e x p) r x)
    (hc : chkVec g k e c v p r) :
    Reads (readVec g k d rd old) p (encVec g e v p) r v := by
  unfold readVec encVec
  unfold chkVec at hc
  simp only at hc ⊢
  have hk : mul64 v.length k ≤ v.length * k := mul64_le _ _
  have h2 := Reads.vecRest (b := mul64 v.length k) (p := p + 4) (r := r) hg h (Nat.le_trans hk hc.1) hc.2
  have h1 : ∀ e' : List Byte, Reads (IS.readInt 4 0) p (leBytes 4 v.length) (r + e'.length) v.length := fun e' =>
    Reads.int (by simpa using hn)
  have hl : (leBytes 4 v.length).length = 4 := leBytes_length _ _
  rw [← hl] at h2
  exact Reads.seq (f := fun n => Stream.vecRest g (mul64 n k) n d rd old) (h1 _) h2

theorem shape_dflt : ∀ t : Ty, Shape t (dflt t)
  | .int _ => trivial
  | .bool => trivial
  | .raw _ _ => trivial
  | .str => trivial
  | .blk => trivial
  | .pair a b => ⟨shape_dflt a, shape_dflt b⟩
  | .arr n t => ⟨List.length_replicate, fun x hx => by
      have : x = dflt t := List.eq_of_mem_replicate (n := n) hx
      rw [this]; exact shape_dflt t⟩
  | .vec t => fun x hx => nomatch hx

/-- `is >> v` reads back the bytes of the format if every size check passes. -/
theorem read_reads (junk : List Byte) : ∀ (t : Ty) (old v : Val t) (p r : Nat), WfTy t → Okv t v → Shape t old →
    chk t v p r → Reads (read junk t old) p (enc t v p) r v
  | .int n, _, _, _, _, _, hv, _, _ => Reads.int (n := n) hv
  | .bool, _, v, _, _, _, _, _, _ => Reads.bool v
  | .raw n _, _, _, _, _, _, hv, _, _ => Reads.iread hv
  | .str, _, _, _, _, _, hv, _, _ => Reads.str (okv_str hv)
  | .blk, _, _, _, _, _, hv, _, _ => Reads.blk (okv_blk hv)
  | .pair a b, old, v, p, r, ht, hv, ho, hc =>
    Reads.pair (al_grain ht.1) (al_grain ht.2)
      (fun p r h => read_reads junk a _ _ p r ht.1 (okv_pair hv).1 ho.1 h)
      (fun p r h => read_reads junk b _ _ p r ht.2 (okv_pair hv).2 ho.2 h) hc
  | .arr _ t, old, v, p, r, ht, hv, ho, hc =>
    Reads.all (α := Val t) v old p r (ho.1.trans (okv_arr hv).1.symm)
      (fun x o hx hy p r h => read_reads junk t o x p r ht ((okv_arr hv).2 x hx) (ho.2 o hy) h) hc
  | .vec t, old, v, p, r, ht, hv, ho, hc =>
    Reads.vec (α := Val t) (al_grain ht) (okv_vec hv).1
      (fun x o hx hy p r h => read_reads junk t o x p r ht ((okv_vec hv).2 x hx)
        (by rcases hy with hy | hy
            · exact ho o hy
            · rw [hy]; exact shape_dflt t) h) hc

end Ustl.Stream
