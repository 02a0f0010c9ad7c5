import Verif.Str.Spec
import Verif.Memblock.Props
import Verif.Memblock.Block
/-!
# Lemmas for string editing
-/
namespace Ustl.Str
open Ustl.Memblock

variable {lit : Nat × Nat} {rot : List Byte → Nat → Nat → Nat → Option (List Byte)}

/-- String object `o` holds the characters `s`, followed by NUL. -/
structure SRep (h : Heap Byte) (o : Obj) (s : List Byte) : Prop where
  ook : OOK h o
  size : o.size = s.length
  read : ld h o.ptr (s.length + 1) = some (s ++ [0])

/-- `o` owns block `id` with contents `bs`. -/
structure Own (h : Heap Byte) (o : Obj) (id : Nat) (bs : List Byte) : Prop where
  cap : o.cap ≠ 0
  ptr : o.ptr = some (id, 0)
  blk : h.blk id = some ⟨true, bs⟩
  len : bs.length = o.cap
  size : o.size ≤ o.cap

theorem own_of {h : Heap Byte} {o : Obj} (ho : OOK h o) (hc : o.cap ≠ 0) : ∃ id bs, Own h o id bs := by
  obtain ⟨id, ⟨t, bs⟩, h1, h2, h3, h4, h5⟩ := ho.owned hc
  simp only at h3 h4
  subst h3
  exact ⟨id, bs, hc, h1, h2, h4, h5⟩

theorem Own.view {h : Heap Byte} {o : Obj} {id : Nat} {bs : List Byte} (ho : Own h o id bs) :
    view h o = bs.take o.size := view_owned ho.ptr ho.blk

theorem ld_own {h : Heap Byte} {o : Obj} {id : Nat} {bs : List Byte} (ho : Own h o id bs) {n : Nat}
    (hn : n ≤ bs.length) : ld h o.ptr n = some (bs.take n) := by
  unfold ld
  split
  · rename_i h0; subst h0; simp
  · rw [ho.ptr]
    simp only [ho.blk]
    rw [if_pos (by omega)]
    simp

theorem Own.srep {h : Heap Byte} {o : Obj} {id : Nat} {bs s : List Byte} (ho : Own h o id bs)
    (hs : o.size = s.length) (ht : bs.take (s.length + 1) = s ++ [0]) : SRep h o s := by
  have hl : s.length + 1 ≤ bs.length := by
    have := congrArg List.length ht
    simp at this; omega
  refine ⟨⟨fun _ => ⟨id, _, ho.ptr, ho.blk, rfl, ho.len, ho.size⟩, fun hc => absurd hc ho.cap⟩, hs, ?_⟩
  rw [ld_own ho hl, ht]

theorem SRep.view {h : Heap Byte} {o : Obj} {s : List Byte} (r : SRep h o s) : view h o = s := by
  have h1 := r.read
  unfold ld at h1
  rw [if_neg (by omega)] at h1
  unfold Memblock.view
  cases hp : o.ptr with
  | none => rw [hp] at h1; cases h1
  | some p =>
    rw [hp] at h1
    simp only at h1 ⊢
    cases hb : h.blk p.1 with
    | none => rw [hb] at h1; cases h1
    | some b =>
      rw [hb] at h1
      simp only at h1 ⊢
      split at h1
      · have := congrArg (List.take s.length) (Option.some.inj h1)
        rw [r.size]
        simpa [List.take_take] using this
      · cases h1

theorem SRep.own {h : Heap Byte} {o : Obj} {s : List Byte} (r : SRep h o s) (hc : o.cap ≠ 0) :
    ∃ id bs, Own h o id bs ∧ bs.take (s.length + 1) = s ++ [0] ∧ s.length + 1 ≤ bs.length := by
  obtain ⟨id, bs, ho⟩ := own_of r.ook hc
  have h1 := r.read
  have hl : s.length + 1 ≤ bs.length := by
    unfold ld at h1
    rw [if_neg (by omega), ho.ptr] at h1
    simp only [ho.blk] at h1
    split at h1
    · omega
    · cases h1
  rw [ld_own ho hl] at h1
  exact ⟨id, bs, ho, Option.some.inj h1, hl⟩

/-- Replace part of a list. -/
def patch (bs : List Byte) (k : Nat) (xs : List Byte) : List Byte := bs.take k ++ xs ++ bs.drop (k + xs.length)

theorem patch_length {bs xs : List Byte} {k : Nat} (hk : k + xs.length ≤ bs.length) :
    (patch bs k xs).length = bs.length := by
  simp only [patch, List.length_append, List.length_take, List.length_drop]; omega

theorem st_own {h : Heap Byte} {o : Obj} {id : Nat} {bs xs : List Byte} {k : Nat} (hh : HOK h)
    (ho : Own h o id bs) (hk : k + xs.length ≤ bs.length) :
    ∃ h', st h (adv o.ptr k) xs = some h' ∧ Eff h o h' o ∧ Own h' o id (patch bs k xs) := by
  have hook : OOK h o := ⟨fun _ => ⟨id, _, ho.ptr, ho.blk, rfl, ho.len, ho.size⟩, fun hc => absurd hc ho.cap⟩
  refine ⟨h.setBlk id (some ⟨true, patch bs k xs⟩), ?_, ?_, ?_⟩
  · rw [ho.ptr]
    have e : bs = bs.take k ++ (bs.drop k).take xs.length ++ bs.drop (k + xs.length) := by
      rw [← List.take_add, List.take_append_drop]
    have := st_at (h := h) (id := id) (A := bs.take k) (B := (bs.drop k).take xs.length)
      (C := bs.drop (k + xs.length)) (xs := xs) (k := 0 + k) (by rw [ho.blk]; congr 2) (by simp; omega) (by simp; omega)
    exact this
  · exact eff_set hh hook ho.cap ho.ptr ho.blk rfl _ (patch_length hk)
  · exact ⟨ho.cap, ho.ptr, setBlk_get _, by rw [patch_length hk, ho.len], ho.size⟩

theorem thenStore_own {h h1 : Heap Byte} {o o1 : Obj} {id : Nat} {bs xs : List Byte} {k : Obj → Nat} {r : Res}
    (hr : r = some (true, h1, o1)) (e : Eff h o h1 o1) (ho : Own h1 o1 id bs) (hk : k o1 + xs.length ≤ bs.length) :
    ∃ h2, thenStore r k xs = some (true, h2, o1) ∧ Eff h o h2 o1 ∧ Own h2 o1 id (patch bs (k o1) xs) := by
  obtain ⟨h2, h3, h4, h5⟩ := st_own e.hok ho hk
  exact ⟨h2, by subst hr; simp only [thenStore, h3], e.trans h4, h5⟩

theorem thenStore_nil {h1 : Heap Byte} {o1 : Obj} {k : Obj → Nat} {r : Res}
    (hr : r = some (true, h1, o1)) : thenStore r k [] = some (true, h1, o1) := by
  subst hr; simp [thenStore, st]

/-- The result of an operation on a string holding `s`: it completes and the string holds `s'`, or the
allocator failed and nothing changed. -/
def Done (h : Heap Byte) (o : Obj) (a : Option (Nat → Byte)) (r : Res) (P : Heap Byte → Obj → Prop) : Prop :=
  (a = none ∧ r = some (false, h, o)) ∨ ∃ h' o', r = some (true, h', o') ∧ Eff h o h' o' ∧ P h' o'

theorem Done.mono {h : Heap Byte} {o : Obj} {a : Option (Nat → Byte)} {r : Res} {P Q : Heap Byte → Obj → Prop}
    (d : Done h o a r P) (hpq : ∀ h' o', P h' o' → Q h' o') : Done h o a r Q := by
  rcases d with d | ⟨h', o', d1, d2, d3⟩
  · exact Or.inl d
  · exact Or.inr ⟨h', o', d1, d2, hpq _ _ d3⟩

theorem Done.store {h : Heap Byte} {o : Obj} {a : Option (Nat → Byte)} {r : Res} {P : Heap Byte → Obj → Prop}
    {Q : Heap Byte → Obj → Prop} {k : Obj → Nat} {xs : List Byte}
    (d : Done h o a r P)
    (hpq : ∀ h1 o1, Eff h o h1 o1 → P h1 o1 → (xs = [] ∧ Q h1 o1) ∨ ∃ id bs, Own h1 o1 id bs ∧
      k o1 + xs.length ≤ bs.length ∧ ∀ h2, Own h2 o1 id (patch bs (k o1) xs) → Q h2 o1) :
    Done h o a (thenStore r k xs) Q := by
  rcases d with ⟨d1, d2⟩ | ⟨h', o', d1, d2, d3⟩
  · left; exact ⟨d1, by rw [d2]; rfl⟩
  · right
    rcases hpq h' o' d2 d3 with ⟨rfl, q⟩ | ⟨id, bs, q1, q2, q3⟩
    · exact ⟨h', o', thenStore_nil d1, d2, q⟩
    · obtain ⟨h2, k1, k2, k3⟩ := thenStore_own d1 d2 q1 q2
      exact ⟨h2, o', k1, k2, q3 h2 k3⟩

/-- The literal `""` is there. -/
abbrev HasLit (lit : Nat × Nat) (h : Heap Byte) : Prop := CString h lit 0

theorem CString.padded {h : Heap Byte} {p : Nat × Nat} {n : Nat} (c : CString h p n) : PaddedForeign h p n := by
  obtain ⟨b, h1, h2, h3⟩ := c
  refine ⟨b, h1, h2, ?_⟩
  rcases Nat.lt_or_ge (p.2 + n) b.bytes.length with hn | hn
  · exact hn
  · rw [List.getElem?_eq_none hn] at h3
    cases h3

theorem CString.srep {h : Heap Byte} {p : Nat × Nat} {n : Nat} (c : CString h p n) :
    SRep h ⟨some p, n, 0⟩ (foreign h p n) := by
  have hp := c.padded
  obtain ⟨b, h1, h2, h3⟩ := c
  obtain ⟨b', h1', h2', h3'⟩ := hp
  rw [h1] at h1'; cases h1'
  have hl : (foreign h p n).length = n := by simp [foreign, h1]; omega
  refine ⟨⟨fun hc => absurd rfl hc, fun _ => Or.inr ⟨p, rfl, b, h1, h2, h3'⟩⟩, hl.symm, ?_⟩
  unfold ld
  rw [if_neg (by omega)]
  simp only [h1, hl]
  rw [if_pos (by omega)]
  simp only [foreign, h1]
  congr 1
  rw [List.take_add_one]
  congr 1
  rw [List.getElem?_drop, h3]; rfl

theorem take_patch_end {bs xs : List Byte} {k : Nat} (hk : k + xs.length ≤ bs.length) :
    (patch bs k xs).take (k + xs.length) = bs.take k ++ xs := by
  unfold patch
  rw [List.take_append_of_le_length (by simp; omega), List.take_of_length_le (by simp; omega)]

/-- `resize (n)`. -/
theorem resize_s {h : Heap Byte} {o : Obj} (n : Nat) (a : Option (Nat → Byte)) (hh : HOK h) (ho : OOK h o)
    (hl : HasLit lit h) :
    Done h o a (resize lit h o n a) fun h' o' => ∃ t, Resized (view h o) t n ∧ SRep h' o' t ∧
      (n ≠ 0 → o'.cap ≠ 0) := by
  unfold resize
  split
  · rename_i hc
    right
    refine ⟨h, ⟨some lit, 0, 0⟩, by rw [hc.2], ?_, [], ⟨by simp [hc.1], by simp [hc.1]⟩, ?_, by simp [hc.1]⟩
    · have hr := hl.srep
      exact ⟨⟨hh, hr.ook, fun _ _ _ => rfl, Nat.le_refl _, fun h => absurd rfl h, fun _ _ h _ => h⟩,
        fun id b h1 h2 => Or.inr ⟨⟨b, h1, h2⟩, fun h => h.1 hc.2⟩⟩
    · have hr := hl.srep
      have : foreign h lit 0 = [] := by
        have := hr.size; exact List.length_eq_zero_iff.1 this.symm
      rw [this] at hr
      exact hr
  · have d : Done h o a (Memblock.resize 1 h o n true a) fun h' o' =>
        Resized (view h o) (view h' o') n ∧ o'.size = n ∧ n + 1 ≤ o'.cap := by
      obtain ⟨ok, h1, o1, e1, e2, e3, e4⟩ := resize_spec 1 (h := h) (o := o) n true a hh ho (by simp)
      cases ok with
      | false => left; obtain ⟨rfl, rfl, h3⟩ := e2 rfl; exact ⟨h3, e1⟩
      | true => right; exact ⟨h1, o1, e1, e3, (e4 rfl).1, (e4 rfl).2.1, (e4 rfl).2.2.1⟩
    apply d.store
    intro h1 o1 e ⟨q1, q2, q3⟩
    right
    obtain ⟨id, bs, own⟩ := own_of e.ook (by omega)
    refine ⟨id, bs, own, by rw [own.len]; simpa using q3, ?_⟩
    intro h2 own2
    rw [own.view] at q1
    refine ⟨bs.take o1.size, q1, ?_, fun _ => own.cap⟩
    have hn := own.len
    refine own2.srep (by simp; omega) ?_
    have := take_patch_end (bs := bs) (k := n) (xs := [0]) (by simp; omega)
    simp only [List.length_take, q2] at this ⊢
    rw [show min n bs.length = n by omega]
    exact this

theorem patch_zero {bs xs : List Byte} (hk : xs.length ≤ bs.length) : (patch bs 0 xs).take xs.length = xs := by
  have := take_patch_end (bs := bs) (k := 0) (xs := xs) (by omega)
  simpa using this

theorem patch_get {bs xs : List Byte} {k i : Nat} (hk : k + xs.length ≤ bs.length) (hi : k + xs.length ≤ i) :
    (patch bs k xs)[i]? = bs[i]? := by
  unfold patch
  rw [List.getElem?_append_right (by simp; omega), List.getElem?_drop]
  congr 1
  simp; omega

theorem take_patch_drop {bs xs : List Byte} {k n : Nat} (hk : k + xs.length ≤ n) (hn : n ≤ bs.length) :
    (patch bs k xs).take n = (bs.take n).take k ++ xs ++ (bs.take n).drop (k + xs.length) := by
  unfold patch
  rw [List.take_append, List.take_of_length_le (by simp; omega), List.take_take, Nat.min_eq_left (by omega),
    List.drop_take]
  congr 2
  simp; omega

theorem done_fin {h : Heap Byte} {o : Obj} {a : Option (Nat → Byte)} {r : Res} {s : List Byte} {k : Nat}
    {xs : List Byte} (n : Nat) (hk : k + xs.length ≤ n) {P : Heap Byte → Obj → Prop}
    (d : Done h o a r P) (hp : ∀ h' o', P h' o' → ∃ t, t.length = n ∧ SRep h' o' t ∧ (xs ≠ [] → o'.cap ≠ 0) ∧
      t.take k ++ xs ++ t.drop (k + xs.length) = s) (f : Obj → Nat) (hf : ∀ h' o', P h' o' → f o' = k) :
    Done h o a (thenStore r f xs) fun h' o' => SRep h' o' s ∧ (xs ≠ [] → o'.cap ≠ 0) := by
  apply d.store
  intro h1 o1 e hP
  obtain ⟨t, q1, q2, q3, q4⟩ := hp h1 o1 hP
  rw [hf h1 o1 hP]
  by_cases hx : xs = []
  · left
    subst hx
    refine ⟨rfl, ?_, fun h => absurd rfl h⟩
    have : t = s := by simpa using q4
    rw [← this]; exact q2
  · right
    obtain ⟨id, bs, own, h3, h4⟩ := q2.own (q3 hx)
    refine ⟨id, bs, own, by omega, fun h2 own2 => ⟨?_, fun _ => own.cap⟩⟩
    have hsl : s.length = t.length := by rw [← q4]; simp; omega
    have ht : bs.take t.length = t := by
      have := congrArg (List.take t.length) h3
      simpa [List.take_take] using this
    refine own2.srep (by rw [q2.size, hsl]) ?_
    rw [hsl, List.take_add_one, patch_get (by omega) (by omega), take_patch_drop (by omega) (by omega), ht, q4]
    congr 1
    have := congrArg (fun l => l[t.length]?) h3
    simp only [List.getElem?_append_right (Nat.le_refl _), List.getElem?_take] at this
    rw [if_pos (by omega)] at this
    rw [this]; simp

theorem resizeFill_s {h : Heap Byte} {o : Obj} {s : List Byte} (n : Nat) (c : Byte) (a : Option (Nat → Byte)) (hh : HOK h)
    (r : SRep h o s) (hl : HasLit lit h) :
    Done h o a (resizeFill lit h o n c a) fun h' o' => SRep h' o' (s.take n ++ List.replicate (n - s.length) c) := by
  unfold resizeFill
  have d := resize_s (lit := lit) n a hh r.ook hl
  rw [r.view] at d
  have := done_fin (s := s.take n ++ List.replicate (n - s.length) c) (k := min s.length n)
    (xs := List.replicate (n - o.size) c) n (by rw [r.size]; simp; omega) d ?_ (fun o1 => min o.size o1.size) ?_
  · exact this.mono fun _ _ h => h.1
  · rintro h' o' ⟨t, ⟨q1, q1'⟩, q2, q3⟩
    refine ⟨t, q1, q2, ?_, ?_⟩
    · intro hx; apply q3; rintro rfl; simp at hx
    · rw [r.size, List.drop_of_length_le (by simp; omega), List.append_nil]
      congr 1
      rw [← q1', ← q1]
      apply List.take_eq_take_iff.2; omega
  · rintro h' o' ⟨t, ⟨q1, q1'⟩, q2, q3⟩
    simp only [r.size, q2.size, q1]

theorem assign_s {h : Heap Byte} {o : Obj} (xs : List Byte) (a : Option (Nat → Byte)) (hh : HOK h)
    (ho : OOK h o) (hl : HasLit lit h) : Done h o a (assign lit h o xs a) fun h' o' => SRep h' o' xs := by
  unfold assign
  have d := resize_s (lit := lit) xs.length a hh ho hl
  have := done_fin (s := xs) (k := 0) (xs := xs) xs.length (by omega) d ?_ (fun _ => 0) (fun _ _ _ => rfl)
  · exact this.mono fun _ _ h => h.1
  · rintro h' o' ⟨t, ⟨q1, q1'⟩, q2, q3⟩
    refine ⟨t, q1, q2, fun hx => q3 (by simpa using hx), ?_⟩
    rw [List.drop_of_length_le (by omega)]; simp

theorem append_s {h : Heap Byte} {o : Obj} {s : List Byte} (xs : List Byte) (a : Option (Nat → Byte)) (hh : HOK h)
    (r : SRep h o s) (hl : HasLit lit h) : Done h o a (append lit h o xs a) fun h' o' => SRep h' o' (s ++ xs) := by
  unfold append
  have d := resize_s (lit := lit) (o.size + xs.length) a hh r.ook hl
  rw [r.view] at d
  have := done_fin (s := s ++ xs) (k := s.length) (xs := xs) (o.size + xs.length) (by rw [r.size]; exact Nat.le_refl _) d ?_
    (fun o1 => o1.size - xs.length) ?_
  · exact this.mono fun _ _ h => h.1
  · rintro h' o' ⟨t, ⟨q1, q1'⟩, q2, q3⟩
    refine ⟨t, q1, q2, ?_, ?_⟩
    · intro hx; apply q3; have : xs.length ≠ 0 := by simpa using hx
      omega
    · rw [List.drop_of_length_le (by rw [q1, r.size]; omega), q1', r.size, List.take_of_length_le (by omega)]; simp
  · rintro h' o' ⟨t, ⟨q1, q1'⟩, q2, q3⟩
    simp only [q2.size, q1, r.size]; omega

theorem popBack_s {h : Heap Byte} {o : Obj} {s : List Byte} (a : Option (Nat → Byte)) (hh : HOK h)
    (r : SRep h o s) (hl : HasLit lit h) (hs : s ≠ []) :
    Done h o a (popBack lit h o a) fun h' o' => SRep h' o' s.dropLast := by
  have hs' : s.length ≠ 0 := by simpa using hs
  unfold popBack
  rw [if_neg (by rw [r.size]; exact hs')]
  refine (resize_s (lit := lit) (o.size - 1) a hh r.ook hl).mono ?_
  rintro h' o' ⟨t, ⟨q1, q1'⟩, q2, q3⟩
  rw [r.view, r.size] at q1'
  rw [r.size] at q1
  have : t = s.dropLast := by
    rw [List.dropLast_eq_take, ← q1', List.take_of_length_le (by omega)]
  rw [← this]; exact q2

/-- After `memblock::insert` or `erase` and storing the text, the terminator is stored. -/
theorem term_s {h : Heap Byte} {o : Obj} {a : Option (Nat → Byte)} {r : Res} {s : List Byte} {k : Nat} {xs : List Byte}
    (n : Nat) (hk : k + xs.length ≤ n) {P : Heap Byte → Obj → Prop}
    (d : Done h o a r P) (hp : ∀ h' o', P h' o' → (view h' o').length = n ∧ n + 1 ≤ o'.cap ∧ o'.size = n ∧
      (view h' o').take k ++ xs ++ (view h' o').drop (k + xs.length) = s) (f : Obj → Nat) (hf : ∀ o, f o = k) :
    Done h o a (thenStore (thenStore r f xs) (fun o1 => o1.size) [0]) fun h' o' => SRep h' o' s := by
  have d2 : Done h o a (thenStore r f xs) fun h' o' => view h' o' = s ∧ n + 1 ≤ o'.cap ∧ o'.size = n ∧ s.length = n := by
    apply d.store
    intro h1 o1 e hP
    obtain ⟨q1, q2, q3, q4⟩ := hp h1 o1 hP
    have hsl : s.length = n := by rw [← q4, ← q1]; simp; omega
    right
    rw [hf]
    obtain ⟨id, bs, own⟩ := own_of e.ook (by omega)
    have hbl := own.len
    refine ⟨id, bs, own, by omega, fun h2 own2 => ⟨?_, q2, q3, hsl⟩⟩
    rw [own2.view, take_patch_drop (by omega) (by omega), ← own.view, q4]
  apply d2.store
  rintro h1 o1 e ⟨q1, q2, q3, q4⟩
  right
  obtain ⟨id, bs, own⟩ := own_of e.ook (by omega)
  have hbl := own.len
  refine ⟨id, bs, own, by simp; omega, fun h2 own2 => own2.srep (by omega) ?_⟩
  rw [own.view, q3] at q1
  have := take_patch_end (bs := bs) (k := n) (xs := [0]) (by simp; omega)
  rw [q4, q3]
  simp only [List.length_cons, List.length_nil, q1] at this
  exact this

theorem flat_length (n : Nat) (xs : List Byte) : (List.replicate n xs).flatten.length = xs.length * n := by
  simp [Nat.mul_comm]

theorem minsert_d {h : Heap Byte} {o : Obj} (hr : RotateOK rot) (ip n : Nat) (a : Option (Nat → Byte)) (hh : HOK h)
    (ho : OOK h o) (hip : ip ≤ o.size) (hlim : o.size + n + 1 ≤ 2 ^ 31) :
    Done h o a (Memblock.insert 1 rot h o ip n a) fun h' o' => o'.size = o.size + n ∧ o.size + n + 1 ≤ o'.cap ∧
      ∃ hole, hole.length = n ∧ view h' o' = (view h o).take ip ++ hole ++ (view h o).drop ip := by
  obtain ⟨ok, h', o', e1, e2, e3, e4⟩ := insert_spec 1 hr ip n a hh ho hip hlim
  cases ok with
  | false => left; obtain ⟨rfl, rfl, h3⟩ := e2 rfl; exact ⟨h3, e1⟩
  | true =>
    right
    obtain ⟨k1, k2⟩ := insert_cap 1 ip n a hh ho hlim e1
    exact ⟨h', o', e1, e3, k1, k2, e4 rfl⟩

theorem merase_d {h : Heap Byte} {o : Obj} (hr : RotateOK rot) (ep n : Nat) (a : Option (Nat → Byte)) (hh : HOK h)
    (ho : OOK h o) (hep : ep + n ≤ o.size) (hlim : o.size + 1 ≤ 2 ^ 31) :
    Done h o a (Memblock.erase 1 rot h o ep n a) fun h' o' => o'.size = o.size - n ∧ o.size + 1 ≤ o'.cap ∧
      view h' o' = (view h o).take ep ++ (view h o).drop (ep + n) := by
  obtain ⟨ok, h', o', e1, e2, e3, e4⟩ := erase_spec 1 hr ep n a hh ho hep hlim
  cases ok with
  | false => left; obtain ⟨rfl, rfl, h3⟩ := e2 rfl; exact ⟨h3, e1⟩
  | true =>
    right
    obtain ⟨k1, k2⟩ := erase_cap 1 ep n a hh ho hlim e1
    exact ⟨h', o', e1, e3, k1, k2, e4 rfl⟩

theorem fill_hole {s hole X : List Byte} {ip : Nat} (hip : ip ≤ s.length) (hx : X.length = hole.length) :
    (s.take ip ++ hole ++ s.drop ip).take ip ++ X ++ (s.take ip ++ hole ++ s.drop ip).drop (ip + X.length) =
      s.take ip ++ X ++ s.drop ip := by
  have h1 : (s.take ip).length = ip := by simp; omega
  rw [List.append_assoc (s.take ip) hole, List.take_left' h1, ← List.append_assoc, List.drop_left' (by simp; omega)]

theorem insert_s {h : Heap Byte} {o : Obj} {s : List Byte} (hr : RotateOK rot) (pos : Nat) (xs : List Byte) (n : Nat)
    (a : Option (Nat → Byte)) (hh : HOK h) (r : SRep h o s) (hlim : s.length + xs.length * n + 1 ≤ 2 ^ 31) :
    Done h o a (insertAt rot h o pos xs n a) fun h' o' =>
      SRep h' o' (s.take pos ++ (List.replicate n xs).flatten ++ s.drop pos) := by
  unfold insertAt insert iat
  have hsz := r.size
  have d := minsert_d hr (min pos o.size) (xs.length * n) a hh r.ook (by omega) (by omega)
  have et : s.take (min pos o.size) = s.take pos := by apply List.take_eq_take_iff.2; omega
  have ed : s.drop (min pos o.size) = s.drop pos := by
    by_cases hc : pos ≤ s.length
    · rw [Nat.min_eq_left (by omega)]
    · rw [List.drop_of_length_le (by omega), List.drop_of_length_le (by omega)]
  refine term_s (o.size + xs.length * n) (k := min pos o.size) (by rw [flat_length]; omega) d ?_ _ (fun _ => rfl)
  rintro h' o' ⟨q1, q2, hole, q3, q4⟩
  rw [r.view] at q4
  refine ⟨by rw [q4]; simp; omega, by omega, q1, ?_⟩
  rw [q4, fill_hole (by omega) (by rw [flat_length]; omega), et, ed]

theorem erasePos_s {h : Heap Byte} {o : Obj} {s : List Byte} (hr : RotateOK rot) (pos n : Nat)
    (a : Option (Nat → Byte)) (hh : HOK h) (r : SRep h o s) (hpos : pos ≤ s.length) (hlim : s.length + 1 ≤ 2 ^ 31) :
    Done h o a (erasePos rot h o pos n a) fun h' o' => SRep h' o' (s.take pos ++ s.drop (pos + n)) := by
  unfold erasePos erase iat
  have hsz := r.size
  rw [show (o.size + 2 ^ 64 - pos) % 2 ^ 64 = s.length - pos by omega, Nat.min_eq_left (by omega : pos ≤ o.size)]
  have d := merase_d hr pos (min n (s.length - pos)) a hh r.ook (by omega) (by omega)
  have ed : s.drop (pos + min n (s.length - pos)) = s.drop (pos + n) := by
    by_cases hc : n ≤ s.length - pos
    · rw [Nat.min_eq_left (by omega)]
    · rw [List.drop_of_length_le (by omega), List.drop_of_length_le (by omega)]
  have := term_s (xs := []) (s := s.take pos ++ s.drop (pos + n)) (o.size - min n (s.length - pos)) (k := 0) (by simp)
    d ?_ (fun _ => 0) (fun _ => rfl)
  · have e : thenStore (Memblock.erase 1 rot h o pos (min n (s.length - pos)) a) (fun _ => 0) [] =
        Memblock.erase 1 rot h o pos (min n (s.length - pos)) a := by
      rcases d with ⟨_, d2⟩ | ⟨h', o', d2, _⟩ <;> rw [d2]
      · rfl
      · exact thenStore_nil rfl
    rw [e] at this
    exact this
  · rintro h' o' ⟨q1, q2, q4⟩
    rw [r.view, ed] at q4
    refine ⟨by rw [q4]; simp; omega, by omega, q1, by rw [q4]; simp⟩

theorem replaceAt_s {h : Heap Byte} {o : Obj} {s : List Byte} (hr : RotateOK rot) (pos len : Nat) (xs : List Byte) (n : Nat)
    (a : Option (Nat → Byte)) (hh : HOK h) (r : SRep h o s) (hlim : s.length + xs.length * n + 1 ≤ 2 ^ 31)
    (hlink : o.cap = 0 → xs.length * n ≠ ((s.drop pos).take len).length) :
    Done h o a (replaceAt rot h o pos len xs n a) fun h' o' =>
      SRep h' o' (s.take pos ++ (List.replicate n xs).flatten ++ s.drop (pos + len)) := by
  unfold replaceAt replace iat
  have hsz := r.size
  simp only
  have hfl := flat_length n xs
  generalize (List.replicate n xs).flatten = X at *
  rw [← hfl] at hlim hlink ⊢
  have hbte : ((s.drop pos).take len).length = min (pos + len) o.size - min pos o.size := by simp; omega
  rw [hbte] at hlink
  have et : s.take (min pos o.size) = s.take pos := by apply List.take_eq_take_iff.2; omega
  have ed : s.drop (min (pos + len) o.size) = s.drop (pos + len) := by
    by_cases hc : pos + len ≤ s.length
    · rw [Nat.min_eq_left (by omega)]
    · rw [List.drop_of_length_le (by omega), List.drop_of_length_le (by omega)]
  rw [← et, ← ed]
  have h1 : min pos o.size ≤ min (pos + len) o.size := by omega
  have h2 : min (pos + len) o.size ≤ o.size := by omega
  generalize min pos o.size = f at *
  generalize min (pos + len) o.size = l at *
  have hfs : (s.take f).length = f := by simp; omega
  split
  · rename_i hlt
    have d := merase_d hr f (l - f - X.length) a hh r.ook (by omega) (by omega)
    refine term_s (o.size - (l - f - X.length)) (k := f) (by omega) d ?_ _ (fun _ => rfl)
    rintro h' o' ⟨q1, q2, q4⟩
    rw [r.view] at q4
    refine ⟨by rw [q4]; simp; omega, by omega, q1, ?_⟩
    rw [q4, List.take_left' hfs, List.drop_append, hfs, List.drop_of_length_le (by omega), List.nil_append, List.drop_drop]
    congr 2; omega
  · split
    · rename_i hlt1 hlt
      have d := minsert_d hr f (X.length - (l - f)) a hh r.ook (by omega) (by omega)
      refine term_s (o.size + (X.length - (l - f))) (k := f) (by omega) d ?_ _ (fun _ => rfl)
      rintro h' o' ⟨q1, q2, hole, q3, q4⟩
      rw [r.view] at q4
      refine ⟨by rw [q4]; simp; omega, by omega, q1, ?_⟩
      rw [q4, List.append_assoc (s.take f), List.take_left' hfs, ← List.append_assoc, List.drop_append,
        List.drop_of_length_le (by simp; omega), List.nil_append, List.drop_drop]
      congr 2; simp; omega
    · have hc : o.cap ≠ 0 := by intro hc; have := hlink hc; omega
      obtain ⟨id, bs, own, _, hbl⟩ := r.own hc
      have hcap := own.len
      have d : Done h o a (some (true, h, o)) fun h' o' => h' = h ∧ o' = o := Or.inr ⟨h, o, rfl, Eff.refl hh r.ook, rfl, rfl⟩
      refine term_s o.size (k := f) (by omega) d ?_ _ (fun _ => rfl)
      rintro h' o' ⟨rfl, rfl⟩
      rw [r.view]
      refine ⟨by omega, by omega, rfl, ?_⟩
      congr 2; omega

theorem set_s {h : Heap Byte} {o : Obj} {s : List Byte} (k : Nat) (c : Byte) (hh : HOK h) (r : SRep h o s)
    (hk : k < s.length) (hc : o.cap ≠ 0) : ∃ h', set h o k c = some h' ∧ Eff h o h' o ∧ SRep h' o (s.set k c) := by
  obtain ⟨id, bs, own, h1, h2⟩ := r.own hc
  obtain ⟨h', e1, e2, e3⟩ := st_own (xs := [c]) (k := k) hh own (by simp; omega)
  refine ⟨h', e1, e2, e3.srep (by simp [r.size]) ?_⟩
  have hs : s.set k c = s.take k ++ [c] ++ s.drop (k + 1) := by
    rw [List.set_eq_take_append_cons_drop, if_pos hk]; simp
  rw [List.length_set, take_patch_drop (by simp; omega) (by omega), h1, hs]
  simp only [List.length_singleton]
  rw [List.take_append_of_le_length (by omega), List.drop_append_of_le_length (by omega)]
  simp

theorem reserve_own {a : Option (Nat → Byte)} {h : Heap Byte} {o : Obj} {id : Nat} {bs : List Byte} (own : Own h o id bs)
    {n : Nat} (hcap : o.cap < n + 1) {h' : Heap Byte} {o' : Obj} (hr : Memblock.reserve 1 h o n false a = some (true, h', o')) :
    ∃ junk m, h' = (h.setBlk id none).malloc m bs junk ∧ o'.cap = m := by
  unfold Memblock.reserve at hr
  simp only [Bool.false_eq_true, if_false] at hr
  rw [if_neg (Nat.not_le.2 hcap)] at hr
  generalize nextPow2 (n + 1) = m at hr
  have hc := own.cap
  simp only [hc, if_false, own.ptr, realloc, own.blk, ne_eq, not_true_eq_false] at hr
  by_cases hm : m = 0
  · simp only [hm, if_true] at hr
    simp at hr
  · simp only [hm, if_false] at hr
    cases a with
    | none => simp at hr
    | some junk => simp at hr; exact ⟨junk, m, hr.1.symm, by rw [← hr.2]⟩

theorem reserve_link {a : Option (Nat → Byte)} {h : Heap Byte} {o : Obj} {s : List Byte} (r : SRep h o s) (hc : o.cap = 0)
    {n : Nat} (hcap : o.cap < n + 1) {h' : Heap Byte} {o' : Obj} (hr : Memblock.reserve 1 h o n false a = some (true, h', o')) :
    ∃ junk xs, ld (h.malloc o'.cap [] junk) o.ptr (min (o.size + 1) o'.cap) = some xs ∧
      st (h.malloc o'.cap [] junk) (some (h.next, 0)) xs = some h' := by
  unfold Memblock.reserve at hr
  simp only [Bool.false_eq_true, if_false] at hr
  rw [if_neg (Nat.not_le.2 hcap)] at hr
  generalize nextPow2 (n + 1) = m at hr
  have hp : o.ptr ≠ none := by
    intro hp
    have := r.read
    rw [hp] at this
    simp [ld] at this
  cases a with
  | none => simp [hc, realloc] at hr
  | some junk =>
    simp only [hc, if_true, realloc, true_and, ne_eq, hp, not_false_eq_true] at hr
    cases hl : ld (h.malloc m [] junk) o.ptr (min (o.size + 1) m) with
    | none => rw [hl] at hr; simp at hr
    | some xs =>
      rw [hl] at hr
      simp only at hr
      cases hs : st (h.malloc m [] junk) (some (h.next, 0)) xs with
      | none => rw [hs] at hr; simp at hr
      | some h2 =>
        rw [hs] at hr
        simp only [Option.some.injEq, Prod.mk.injEq, true_and] at hr
        obtain ⟨rfl, rfl⟩ := hr
        exact ⟨junk, xs, hl, hs⟩

theorem ld_malloc {h : Heap Byte} {p : Option (Nat × Nat)} {n m : Nat} {xs bs : List Byte} {junk : Nat → Byte} (hh : HOK h)
    (hl : ld h p n = some xs) : ld (h.malloc m bs junk) p n = some xs := by
  unfold ld at hl ⊢
  split
  · rename_i h0; rw [if_pos h0] at hl; exact hl
  · rename_i h0
    rw [if_neg h0] at hl
    cases p with
    | none => exact hl
    | some p =>
      simp only at hl ⊢
      cases hb : h.blk p.1 with
      | none => rw [hb] at hl; cases hl
      | some b =>
        have : (h.malloc m bs junk).blk p.1 = some b := by simp [Heap.malloc, Nat.ne_of_lt (hh.lt hb), hb]
        rw [this]; rw [hb] at hl; exact hl

theorem st_prefix {h h' : Heap Byte} {id : Nat} {xs : List Byte} (hs : st h (some (id, 0)) xs = some h') (hx : xs ≠ []) :
    ∃ ys, h'.blk id = some ⟨true, xs ++ ys⟩ := by
  unfold st at hs
  rw [if_neg hx] at hs
  simp only at hs
  split at hs
  · rename_i bytes hb
    split at hs
    · cases hs
      exact ⟨bytes.drop (0 + xs.length), by rw [setBlk_get]; simp⟩
    · cases hs
  · cases hs

theorem malloc_get (h : Heap Byte) (m : Nat) (bs : List Byte) (junk : Nat → Byte) :
    (h.malloc m bs junk).blk h.next = some ⟨true, bs.take m ++ (List.range (m - bs.length)).map junk⟩ := by
  simp [Heap.malloc]

theorem reserve_s {h : Heap Byte} {o : Obj} {s : List Byte} (n : Nat) (a : Option (Nat → Byte)) (hh : HOK h)
    (r : SRep h o s) (hlim : n + 1 ≤ 2 ^ 31) (hlink : o.cap = 0 → s.length ≤ n) :
    Done h o a (Memblock.reserve 1 h o n false a) fun h' o' => SRep h' o' s := by
  have hsz := r.size
  rcases Nat.lt_or_ge o.cap (n + 1) with hcap | hcap
  · rcases reserve_grow 1 n false a hh r.ook hcap (fun _ => hlim) with ⟨h1, h2⟩ | ⟨h', bs, n', h1, h0, h2, h3, h4, h5, h6, h7, h8, h9⟩
    · exact Or.inl ⟨h1, h2⟩
    · right
      have hle : s.length + 1 ≤ n' := by
        by_cases hc : o.cap = 0
        · have := hlink hc; omega
        · obtain ⟨id, bs0, own, _, hl⟩ := r.own hc
          have := own.len; omega
      refine ⟨h', _, h2, ?_, ?_⟩
      · exact eff_fresh hh h3 h4 h5 (by omega) (by omega) h7 h8 h9
      · have own : Own h' ⟨some (h.next, 0), o.size, n'⟩ h.next bs := ⟨by simp; omega, rfl, h4, h5, by simp; omega⟩
        refine own.srep hsz ?_
        by_cases hc : o.cap = 0
        · obtain ⟨junk, xs, k0, k1⟩ := reserve_link r hc hcap h2
          have hx : xs = s ++ [0] := by
            have e : min (o.size + 1) n' = s.length + 1 := by omega
            rw [e] at k0
            exact Option.some.inj ((ld_malloc hh r.read).symm.trans k0).symm
          obtain ⟨ys, k2⟩ := st_prefix k1 (by rw [hx]; simp)
          rw [h4] at k2
          injection k2 with k2
          injection k2 with _ k2
          rw [k2, hx, List.take_left' (by simp)]
        · obtain ⟨id, bs0, own0, h10, h11⟩ := r.own hc
          obtain ⟨junk, m, k1, k2⟩ := reserve_own own0 hcap h2
          simp only at k2
          subst k1 k2
          have h4' := malloc_get (h.setBlk id none) n' bs0 junk
          rw [show (h.setBlk id none).next = h.next from rfl, h4] at h4'
          injection h4' with h4'
          injection h4' with _ h4'
          rw [h4', List.take_append_of_le_length (by rw [List.length_take]; omega), List.take_take, Nat.min_eq_left (by omega), h10]
  · right
    exact ⟨h, o, reserve_noop 1 n _ _ hcap, Eff.refl hh r.ook, r⟩

/-! ### Sources in memory -/

theorem ld_sub {h : Heap Byte} {p : Option (Nat × Nat)} {xs : List Byte} {N b n : Nat} (hl : ld h p N = some xs)
    (hbn : b + n ≤ N) : ld h (adv p b) n = some ((xs.drop b).take n) := by
  unfold ld at hl ⊢
  by_cases hn : n = 0
  · subst hn; simp
  · rw [if_neg (by omega)] at hl
    rw [if_neg hn]
    cases p with
    | none => cases hl
    | some p =>
      simp only [adv, Option.map_some] at hl ⊢
      cases hb : h.blk p.1 with
      | none => rw [hb] at hl; cases hl
      | some c =>
        rw [hb] at hl
        simp only at hl ⊢
        split at hl
        · have hx := Option.some.inj hl
          rw [if_pos (by omega), ← hx, List.drop_take, List.take_take, List.drop_drop, Nat.min_eq_left (by omega)]
        · cases hl

theorem copyFrom_eq {r : Res} {k : Obj → Nat} {src : Option (Nat × Nat)} {n : Nat} {xs : List Byte}
    (hx : ∀ h1 o1, r = some (true, h1, o1) → ld h1 src n = some xs) : copyFrom r k src n = thenStore r k xs := by
  unfold copyFrom thenStore
  match r, hx with
  | none, _ => rfl
  | some (false, _, _), _ => rfl
  | some (true, h1, o1), hx => simp only [hx h1 o1 rfl]

/-- The source range of `(s, pos, n)`. -/
theorem range_eq {s : Obj} {t : List Byte} (hs : s.size = t.length) {pos n : Nat} (hw : pos + n < 2 ^ 64) :
    iat s pos ≤ iatEnd s pos n ∧ iatEnd s pos n ≤ t.length ∧
    iatEnd s pos n - iat s pos = ((t.drop pos).take n).length ∧
    (t.drop (iat s pos)).take (iatEnd s pos n - iat s pos) = (t.drop pos).take n := by
  unfold iatEnd iat
  rw [Nat.mod_eq_of_lt hw, hs]
  refine ⟨by omega, by omega, by simp; omega, ?_⟩
  rcases Nat.lt_or_ge t.length pos with h1 | h1
  · rw [List.drop_of_length_le (by omega), List.drop_of_length_le (by omega)]; simp
  · rw [Nat.min_eq_left h1, List.take_eq_take_iff]; simp; omega

theorem read_range {h : Heap Byte} {s : Obj} {t : List Byte} (hs : s.size = t.length) {pos n : Nat} (hw : pos + n < 2 ^ 64)
    (hl : ld h s.ptr t.length = some t) :
    ld h (adv s.ptr (iat s pos)) (iatEnd s pos n - iat s pos) = some ((t.drop pos).take n) := by
  obtain ⟨h1, h2, h3, h4⟩ := range_eq hs hw
  rw [ld_sub hl (by omega), h4]

theorem SRep.chars {h : Heap Byte} {o : Obj} {s : List Byte} (r : SRep h o s) : ld h o.ptr s.length = some s := by
  have := ld_sub (b := 0) (n := s.length) r.read (by omega)
  have e : adv o.ptr 0 = o.ptr := by cases o.ptr <;> rfl
  rw [e] at this
  simpa using this

theorem assignSub_eq {h : Heap Byte} {o s : Obj} {t : List Byte} {pos n : Nat} {a : Option (Nat → Byte)}
    (hs : s.size = t.length) (hw : pos + n < 2 ^ 64)
    (hx : ∀ h1 o1, resize lit h o ((t.drop pos).take n).length a = some (true, h1, o1) →
      ld h1 (adv s.ptr (iat s pos)) ((t.drop pos).take n).length = some ((t.drop pos).take n)) :
    assignSub lit h o s pos n a = assign lit h o ((t.drop pos).take n) a := by
  obtain ⟨h1, h2, h3, h4⟩ := range_eq hs hw
  unfold assignSub assign
  simp only
  rw [if_neg (by omega), h3]
  exact copyFrom_eq hx

theorem appendSub_eq {h : Heap Byte} {o s : Obj} {t : List Byte} {pos n : Nat} {a : Option (Nat → Byte)}
    (hs : s.size = t.length) (hw : pos + n < 2 ^ 64)
    (hx : ∀ h1 o1, resize lit h o (o.size + ((t.drop pos).take n).length) a = some (true, h1, o1) →
      ld h1 (adv s.ptr (iat s pos)) ((t.drop pos).take n).length = some ((t.drop pos).take n)) :
    appendSub lit h o s pos n a = append lit h o ((t.drop pos).take n) a := by
  obtain ⟨h1, h2, h3, h4⟩ := range_eq hs hw
  unfold appendSub append
  simp only
  rw [if_neg (by omega), h3]
  exact copyFrom_eq hx

theorem insertSub_eq {h : Heap Byte} {o s : Obj} {t : List Byte} {ip pos n : Nat} {a : Option (Nat → Byte)}
    (hs : s.size = t.length) (hw : pos + n < 2 ^ 64)
    (hx : ∀ h1 o1, Memblock.insert 1 rot h o (iat o ip) ((t.drop pos).take n).length a = some (true, h1, o1) →
      ld h1 (adv s.ptr (iat s pos)) ((t.drop pos).take n).length = some ((t.drop pos).take n)) :
    insertSub rot h o ip s pos n a = insertAt rot h o ip ((t.drop pos).take n) 1 a := by
  obtain ⟨h1, h2, h3, h4⟩ := range_eq hs hw
  unfold insertSub insertAt insert
  simp only
  rw [if_neg (by omega), h3, copyFrom_eq hx, Nat.mul_one]
  simp

theorem replaceSub_eq {h : Heap Byte} {o s : Obj} {t : List Byte} {rp len pos n : Nat} {a : Option (Nat → Byte)}
    (hs : s.size = t.length) (hw : pos + n < 2 ^ 64)
    (hx : ∀ h1 o1, ((if ((t.drop pos).take n).length < iat o (rp + len) - iat o rp then
        Memblock.erase 1 rot h o (iat o rp) (iat o (rp + len) - iat o rp - ((t.drop pos).take n).length) a
      else if iat o (rp + len) - iat o rp < ((t.drop pos).take n).length then
        Memblock.insert 1 rot h o (iat o rp) (((t.drop pos).take n).length - (iat o (rp + len) - iat o rp)) a
      else some (true, h, o) : Res)) = some (true, h1, o1) →
      ld h1 (adv s.ptr (iat s pos)) ((t.drop pos).take n).length = some ((t.drop pos).take n)) :
    replaceSub rot h o rp len s pos n a = replaceAt rot h o rp len ((t.drop pos).take n) 1 a := by
  obtain ⟨h1, h2, h3, h4⟩ := range_eq hs hw
  unfold replaceSub replaceAt replace
  simp only
  rw [if_neg (by omega), h3, copyFrom_eq hx, Nat.mul_one]
  simp

/-- `resize` within the capacity stores only the terminator. -/
theorem resize_inplace {h : Heap Byte} {o : Obj} {id : Nat} {bs : List Byte} {n : Nat} (a : Option (Nat → Byte)) (hh : HOK h)
    (own : Own h o id bs) (hn : n + 1 ≤ o.cap) {h1 : Heap Byte} {o1 : Obj} (hr : resize lit h o n a = some (true, h1, o1)) :
    h1.blk id = some ⟨true, patch bs n [0]⟩ := by
  have hc := own.cap
  unfold resize Memblock.resize at hr
  rw [if_neg (by omega), if_neg (by omega)] at hr
  have own1 : Own h { o with size := n } id bs := ⟨own.cap, own.ptr, own.blk, own.len, by simp; omega⟩
  obtain ⟨h2, k1, k2, k3⟩ := st_own (xs := [0]) (k := n) hh own1 (by have := own.len; simp; omega)
  simp only [thenStore] at hr
  rw [k1] at hr
  simp only [Option.some.injEq, Prod.mk.injEq, true_and] at hr
  rw [← hr.1]
  exact k3.blk

theorem ld_blk {h : Heap Byte} {id : Nat} {bs : List Byte} {k n : Nat} (hb : h.blk id = some ⟨true, bs⟩)
    (hk : k + n ≤ bs.length) : ld h (some (id, k)) n = some ((bs.drop k).take n) := by
  unfold ld
  split
  · rename_i h0; subst h0; simp
  · simp only [hb]
    rw [if_pos (by omega)]

theorem patch_range {bs xs : List Byte} {k b n : Nat} (hk : k + xs.length ≤ bs.length)
    (hd : b + n ≤ k ∨ k + xs.length ≤ b) : ((patch bs k xs).drop b).take n = (bs.drop b).take n := by
  apply List.ext_getElem?
  intro i
  rw [List.getElem?_take, List.getElem?_take]
  split
  · rename_i hi
    rw [List.getElem?_drop, List.getElem?_drop]
    rcases hd with hd | hd
    · unfold patch
      rw [List.append_assoc, List.getElem?_append_left (by simp; omega), List.getElem?_take, if_pos (by omega)]
    · exact patch_get hk (by omega)
  · rfl

end Ustl.Str
