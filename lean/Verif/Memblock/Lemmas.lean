import Verif.Memblock.Spec
/-!
# Single-object effects
-/
namespace Ustl.Memblock
variable {α : Type _}

/-- Numbers from `next` on are unused. -/
def HOK (h : Heap α) : Prop := ∀ id, h.next ≤ id → h.blk id = none

/-- One object's part of `Owns`. -/
structure OOK (h : Heap α) (o : Obj) : Prop where
  owned : o.cap ≠ 0 → ∃ id b, o.ptr = some (id, 0) ∧ h.blk id = some b ∧
    b.heap = true ∧ b.bytes.length = o.cap ∧ o.size ≤ o.cap
  linked : o.cap = 0 → (o.ptr = none ∧ o.size = 0) ∨ ∃ p, o.ptr = some p ∧ PaddedForeign h p o.size

/-- What an operation on object `o` may do to the heap. -/
structure Eff0 (h : Heap α) (o : Obj) (h' : Heap α) (o' : Obj) : Prop where
  hok : HOK h'
  ook : OOK h' o'
  keep : ∀ id, id < h.next → (o.cap = 0 ∨ o.ptr ≠ some (id, 0)) → h'.blk id = h.blk id
  next : h.next ≤ h'.next
  own : o'.cap ≠ 0 → (o.cap ≠ 0 ∧ o'.ptr = o.ptr) ∨ ∃ id, h.next ≤ id ∧ o'.ptr = some (id, 0)
  nofor : ∀ id b, h'.blk id = some b → b.heap = false → h.blk id = some b

/-- `Eff0`, and no malloc'ed block is lost: a live one is the object's, or was there before and was not the
object's. -/
structure Eff (h : Heap α) (o : Obj) (h' : Heap α) (o' : Obj) : Prop extends Eff0 h o h' o' where
  leak : ∀ id b, h'.blk id = some b → b.heap = true → (o'.cap ≠ 0 ∧ o'.ptr = some (id, 0)) ∨
    ((∃ b0, h.blk id = some b0 ∧ b0.heap = true) ∧ ¬ (o.cap ≠ 0 ∧ o.ptr = some (id, 0)))

theorem HOK.lt {h : Heap α} (hh : HOK h) {id : Nat} {b : Blk α} (hb : h.blk id = some b) : id < h.next := by
  rcases Nat.lt_or_ge id h.next with h1 | h1
  · exact h1
  · rw [hh id h1] at hb; cases hb

theorem PaddedForeign.keep {h h' : Heap α} {p : Nat × Nat} {n : Nat} (hp : PaddedForeign h p n)
    (hk : ∀ b, h.blk p.1 = some b → b.heap = false → h'.blk p.1 = some b) : PaddedForeign h' p n := by
  obtain ⟨b, h1, h2, h3⟩ := hp
  exact ⟨b, hk b h1 h2, h2, h3⟩

/-- An operation leaves foreign blocks alone. -/
theorem Eff0.foreign {h h' : Heap α} {o o' : Obj} (e : Eff0 h o h' o') (hh : HOK h) (ho : OOK h o) {id : Nat}
    {b : Blk α} (hb : h.blk id = some b) (hf : b.heap = false) : h'.blk id = some b := by
  rw [e.keep id (hh.lt hb), hb]
  by_cases hc : o.cap = 0
  · exact Or.inl hc
  · right
    intro hp
    obtain ⟨id', b', h1, h2, h3, _⟩ := ho.owned hc
    rw [hp] at h1
    cases h1
    rw [hb] at h2
    cases h2
    rw [hf] at h3
    cases h3

theorem nextPow2_ge {v : Nat} (h1 : 1 ≤ v) (h2 : v ≤ 2 ^ 31) : v ≤ nextPow2 v := by
  unfold nextPow2
  have : (v + 2 ^ 32 - 1) % 2 ^ 32 = v - 1 := by omega
  simp only [this]
  rw [if_neg (by omega)]
  have := Nat.lt_log2_self (n := v - 1)
  rw [Nat.add_comm 1]
  omega

theorem view_owned {h : Heap α} {o : Obj} {id : Nat} {b : Blk α} (h1 : o.ptr = some (id, 0))
    (h2 : h.blk id = some b) : view h o = b.bytes.take o.size := by
  simp [view, h1, h2]

theorem view_length {h : Heap α} {o : Obj} (ho : OOK h o) : (view h o).length = o.size := by
  by_cases hc : o.cap = 0
  · rcases ho.linked hc with ⟨h1, h2⟩ | ⟨p, h1, b, h2, h3, h4⟩
    · simp [view, h1, h2]
    · simp [view, h1, h2]; omega
  · obtain ⟨id, b, h1, h2, _, h4, h5⟩ := ho.owned hc
    simp [view_owned h1 h2]; omega

theorem view_congr {h h' : Heap α} {o : Obj}
    (hk : ∀ p, o.ptr = some p → h'.blk p.1 = h.blk p.1) : view h' o = view h o := by
  unfold view
  cases hp : o.ptr with
  | none => rfl
  | some p => simp only [hk p hp]

theorem Eff.refl {h : Heap α} {o : Obj} (hh : HOK h) (ho : OOK h o) : Eff h o h o :=
  ⟨⟨hh, ho, fun _ _ _ => rfl, Nat.le_refl _, fun hc => Or.inl ⟨hc, rfl⟩, fun _ _ h _ => h⟩, fun id b h1 h2 => by
    by_cases hc : o.cap ≠ 0 ∧ o.ptr = some (id, 0)
    · exact Or.inl hc
    · exact Or.inr ⟨⟨b, h1, h2⟩, hc⟩⟩

/-- Changing only the size. -/
theorem Eff.size {h : Heap α} {o : Obj} (hh : HOK h) {n : Nat} (ho : OOK h { o with size := n }) :
    Eff h o h { o with size := n } :=
  ⟨⟨hh, ho, fun _ _ _ => rfl, Nat.le_refl _, fun hc => Or.inl ⟨hc, rfl⟩, fun _ _ h _ => h⟩, fun id b h1 h2 => by
    by_cases hc : o.cap ≠ 0 ∧ o.ptr = some (id, 0)
    · exact Or.inl hc
    · exact Or.inr ⟨⟨b, h1, h2⟩, hc⟩⟩

theorem Eff.trans {h h1 h2 : Heap α} {o o1 o2 : Obj} (e1 : Eff h o h1 o1) (e2 : Eff h1 o1 h2 o2) :
    Eff h o h2 o2 := by
  refine ⟨⟨e2.hok, e2.ook, ?_, Nat.le_trans e1.next e2.next, ?_, fun id b h3 h4 =>
    e1.nofor id b (e2.nofor id b h3 h4) h4⟩, ?_⟩
  · intro id hid hne
    rw [e2.keep id (Nat.lt_of_lt_of_le hid e1.next), e1.keep id hid hne]
    by_cases hc : o1.cap = 0
    · exact Or.inl hc
    · right
      rcases e1.own hc with ⟨h3, h4⟩ | ⟨id', h3, h4⟩
      · rw [h4]
        rcases hne with h5 | h5
        · exact absurd h5 h3
        · exact h5
      · rw [h4]; intro h5; cases h5; omega
  · intro hc
    rcases e2.own hc with ⟨h3, h4⟩ | ⟨id', h3, h4⟩
    · rcases e1.own h3 with ⟨h5, h6⟩ | ⟨id', h5, h6⟩
      · exact Or.inl ⟨h5, h4.trans h6⟩
      · exact Or.inr ⟨id', h5, h4.trans h6⟩
    · exact Or.inr ⟨id', Nat.le_trans e1.next h3, h4⟩
  · intro id b h3 h4
    rcases e2.leak id b h3 h4 with h5 | ⟨⟨b1, h5, h6⟩, h7⟩
    · exact Or.inl h5
    · rcases e1.leak id b1 h5 h6 with h8 | h8
      · exact absurd h8 h7
      · exact Or.inr h8

/-- The effect of moving an object to a fresh block. -/
theorem eff_fresh {h h' : Heap α} {o : Obj} {bs : List α} {sz cap : Nat} (hh : HOK h)
    (hn : h'.next = h.next + 1) (hb : h'.blk h.next = some ⟨true, bs⟩) (hl : bs.length = cap)
    (hsz : sz ≤ cap) (hc : cap ≠ 0)
    (hk : ∀ id, id ≠ h.next → (o.cap = 0 ∨ o.ptr ≠ some (id, 0)) → h'.blk id = h.blk id)
    (hnone : ∀ id, h.next < id → h'.blk id = none)
    (hold : ∀ id, id ≠ h.next → o.cap ≠ 0 → o.ptr = some (id, 0) → h'.blk id = none) :
    Eff h o h' ⟨some (h.next, 0), sz, cap⟩ := by
  have hcase : ∀ id b, h'.blk id = some b → id ≠ h.next → h.blk id = some b ∧
      ¬ (o.cap ≠ 0 ∧ o.ptr = some (id, 0)) := by
    intro id b h1 h2
    have h3 : ¬ (o.cap ≠ 0 ∧ o.ptr = some (id, 0)) := by
      rintro ⟨h3, h4⟩; rw [hold id h2 h3 h4] at h1; cases h1
    refine ⟨?_, h3⟩
    rw [← hk id h2 (by by_cases h5 : o.cap = 0 <;> simp_all), h1]
  refine ⟨⟨?_, ?_, ?_, by omega, ?_, ?_⟩, ?_⟩
  · intro id hid; exact hnone id (by omega)
  · refine ⟨fun _ => ⟨h.next, _, rfl, hb, rfl, hl, hsz⟩, fun h0 => absurd h0 hc⟩
  · intro id hid hne; exact hk id (by omega) hne
  · intro _; exact Or.inr ⟨h.next, Nat.le_refl _, rfl⟩
  · intro id b h1 h2
    by_cases h3 : id = h.next
    · subst h3; rw [hb] at h1; cases h1; cases h2
    · exact (hcase id b h1 h3).1
  · intro id b h1 h2
    by_cases h3 : id = h.next
    · subst h3; exact Or.inl ⟨hc, rfl⟩
    · obtain ⟨h4, h5⟩ := hcase id b h1 h3
      exact Or.inr ⟨⟨b, h4, h2⟩, h5⟩

/-- What `reserve` does when it has to allocate. -/
theorem reserve_grow (mf : Nat) {h : Heap α} {o : Obj} (newSize : Nat) (exact : Bool)
    (a : Option (Nat → α)) (hh : HOK h) (ho : OOK h o) (hcap : o.cap < newSize + mf)
    (hlim : exact = false → newSize + mf ≤ 2 ^ 31) :
    (a = none ∧ reserve mf h o newSize exact a = some (false, h, o)) ∨
    ∃ h' bs n', newSize + mf ≤ n' ∧ (exact = true → n' = newSize + mf) ∧
      reserve mf h o newSize exact a = some (true, h', ⟨some (h.next, 0), o.size, n'⟩) ∧
      h'.next = h.next + 1 ∧ h'.blk h.next = some ⟨true, bs⟩ ∧ bs.length = n' ∧
      bs.take (min o.size n') = (view h o).take n' ∧
      (∀ id, id ≠ h.next → (o.cap = 0 ∨ o.ptr ≠ some (id, 0)) → h'.blk id = h.blk id) ∧
      (∀ id, h.next < id → h'.blk id = none) ∧
      (∀ id, id ≠ h.next → o.cap ≠ 0 → o.ptr = some (id, 0) → h'.blk id = none) := by
  unfold reserve
  simp only
  rw [if_neg (by omega)]
  have hge : newSize + mf ≤ (if exact = true then newSize + mf else nextPow2 (newSize + mf)) := by
    cases exact with
    | true => simp
    | false => simpa using nextPow2_ge (by omega) (hlim rfl)
  have hex : exact = true → (if exact = true then newSize + mf else nextPow2 (newSize + mf)) = newSize + mf := by
    intro h; simp [h]
  generalize (if exact = true then newSize + mf else nextPow2 (newSize + mf)) = n' at *
  by_cases hc : o.cap = 0
  · rw [if_pos hc]
    cases a with
    | none => left; exact ⟨rfl, by simp [realloc]⟩
    | some junk =>
      right
      simp only [realloc]
      rcases ho.linked hc with ⟨h1, h2⟩ | ⟨p, h1, b, h2, h3, h4⟩
      · rw [if_neg (by simp [h1])]
        refine ⟨_, (List.range n').map junk, n', hge, hex, rfl, rfl, by simp [Heap.malloc], by simp, ?_, ?_, ?_,
          fun id _ h => absurd hc h⟩
        · simp [h2, view, h1]
        · intro id hid _; simp [Heap.malloc, hid]
        · intro id hid; simp [Heap.malloc, Nat.ne_of_gt hid, hh id (by omega)]
      · have hlt : p.1 < h.next := hh.lt h2
        rw [if_pos (by simp [h1])]
        have hld : ld (h.malloc n' [] junk) o.ptr (min (o.size + 1) n') =
            some ((b.bytes.drop p.2).take (min (o.size + 1) n')) := by
          unfold ld
          rw [if_neg (by omega), h1]
          have : (h.malloc n' [] junk).blk p.1 = some b := by
            simp [Heap.malloc, Nat.ne_of_lt hlt, h2]
          simp only [this]
          rw [if_pos (by omega)]
        rw [hld]
        simp only
        have hlen : ((b.bytes.drop p.2).take (min (o.size + 1) n')).length = min (o.size + 1) n' := by
          simp; omega
        have hst : st (h.malloc n' [] junk) (some (h.next, 0)) ((b.bytes.drop p.2).take (min (o.size + 1) n')) =
            some ((h.malloc n' [] junk).setBlk h.next (some ⟨true, (b.bytes.drop p.2).take (min (o.size + 1) n') ++
              ((List.range n').map junk).drop (min (o.size + 1) n')⟩)) := by
          unfold st
          rw [if_neg (by intro h0; rw [h0] at hlen; simp at hlen; omega)]
          have : (h.malloc n' [] junk).blk h.next = some ⟨true, (List.range n').map junk⟩ := by
            simp [Heap.malloc]
          simp only [this]
          rw [if_pos (by rw [hlen]; simp; omega), hlen]
          simp
        rw [hst]
        refine ⟨_, _, n', hge, hex, rfl, rfl, by simp [Heap.setBlk]; rfl, ?_, ?_, ?_, ?_,
          fun id _ h => absurd hc h⟩
        · rw [List.length_append, hlen]; simp; omega
        · rw [List.take_append_of_le_length (by rw [hlen]; omega), List.take_take]
          simp only [view, h1, h2, List.take_take]
          congr 1; omega
        · intro id hid _; simp [Heap.malloc, Heap.setBlk, hid]
        · intro id hid; simp [Heap.malloc, Heap.setBlk, Nat.ne_of_gt hid, hh id (by omega)]
  · rw [if_neg hc]
    obtain ⟨id0, b, h1, h2, h3, h4, h5⟩ := ho.owned hc
    have hlt : id0 < h.next := hh.lt h2
    obtain ⟨hp, bytes⟩ := b
    simp only at h3 h4
    subst h3
    simp only [h1, realloc, h2]
    rw [if_neg (by simp), if_neg (by omega)]
    cases a with
    | none => left; exact ⟨rfl, rfl⟩
    | some junk =>
      right
      simp only
      rw [if_neg (by simp)]
      refine ⟨_, _, n', hge, hex, rfl, rfl, by simp [Heap.malloc, Heap.setBlk]; rfl, by simp; omega, ?_, ?_, ?_, ?_⟩
      · rw [List.take_append_of_le_length (by simp; omega), List.take_take, view_owned h1 h2, List.take_take]
        congr 1; omega
      · intro id hid hne
        have : id ≠ id0 := by
          rintro rfl
          rcases hne with h6 | h6
          · exact hc h6
          · exact h6 (by rfl)
        simp [Heap.malloc, Heap.setBlk, hid, this]
      · intro id hid
        have h6 : id ≠ h.next := by omega
        have h7 : id ≠ id0 := by omega
        simp [Heap.malloc, Heap.setBlk, h6, h7, hh id (by omega)]
      · intro id h6 _ h7; cases h7; simp [Heap.malloc, Heap.setBlk, h6]

theorem reserve_noop (mf : Nat) {h : Heap α} {o : Obj} (newSize : Nat) (exact : Bool)
    (a : Option (Nat → α)) (hcap : newSize + mf ≤ o.cap) :
    reserve mf h o newSize exact a = some (true, h, o) := by
  simp [reserve, hcap]

/-- `reserve` keeps the visible bytes, provided a linked block is not asked to hold less than it has. -/
theorem reserve_spec (mf : Nat) {h : Heap α} {o : Obj} (newSize : Nat) (exact : Bool)
    (a : Option (Nat → α)) (hh : HOK h) (ho : OOK h o) (hlim : exact = false → newSize + mf ≤ 2 ^ 31)
    (hsz : o.cap = 0 → o.size ≤ newSize) :
    ∃ ok h' o', reserve mf h o newSize exact a = some (ok, h', o') ∧ (ok = false → h' = h ∧ o' = o ∧ a = none) ∧
      Eff h o h' o' ∧ view h' o' = view h o ∧ o'.size = o.size ∧ (ok = true → newSize + mf ≤ o'.cap) := by
  rcases Nat.lt_or_ge o.cap (newSize + mf) with hcap | hcap
  · rcases reserve_grow mf newSize exact a hh ho hcap hlim with ⟨h1, h2⟩ | ⟨h', bs, n', h1, _, h2, h3, h4, h5, h6, h7, h8, h9⟩
    · exact ⟨false, h, o, h2, fun _ => ⟨rfl, rfl, h1⟩, Eff.refl hh ho, rfl, rfl, by simp⟩
    · have hs : o.size ≤ n' := by
        by_cases hc : o.cap = 0
        · have := hsz hc; omega
        · obtain ⟨_, _, _, _, _, _, _⟩ := ho.owned hc; omega
      have hv := view_length ho
      refine ⟨true, h', _, h2, by simp, eff_fresh hh h3 h4 h5 hs (by omega) h7 h8 h9, ?_, rfl, fun _ => h1⟩
      rw [view_owned (o := ⟨some (h.next, 0), o.size, n'⟩) rfl h4]
      rw [Nat.min_eq_left hs, List.take_of_length_le (l := view h o) (by omega)] at h6
      exact h6
  · exact ⟨true, h, o, reserve_noop mf newSize exact a hcap, by simp, Eff.refl hh ho, rfl, rfl, fun _ => hcap⟩

theorem OOK.resize {h : Heap α} {o : Obj} (ho : OOK h o) {n : Nat} (hn : n ≤ o.cap ∨ (o.cap = 0 ∧ n ≤ o.size)) :
    OOK h { o with size := n } := by
  constructor
  · intro hc
    obtain ⟨id, b, h1, h2, h3, h4, h5⟩ := ho.owned hc
    exact ⟨id, b, h1, h2, h3, h4, by rcases hn with h6 | h6 <;> simp at * <;> omega⟩
  · intro hc
    rcases ho.linked hc with ⟨h1, h2⟩ | ⟨p, h1, b, h2, h3, h4⟩
    · left; exact ⟨h1, by have : o.cap = 0 := hc; simp; omega⟩
    · right; exact ⟨p, h1, b, h2, h3, by have : o.cap = 0 := hc; simp; omega⟩

theorem take_view {h : Heap α} {o : Obj} {n : Nat} (hn : n ≤ o.size) :
    view h { o with size := n } = (view h o).take n := by
  unfold view
  cases o.ptr with
  | none => simp
  | some p =>
    simp only
    cases h.blk p.1 with
    | none => simp
    | some b => simp [List.take_take, Nat.min_eq_left hn]

theorem resize_spec (mf : Nat) {h : Heap α} {o : Obj} (newSize : Nat) (exact : Bool)
    (a : Option (Nat → α)) (hh : HOK h) (ho : OOK h o) (hlim : exact = false → newSize + mf ≤ 2 ^ 31) :
    ∃ ok h' o', resize mf h o newSize exact a = some (ok, h', o') ∧ (ok = false → h' = h ∧ o' = o ∧ a = none) ∧
      Eff h o h' o' ∧ (ok = true → Resized (view h o) (view h' o') newSize ∧ o'.size = newSize ∧
        newSize + mf ≤ o'.cap ∧ ((o.cap ≠ 0 ∧ newSize + mf ≤ o.cap) → h' = h ∧ o'.ptr = o.ptr ∧ o'.cap = o.cap)) := by
  have hv := view_length ho
  unfold resize
  split
  · rename_i hcap
    rcases reserve_grow mf newSize exact a hh ho hcap hlim with ⟨h1, h2⟩ | ⟨h', bs, n', h1, _, h2, h3, h4, h5, h6, h7, h8, h9⟩
    · exact ⟨false, h, o, by simp [h2], fun _ => ⟨rfl, rfl, h1⟩, Eff.refl hh ho, by simp⟩
    · refine ⟨true, h', ⟨some (h.next, 0), newSize, n'⟩, by simp [h2], by simp,
        eff_fresh hh h3 h4 h5 (by omega) (by omega) h7 h8 h9, fun _ => ⟨⟨?_, ?_⟩, rfl, h1, by intro h10; omega⟩⟩
      · rw [view_owned rfl h4]; simp; omega
      · rw [view_owned rfl h4, hv, List.take_take]
        simp only
        have := congrArg (List.take newSize) h6
        rw [List.take_take, List.take_take] at this
        rw [show min o.size newSize = min newSize (min o.size n') by omega, this]
        congr 1; omega
  · rename_i hcap
    by_cases hc : o.cap = 0
    · have h0 : newSize = 0 := by omega
      subst h0
      refine ⟨true, h, _, rfl, by simp, Eff.size hh (ho.resize (Or.inl (by omega))), fun _ =>
        ⟨⟨?_, ?_⟩, rfl, by simp; omega, by intro h; omega⟩⟩
      · rw [take_view (by omega)]; simp
      · rw [take_view (n := 0) (by omega)]; simp only [List.take_zero, List.take_nil]
    · obtain ⟨id, b, h1, h2, h3, h4, h5⟩ := ho.owned hc
      refine ⟨true, h, _, rfl, by simp, Eff.size hh (ho.resize (Or.inl (by omega))), fun _ =>
        ⟨⟨?_, ?_⟩, rfl, by simp; omega, fun _ => ⟨rfl, rfl, rfl⟩⟩⟩
      · rw [view_owned (o := { o with size := newSize }) h1 h2]; simp; omega
      · rw [view_owned (o := { o with size := newSize }) h1 h2, view_owned h1 h2]
        simp only [List.length_take, List.take_take]
        congr 1; omega

theorem rot_at {rot : List α → Nat → Nat → Nat → Option (List α)} (hr : RotateOK rot) (bs : List α)
    {f m t : Nat} (h1 : f ≤ m) (h2 : m ≤ t) (h3 : t ≤ bs.length) :
    rot bs f m t = some (bs.take f ++ (bs.drop m).take (t - m) ++ (bs.drop f).take (m - f) ++ bs.drop t) := by
  have := hr (bs.take f) ((bs.drop f).take (m - f)) ((bs.drop m).take (t - m)) (bs.drop t)
  have e : bs.take f ++ (bs.drop f).take (m - f) ++ (bs.drop m).take (t - m) ++ bs.drop t = bs := by
    rw [← List.take_add, show f + (m - f) = m by omega, ← List.take_add, show m + (t - m) = t by omega,
      List.take_append_drop]
  rw [e] at this
  simp only [List.length_take, List.length_drop] at this
  rw [show min f bs.length = f by omega, show f + min (m - f) (bs.length - f) = m by omega,
    show m + min (t - m) (bs.length - m) = t by omega] at this
  exact this

/-- Replacing the contents of an owned block by as many cells. -/
theorem eff_set {h : Heap α} {o : Obj} (hh : HOK h) (ho : OOK h o) {id : Nat} {b : Blk α} (hc : o.cap ≠ 0)
    (h1 : o.ptr = some (id, 0)) (h2 : h.blk id = some b) (h3 : b.heap = true) (bs : List α)
    (hl : bs.length = b.bytes.length) : Eff h o (h.setBlk id (some ⟨true, bs⟩)) o := by
  have hlt := hh.lt h2
  refine ⟨⟨?_, ⟨?_, fun h0 => absurd h0 hc⟩, ?_, Nat.le_refl _, fun _ => Or.inl ⟨hc, rfl⟩, ?_⟩, ?_⟩
  · intro k hk
    have hk' : h.next ≤ k := hk
    simp only [Heap.setBlk]
    rw [if_neg (by omega)]
    exact hh k hk'
  · intro _
    obtain ⟨id', b', g1, g2, g3, g4, g5⟩ := ho.owned hc
    rw [h1] at g1; cases g1
    rw [h2] at g2; cases g2
    exact ⟨id, ⟨true, bs⟩, h1, by simp [Heap.setBlk], rfl, by simp [hl, g4], g5⟩
  · intro k hk hne
    have : k ≠ id := by
      rintro rfl
      rcases hne with h6 | h6
      · exact hc h6
      · exact h6 h1
    simp [Heap.setBlk, this]
  · intro k b' g1 g2
    by_cases hk : k = id
    · subst hk; simp [Heap.setBlk] at g1; subst g1; cases g2
    · simpa [Heap.setBlk, hk] using g1
  · intro k b' g1 g2
    by_cases hk : k = id
    · subst hk; exact Or.inl ⟨hc, h1⟩
    · right
      refine ⟨⟨b', by simpa [Heap.setBlk, hk] using g1, g2⟩, ?_⟩
      rintro ⟨_, g3⟩; rw [h1] at g3; cases g3; exact hk rfl

theorem ld_view {h : Heap α} {o : Obj} (ho : OOK h o) : ld h o.ptr o.size = some (view h o) := by
  unfold ld
  split
  · rename_i h0
    have := view_length ho
    rw [h0] at this
    rw [List.length_eq_zero_iff.1 this]
  · rename_i h0
    by_cases hc : o.cap = 0
    · rcases ho.linked hc with ⟨h1, h2⟩ | ⟨p, h1, b, h2, h3, h4⟩
      · omega
      · simp only [h1, h2, view]; rw [if_pos (by omega)]
    · obtain ⟨id, b, h1, h2, h3, h4, h5⟩ := ho.owned hc
      simp only [h1, h2, view]; rw [if_pos (by omega)]

theorem ld_foreign {h : Heap α} {p : Nat × Nat} {n : Nat} (hp : PaddedForeign h p n) :
    ld h (some p) n = some (foreign h p n) := by
  obtain ⟨b, h1, h2, h3⟩ := hp
  unfold ld foreign
  split
  · rename_i h0; subst h0; simp [h1]
  · simp only [h1]; rw [if_pos (by omega)]

/-- `assign`, for a source that still reads `xs` after the resize. -/
theorem assign_spec (mf : Nat) {h : Heap α} {o : Obj} (p : Option (Nat × Nat)) (xs : List α)
    (a : Option (Nat → α)) (hh : HOK h) (ho : OOK h o)
    (hsrc : ∀ h1 o1, resize mf h o xs.length true a = some (true, h1, o1) → Eff h o h1 o1 →
      ((o.cap ≠ 0 ∧ xs.length + mf ≤ o.cap) → h1 = h ∧ o1.ptr = o.ptr ∧ o1.cap = o.cap) →
      ld h1 p xs.length = some xs) :
    ∃ ok h' o', assign mf h o p xs.length a = some (ok, h', o') ∧ (ok = false → h' = h ∧ o' = o ∧ a = none) ∧
      Eff h o h' o' ∧ (ok = true → view h' o' = xs) := by
  obtain ⟨ok, h1, o1, e1, e2, e3, e4⟩ := resize_spec mf (h := h) (o := o) xs.length true a hh ho (by simp)
  unfold assign
  rw [e1]
  cases ok with
  | false => exact ⟨false, h1, o1, rfl, e2, e3, by simp⟩
  | true =>
    obtain ⟨g1, g2, g3, g4⟩ := e4 rfl
    simp only [hsrc h1 o1 e1 e3 g4]
    by_cases hx : xs = []
    · subst hx
      refine ⟨true, h1, o1, by simp [st], by simp, e3, fun _ => ?_⟩
      exact List.length_eq_zero_iff.1 (by rw [view_length e3.ook, g2]; rfl)
    · have hx' : xs.length ≠ 0 := by simpa using hx
      have hc : o1.cap ≠ 0 := by omega
      obtain ⟨id, b, k1, k2, k3, k4, k5⟩ := e3.ook.owned hc
      obtain ⟨hp, bytes⟩ := b
      simp only at k3 k4
      subst k3
      have hst : st h1 o1.ptr xs = some (h1.setBlk id (some ⟨true, xs ++ bytes.drop xs.length⟩)) := by
        unfold st
        rw [if_neg hx]
        simp only [k1, k2]
        rw [if_pos (by omega)]
        simp
      rw [hst]
      have e5 := eff_set e3.hok e3.ook hc k1 k2 rfl (xs ++ bytes.drop xs.length) (by simp; omega)
      refine ⟨true, _, o1, rfl, by simp, e3.trans e5, fun _ => ?_⟩
      rw [view_owned k1 (b := ⟨true, xs ++ bytes.drop xs.length⟩) (by simp [Heap.setBlk]), g2]
      simp

theorem ld_length {h : Heap α} {p : Option (Nat × Nat)} {n : Nat} {xs : List α} (hl : ld h p n = some xs) :
    xs.length = n := by
  unfold ld at hl
  split at hl
  · cases hl; simp_all
  · split at hl
    · cases hl
    · split at hl
      · cases hl
      · split at hl
        · cases hl; simp; omega
        · cases hl

/-- Overwriting the start of an owned block. -/
theorem st_eff {h h1 h2 : Heap α} {o o1 : Obj} {mf n : Nat} {xs : List α} (e : Eff h o h1 o1)
    (hl : xs.length = o1.size) (hcap : n + mf ≤ o1.cap) (hst : st h1 o1.ptr xs = some h2) : Eff h o h2 o1 := by
  unfold st at hst
  split at hst
  · cases hst; exact e
  · rename_i hx
    have hx' : xs.length ≠ 0 := by simpa using hx
    by_cases hc : o1.cap = 0
    · rcases e.ook.linked hc with ⟨_, h3⟩ | ⟨p, h3, b, h4, h5, _⟩
      · omega
      · obtain ⟨hp, bytes⟩ := b
        simp only at h5; subst h5
        rw [h3] at hst
        simp [h4] at hst
    · obtain ⟨id, b, h3, h4, h5, h6, _⟩ := e.ook.owned hc
      obtain ⟨hp, bytes⟩ := b
      simp only at h5; subst h5
      rw [h3] at hst
      simp only [h4, Nat.zero_add] at hst
      split at hst
      · cases hst
        exact e.trans (eff_set e.hok e.ook hc h3 h4 rfl _ (by simp; omega))
      · cases hst

theorem insert_spec (mf : Nat) {rot : List α → Nat → Nat → Nat → Option (List α)} (hr : RotateOK rot)
    {h : Heap α} {o : Obj} (ip n : Nat)
    (a : Option (Nat → α)) (hh : HOK h) (ho : OOK h o) (hip : ip ≤ o.size)
    (hlim : o.size + n + mf ≤ 2 ^ 31) :
    ∃ ok h' o', insert mf rot h o ip n a = some (ok, h', o') ∧ (ok = false → h' = h ∧ o' = o ∧ a = none) ∧
      Eff h o h' o' ∧ (ok = true → ∃ hole, hole.length = n ∧
        view h' o' = (view h o).take ip ++ hole ++ (view h o).drop ip) := by
  obtain ⟨ok, h1, o1, e1, e2, e3, e4⟩ := resize_spec mf (h := h) (o := o) (o.size + n) false a hh ho (fun _ => hlim)
  have hv := view_length ho
  unfold insert
  rw [if_pos hip, e1]
  cases ok with
  | false => exact ⟨false, h1, o1, rfl, e2, e3, by simp⟩
  | true =>
    obtain ⟨⟨g0, g1⟩, g2, g3, g4⟩ := e4 rfl
    rw [hv, List.take_of_length_le (l := view h o) (by omega)] at g1
    simp only
    unfold rotateIn
    rw [show o1.size - n = o.size by omega]
    by_cases h0 : ip = o.size ∨ o.size = o1.size
    · rw [if_pos h0]
      refine ⟨true, h1, o1, rfl, by simp, e3, fun _ => ⟨(view h1 o1).drop o.size, by simp [g0], ?_⟩⟩
      rcases h0 with h0 | h0
      · rw [h0, List.take_of_length_le (l := view h o) (by omega), List.drop_of_length_le (l := view h o) (by omega), ← g1]
        simp
      · have hn : n = 0 := by omega
        subst hn
        have : (view h1 o1).drop o.size = [] := List.drop_of_length_le (by omega)
        rw [this, List.append_nil, List.take_append_drop, ← g1, List.take_of_length_le (by omega)]
    · rw [if_neg h0]
      have hc : o1.cap ≠ 0 := by omega
      obtain ⟨id, b, k1, k2, k3, k4, k5⟩ := e3.ook.owned hc
      obtain ⟨hp, bytes⟩ := b
      simp only at k3 k4
      subst k3
      simp only [k1, k2, Nat.zero_add]
      rw [rot_at hr bytes hip (by omega) (by omega)]
      simp only
      have hvw : view h1 o1 = bytes.take o1.size := view_owned k1 k2
      have e5 := eff_set e3.hok e3.ook hc k1 k2 rfl (bytes.take ip ++ (bytes.drop o.size).take (o1.size - o.size) ++
        (bytes.drop ip).take (o.size - ip) ++ bytes.drop o1.size) (by simp; omega)
      refine ⟨true, _, o1, rfl, by simp, e3.trans e5, fun _ => ⟨(bytes.drop o.size).take n, by simp; omega, ?_⟩⟩
      rw [view_owned k1 (b := ⟨true, bytes.take ip ++ (bytes.drop o.size).take (o1.size - o.size) ++
        (bytes.drop ip).take (o.size - ip) ++ bytes.drop o1.size⟩) (if_pos rfl)]
      have e6 : view h o = bytes.take o.size := by
        rw [← g1, hvw, List.take_take]; congr 1; omega
      rw [e6]
      rw [List.take_left' (by simp; omega)]
      rw [List.take_take, Nat.min_eq_left hip, List.drop_take, show o1.size - o.size = n by omega]

theorem erase_spec (mf : Nat) {rot : List α → Nat → Nat → Nat → Option (List α)} (hr : RotateOK rot)
    {h : Heap α} {o : Obj} (ep n : Nat)
    (a : Option (Nat → α)) (hh : HOK h) (ho : OOK h o) (hep : ep + n ≤ o.size)
    (hlim : o.size + mf ≤ 2 ^ 31) :
    ∃ ok h' o', erase mf rot h o ep n a = some (ok, h', o') ∧ (ok = false → h' = h ∧ o' = o ∧ a = none) ∧
      Eff h o h' o' ∧ (ok = true → view h' o' = (view h o).take ep ++ (view h o).drop (ep + n)) := by
  obtain ⟨ok, h1, o1, e1, e2, e3, e4, e5, e6⟩ := reserve_spec mf (h := h) (o := o) o.size false a hh ho (fun _ => hlim) (by simp)
  have hv := view_length ho
  unfold erase
  rw [if_pos hep, e1]
  cases ok with
  | false => exact ⟨false, h1, o1, rfl, e2, e3, by simp⟩
  | true =>
    have hcap := e6 rfl
    simp only
    have hsz : ∀ h2 : Heap α, HOK h2 → OOK h2 o1 → Eff h2 o1 h2 { o1 with size := o1.size - n } := by
      intro h2 k1 k2
      refine Eff.size k1 (k2.resize ?_)
      by_cases hc : o1.cap = 0
      · right; omega
      · left; obtain ⟨_, _, _, _, _, _, k⟩ := k2.owned hc; omega
    unfold rotateIn
    by_cases h0 : ep = ep + n ∨ ep + n = o1.size
    · rw [if_pos h0]
      refine ⟨true, h1, _, rfl, by simp, e3.trans (hsz h1 e3.hok e3.ook), fun _ => ?_⟩
      rw [take_view (by omega), e4]
      rcases h0 with h0 | h0
      · have hn : n = 0 := by omega
        subst hn
        rw [List.take_of_length_le (by omega), Nat.add_zero, List.take_append_drop]
      · rw [List.drop_of_length_le (l := view h o) (by omega), List.append_nil]; congr 1; omega
    · rw [if_neg h0]
      have hc : o1.cap ≠ 0 := by omega
      obtain ⟨id, b, k1, k2, k3, k4, k5⟩ := e3.ook.owned hc
      obtain ⟨hp, bytes⟩ := b
      simp only at k3 k4
      subst k3
      simp only [k1, k2, Nat.zero_add]
      rw [rot_at hr bytes (by omega) (by omega) (by omega)]
      simp only
      have hvw : view h o = bytes.take o1.size := by rw [← e4]; exact view_owned k1 k2
      have e7 := eff_set e3.hok e3.ook hc k1 k2 rfl (bytes.take ep ++ (bytes.drop (ep + n)).take (o1.size - (ep + n)) ++
        (bytes.drop ep).take (ep + n - ep) ++ bytes.drop o1.size) (by simp; omega)
      have e8 := e3.trans e7
      refine ⟨true, _, { o1 with size := o1.size - n }, by simp only [k1], by simp, e8.trans (hsz _ e8.hok e8.ook), fun _ => ?_⟩
      rw [take_view (o := o1) (n := o1.size - n) (by omega), view_owned k1 (b := ⟨true, bytes.take ep ++ (bytes.drop (ep + n)).take (o1.size - (ep + n)) ++
        (bytes.drop ep).take (ep + n - ep) ++ bytes.drop o1.size⟩) (if_pos rfl), hvw,
        List.take_take, Nat.min_eq_left (by omega), List.append_assoc (_ ++ _), List.take_left' (by simp; omega),
        List.take_take, Nat.min_eq_left (by omega), List.drop_take]

theorem deallocate_spec {h : Heap α} {o : Obj} (hh : HOK h) (ho : OOK h o) :
    ∃ h', deallocate h o = some (h', Obj.empty) ∧ Eff h o h' Obj.empty ∧
      (o.cap ≠ 0 → ∀ p, o.ptr = some p → h'.blk p.1 = none) := by
  have hemp : ∀ h2 : Heap α, OOK h2 Obj.empty := fun h2 =>
    ⟨fun hc => absurd rfl hc, fun _ => Or.inl ⟨rfl, rfl⟩⟩
  unfold deallocate
  by_cases hc : o.cap = 0
  · rw [if_neg (by simpa using hc)]
    exact ⟨h, rfl, ⟨⟨hh, hemp h, fun _ _ _ => rfl, Nat.le_refl _, fun h => absurd rfl h, fun _ _ h _ => h⟩,
      fun id b h1 h2 => Or.inr ⟨⟨b, h1, h2⟩, fun h => h.1 hc⟩⟩, fun h => absurd hc h⟩
  · rw [if_pos hc]
    obtain ⟨id, b, h1, h2, h3, h4, h5⟩ := ho.owned hc
    obtain ⟨hp, bytes⟩ := b
    simp only at h3; subst h3
    simp only [h1, Heap.free, h2]
    have hset : ∀ k b, (h.setBlk id none).blk k = some b → k ≠ id ∧ h.blk k = some b := by
      intro k b g
      by_cases hk : k = id
      · simp [Heap.setBlk, hk] at g
      · exact ⟨hk, by simpa [Heap.setBlk, hk] using g⟩
    refine ⟨h.setBlk id none, rfl, ⟨⟨?_, hemp _, ?_, Nat.le_refl _, fun h => absurd rfl h,
      fun k b g _ => (hset k b g).2⟩, fun k b g1 g2 => Or.inr ⟨⟨b, (hset k b g1).2, g2⟩, fun g3 => ?_⟩⟩, ?_⟩
    · intro k hk
      have hk' : h.next ≤ k := hk
      simp only [Heap.setBlk]
      split
      · rfl
      · exact hh k hk'
    · intro k hk hne
      have : k ≠ id := by
        rintro rfl
        rcases hne with h6 | h6
        · exact hc h6
        · exact h6 h1
      simp [Heap.setBlk, this]
    · have := g3.2; rw [h1] at this; cases this; exact (hset _ b g1).1 rfl
    · intro _ p hp; cases hp; simp [Heap.setBlk]

theorem shrink_spec {h : Heap α} {o : Obj} (a : Option (Nat → α)) (hh : HOK h) (ho : OOK h o) :
    ∃ ok h' o', shrinkToFit h o a = some (ok, h', o') ∧ (ok = false → h' = h ∧ o' = o ∧ a = none) ∧
      Eff h o h' o' ∧ view h' o' = view h o ∧ (ok = true → o.cap ≠ 0 → o'.cap = o.size) := by
  unfold shrinkToFit
  by_cases hc : o.cap = 0
  · rw [if_pos hc]
    exact ⟨true, h, o, rfl, by simp, Eff.refl hh ho, rfl, fun _ h => absurd hc h⟩
  · rw [if_neg hc]
    obtain ⟨id, b, h1, h2, h3, h4, h5⟩ := ho.owned hc
    have hlt := hh.lt h2
    obtain ⟨hp, bytes⟩ := b
    simp only at h3 h4; subst h3
    simp only [h1, realloc, h2]
    rw [if_neg (by simp)]
    have hkeep : ∀ k, (o.cap = 0 ∨ o.ptr ≠ some (k, 0)) → k ≠ id := by
      rintro k hne rfl
      rcases hne with h6 | h6
      · exact hc h6
      · exact h6 h1
    have hset : ∀ k b, (h.setBlk id none).blk k = some b → k ≠ id ∧ h.blk k = some b := by
      intro k b g
      by_cases hk : k = id
      · simp [Heap.setBlk, hk] at g
      · exact ⟨hk, by simpa [Heap.setBlk, hk] using g⟩
    by_cases hz : o.size = 0
    · rw [if_pos hz]
      simp only [hz]
      refine ⟨true, h.setBlk id none, ⟨none, 0, 0⟩, by simp, by simp, ⟨⟨?_, ⟨fun h => absurd rfl h, fun _ => Or.inl ⟨rfl, rfl⟩⟩, ?_,
        Nat.le_refl _, fun h => absurd rfl h, fun k b g _ => (hset k b g).2⟩,
        fun k b g1 g2 => Or.inr ⟨⟨b, (hset k b g1).2, g2⟩, fun g3 => ?_⟩⟩, ?_, fun _ _ => rfl⟩
      · intro k hk
        have hk' : h.next ≤ k := hk
        simp only [Heap.setBlk]
        split
        · rfl
        · exact hh k hk'
      · intro k hk hne
        simp [Heap.setBlk, hkeep k hne]
      · have := g3.2; rw [h1] at this; cases this; exact (hset _ b g1).1 rfl
      · rw [view_owned h1 h2, hz]; simp [view]
    · rw [if_neg hz]
      cases a with
      | none => exact ⟨false, h, o, by simp [hz], fun _ => ⟨rfl, rfl, rfl⟩, Eff.refl hh ho, rfl, by simp⟩
      | some junk =>
        simp only
        have hb : ((h.setBlk id none).malloc o.size bytes junk).blk h.next =
            some ⟨true, bytes.take o.size ++ (List.range (o.size - bytes.length)).map junk⟩ := by
          simp [Heap.malloc, Heap.setBlk]
        refine ⟨true, _, _, rfl, by simp, eff_fresh hh rfl hb (by simp; omega) (Nat.le_refl _) hz ?_ ?_ ?_, ?_, fun _ _ => rfl⟩
        · intro k hk hne; simp [Heap.malloc, Heap.setBlk, hk, hkeep k hne]
        · intro k hk
          have h6 : k ≠ h.next := by omega
          have h7 : k ≠ id := by omega
          simp [Heap.malloc, Heap.setBlk, h6, h7, hh k (by omega)]
        · intro k h6 _ h7; rw [h1] at h7; cases h7; simp [Heap.malloc, Heap.setBlk, h6]
        · rw [view_owned h1 h2, view_owned (o := ⟨some (h.next, 0), o.size, o.size⟩) rfl hb]
          simp only
          rw [List.take_append_of_le_length (by simp; omega), List.take_take, Nat.min_self]

end Ustl.Memblock
