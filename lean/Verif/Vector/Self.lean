import Verif.Vector.Props
/-!
# A vector edited with its own elements (C101)

The source is an element, or a piece, of the very vector; it is read where it was before the call, after the vector was resized and the elements after the place
were moved. Reading a destroyed or not yet constructed element, and reading a freed block, are undefined behaviour (`none`).
-/
namespace Ustl.Vector
open Ustl.Memblock
variable {β T : Type _} (enc : T → List β) (sz : Nat) (rot : List (Cell β) → Nat → Nat → Nat → Option (List (Cell β)))

/-! ## The code -/

/-- One element constructed (`fresh`) or assigned at `dst` from the element at `src`. Models umemory.h:315-316 (`construct_at (p, v)`) and an element's
`operator=`, as used by `copy` and `fill` (ualgobase.h:78-83, 133-137). -/
def copyCell (fresh : Bool) (h : Heap (Cell β)) (dst src : Option (Nat × Nat)) : Option (Heap (Cell β)) :=
  match ld h src sz with
  | none => none
  | some bs => if bs.all (fun c => !c.isRaw) && cellsAre (fun c => c.isRaw == fresh) h dst sz then st h dst bs else none

/-- `n` elements from `dst` up, the source moving `stride` bytes at a time: `sz` for a range, 0 for one value. Models umemory.h:441-446, 463-478
(`uninitialized_copy`, `uninitialized_fill`, `uninitialized_fill_n`) and ualgobase.h:78-83, 133-137 (`copy`, `fill`). -/
def copyLoop (fresh : Bool) (h : Heap (Cell β)) (dst src : Option (Nat × Nat)) (stride : Nat) : Nat → Option (Heap (Cell β))
  | 0 => some h
  | n + 1 =>
    match copyCell sz fresh h dst src with
    | none => none
    | some h1 => copyLoop fresh h1 (adv dst sz) (adv src stride) stride n

/-- `resize (n, v)` with a value from elsewhere; elements of a `pod` type are not destroyed (their destructors are no-ops and are not called).
Models uvector.h:164-175 and umemory.h:385-404. A shrinking `resize` never asks for memory: a vector's size does not exceed its capacity. -/
def resizeP (pod : Bool) (h : Heap (Cell β)) (o : Obj) (n : Nat) (v : T) (a : Bool) : Option (Bool × Heap (Cell β) × Obj) :=
  if pod = true ∧ n * sz < o.size then some (true, h, { o with size := n * sz }) else resizeV enc sz h o n v a

/-- `v.assign (v.begin() + s, v.begin() + s + n)` (`stride = sz`), `v = v`, and `v.assign (n, v[s])` (`stride = 0`). Models uvector.h:231-254. -/
def assignOwn (pod : Bool) (h : Heap (Cell β)) (o : Obj) (s stride n : Nat) (dflt : T) (a : Bool) : Option (Bool × Heap (Cell β) × Obj) :=
  match resizeP enc sz pod h o n dflt a with
  | none => none
  | some (false, h1, o1) => some (false, h1, o1)
  | some (true, h1, o1) =>
    match copyLoop sz false h1 o1.ptr (adv o.ptr (s * sz)) stride n with
    | none => none
    | some h2 => some (true, h2, o1)

/-- `v.resize (n, v[k])`. Models uvector.h:164-175. -/
def resizeOwn (h : Heap (Cell β)) (o : Obj) (n k : Nat) (a : Bool) : Option (Bool × Heap (Cell β) × Obj) :=
  match reserve 0 h o (n * sz) false (allocAns a) with
  | none => none
  | some (false, h1, o1) => some (false, h1, o1)
  | some (true, h1, o1) =>
    if n * sz < o1.size then
      match destroyN h1 (adv o1.ptr (n * sz)) (o1.size - n * sz) with
      | none => none
      | some h2 => some (true, h2, { o1 with size := n * sz })
    else
      match copyLoop sz true h1 (adv o1.ptr o1.size) (adv o.ptr (k * sz)) 0 (n - o1.size / sz) with
      | none => none
      | some h2 => some (true, h2, { o1 with size := n * sz })

/-- `v.insert (v.begin() + ip, v.begin() + s, v.begin() + s + n)` (`stride = sz`), `v.insert (v.begin() + ip, n, v[s])` (`stride = 0`), and
`v.insert (v.begin() + ip, v[s])` (`n = 1`). Models uvector.h:256-300. -/
def insertOwn (h : Heap (Cell β)) (o : Obj) (ip s stride n : Nat) (a : Bool) : Option (Bool × Heap (Cell β) × Obj) :=
  match reserve 0 h o ((o.size / sz + n) * sz) false (allocAns a) with
  | none => none
  | some (false, h1, o1) => some (false, h1, o1)
  | some (true, h1, o1) =>
    match Memblock.insert 0 rot h1 o1 (ip * sz) (n * sz) (allocAns a) with
    | none => none
    | some (false, h2, o2) => some (false, h2, o2)
    | some (true, h2, o2) =>
      match copyLoop sz true h2 (adv o2.ptr (ip * sz)) (adv o.ptr (s * sz)) stride n with
      | none => none
      | some h3 => some (true, h3, o2)

/-! ## Blocks as rows of slots -/

variable {enc sz rot}

/-- A slot of a block: an element or raw storage. -/
def slot (enc : T → List β) (sz : Nat) : Option T → List (Cell β)
  | none => List.replicate sz .raw
  | some t => (enc t).map .live

/-- Several slots. -/
def slots (enc : T → List β) (sz : Nat) (ss : List (Option T)) : List (Cell β) := ss.flatMap (slot enc sz)

theorem slot_length (henc : ∀ t, (enc t).length = sz) (x : Option T) : (slot enc sz x).length = sz := by
  cases x <;> simp [slot, henc]

theorem slots_length (henc : ∀ t, (enc t).length = sz) (ss : List (Option T)) : (slots enc sz ss).length = ss.length * sz := by
  induction ss with
  | nil => simp [slots]
  | cons x ss ih =>
    simp only [slots, List.flatMap_cons, List.length_append, slot_length henc] at ih ⊢
    rw [ih, List.length_cons, Nat.succ_mul, Nat.add_comm]

theorem slots_append (a b : List (Option T)) : slots enc sz (a ++ b) = slots enc sz a ++ slots enc sz b := by simp [slots]

theorem slots_some (xs : List T) : slots enc sz (xs.map some) = lv enc xs := by
  simp [slots, lv, List.flatMap_map]; rfl

theorem slots_none (n : Nat) : slots enc sz (List.replicate n (none : Option T)) = List.replicate (n * sz) (Cell.raw : Cell β) := by
  induction n with
  | zero => simp [slots]
  | succ n ih =>
    rw [List.replicate_succ, show (none :: List.replicate n (none : Option T)) = [none] ++ List.replicate n none from rfl, slots_append, ih, Nat.succ_mul, Nat.add_comm]
    rw [← List.replicate_append_replicate]
    simp [slots, slot]

/-- Is the slot raw? -/
def isNone : Option T → Bool
  | none => true
  | some _ => false

theorem slot_all (henc : ∀ t, (enc t).length = sz) (hsz : 0 < sz) (x : Option T) (f : Bool) :
    (slot enc sz x).all (fun c => c.isRaw == f) = (isNone x == f) := by
  cases x with
  | none => cases f <;> simp [slot, Cell.isRaw, isNone] <;> omega
  | some t =>
    have := henc t
    have h1 : (enc t) ≠ [] := by intro h; rw [h] at this; simp at this; omega
    cases f
    · simp [slot, Cell.isRaw, isNone]
    · cases he : enc t with
      | nil => exact absurd he h1
      | cons b bs => simp [slot, he, Cell.isRaw, isNone]

/-- The loop on slots. -/
def copySlots (fresh : Bool) : List (Option T) → Nat → Nat → Nat → Nat → Option (List (Option T))
  | ss, _, _, _, 0 => some ss
  | ss, d, s, st, n + 1 =>
    match ss[s]?, ss[d]? with
    | some (some t), some x => if isNone x = fresh then copySlots fresh (ss.set d (some t)) (d + 1) (s + st) st n else none
    | _, _ => none

theorem split_at {l : List α} {k : Nat} {x : α} (h : l[k]? = some x) : ∃ A C, l = A ++ [x] ++ C ∧ A.length = k := by
  obtain ⟨hk, hx⟩ := List.getElem?_eq_some_iff.1 h
  refine ⟨l.take k, l.drop (k + 1), ?_, by simp; omega⟩
  rw [← hx]
  simp

theorem ld_slot (henc : ∀ t, (enc t).length = sz) {h : Heap (Cell β)} {id k : Nat} {ss : List (Option T)} {slack : List (Cell β)} {b : Bool} {x : Option T}
    (hb : h.blk id = some ⟨b, slots enc sz ss ++ slack⟩) (hx : ss[k]? = some x) : ld h (some (id, k * sz)) sz = some (slot enc sz x) := by
  obtain ⟨A, C, rfl, hA⟩ := split_at hx
  rw [slots_append, slots_append, List.append_assoc] at hb
  have h1 : slots enc sz [x] = slot enc sz x := by simp [slots]
  rw [h1] at hb
  exact ld_at hb (by rw [slots_length henc, hA]) (slot_length henc x).symm

theorem copyCell_slots (henc : ∀ t, (enc t).length = sz) (hsz : 0 < sz) {h : Heap (Cell β)} {id d s : Nat} {ss : List (Option T)} {slack : List (Cell β)}
    {x y : Option T} (fresh : Bool) (hb : h.blk id = some ⟨true, slots enc sz ss ++ slack⟩) (hs : ss[s]? = some x) (hd : ss[d]? = some y) :
    copyCell sz fresh h (some (id, d * sz)) (some (id, s * sz)) =
      if isNone x = false ∧ isNone y = fresh then some (h.setBlk id (some ⟨true, slots enc sz (ss.set d x) ++ slack⟩)) else none := by
  have h1 : (slot enc sz x).all (fun c => !c.isRaw) = (isNone x == false) := by
    rw [← slot_all henc hsz x false]
    congr 1
    funext c
    cases c.isRaw <;> rfl
  have h2 : cellsAre (fun c => c.isRaw == fresh) h (some (id, d * sz)) sz = (isNone y == fresh) := by
    unfold cellsAre
    rw [ld_slot henc hb hd]
    exact slot_all henc hsz y fresh
  unfold copyCell
  rw [ld_slot henc hb hs]
  simp only [h1, h2]
  by_cases hc : isNone x = false ∧ isNone y = fresh
  · rw [if_pos hc, if_pos (by rw [hc.1, hc.2]; simp)]
    obtain ⟨A, C, rfl, hA⟩ := split_at hd
    have e1 : (A ++ [y] ++ C).set d x = A ++ [x] ++ C := by
      rw [List.append_assoc, List.set_append_right _ _ (by omega), hA, Nat.sub_self]
      simp
    rw [e1, slots_append, slots_append, List.append_assoc _ _ slack, show slots enc sz [x] = slot enc sz x by simp [slots]]
    rw [slots_append, slots_append, List.append_assoc _ _ slack, show slots enc sz [y] = slot enc sz y by simp [slots]] at hb
    exact st_at hb (by rw [slots_length henc, hA]) (by rw [slot_length henc, slot_length henc])
  · rw [if_neg hc, if_neg]
    intro h2
    apply hc
    simpa using h2

/-- The loop over bytes is the loop over slots. -/
theorem copyLoop_slots (henc : ∀ t, (enc t).length = sz) (hsz : 0 < sz) {id : Nat} {slack : List (Cell β)} (fresh : Bool) (st : Nat) :
    ∀ (n : Nat) (h : Heap (Cell β)) (ss : List (Option T)) (d s : Nat), h.blk id = some ⟨true, slots enc sz ss ++ slack⟩ → d + n ≤ ss.length →
      (∀ t, t < n → s + t * st < ss.length) →
      copyLoop sz fresh h (some (id, d * sz)) (some (id, s * sz)) (st * sz) n =
        (copySlots fresh ss d s st n).map fun ss' => h.setBlk id (some ⟨true, slots enc sz ss' ++ slack⟩)
  | 0, h, ss, d, s, hb, _, _ => by
    simp only [copyLoop, copySlots, Option.map_some]
    rw [setBlk_self hb]
  | n + 1, h, ss, d, s, hb, hd, hs => by
    have hs0 : s < ss.length := by simpa using hs 0 (by omega)
    have gs : ss[s]? = some ss[s] := List.getElem?_eq_getElem hs0
    have gd : ss[d]? = some (ss[d]'(by omega)) := List.getElem?_eq_getElem (by omega)
    unfold copyLoop copySlots
    rw [copyCell_slots henc hsz fresh hb gs gd, gs, gd]
    generalize ss[s] = x
    generalize ss[d]'(by omega) = y
    cases x with
    | none => simp [isNone]
    | some t =>
      by_cases hy : isNone y = fresh
      · rw [if_pos ⟨rfl, hy⟩]
        simp only
        rw [if_pos hy]
        have e1 : adv (some (id, d * sz)) sz = some (id, (d + 1) * sz) := by simp [adv, Nat.succ_mul]
        have e2 : adv (some (id, s * sz)) (st * sz) = some (id, (s + st) * sz) := by simp [adv, Nat.add_mul]
        rw [e1, e2, copyLoop_slots henc hsz fresh st n _ (ss.set d (some t)) (d + 1) (s + st) (setBlk_get _) (by simp; omega)]
        · congr 1
          funext ss'
          rw [setBlk_setBlk]
        · intro t' ht'
          have := hs (t' + 1) (by omega)
          rw [List.length_set]
          rw [Nat.succ_mul] at this
          omega
      · rw [if_neg (fun hc => hy hc.2)]
        simp only
        rw [if_neg hy]
        rfl

/-- What the loop writes: every element read is one already written, or one still as it was. -/
theorem copySlots_ok (fresh : Bool) (st : Nat) : ∀ (ys : List T) (A M C : List (Option T)) (s : Nat), M.length = ys.length → (∀ x ∈ M, isNone x = fresh) →
    (∀ t y, ys[t]? = some y → (s + t * st < A.length + t ∧ (A ++ ys.map some)[s + t * st]? = some (some y)) ∨
      (A.length + t ≤ s + t * st ∧ (A ++ M ++ C)[s + t * st]? = some (some y))) →
    copySlots fresh (A ++ M ++ C) A.length s st ys.length = some (A ++ ys.map some ++ C)
  | [], A, M, C, s, hm, _, _ => by
    have : M = [] := List.length_eq_zero_iff.1 (by simpa using hm)
    subst this
    simp [copySlots]
  | y :: ys, A, [], C, s, hm, _, _ => by simp at hm
  | y :: ys, A, m :: M, C, s, hm, hM, hr => by
    have h0 : (A ++ (m :: M) ++ C)[s]? = some (some y) := by
      rcases hr 0 y rfl with ⟨h1, h2⟩ | ⟨h1, h2⟩
      · simp only [Nat.zero_mul, Nat.add_zero] at h1 h2
        rw [List.getElem?_append_left h1] at h2
        rw [List.append_assoc, List.getElem?_append_left h1, h2]
      · simpa using h2
    have hd : (A ++ (m :: M) ++ C)[A.length]? = some m := by simp
    rw [List.length_cons]
    unfold copySlots
    rw [h0, hd]
    simp only
    rw [if_pos (hM m (by simp))]
    have e1 : (A ++ (m :: M) ++ C).set A.length (some y) = (A ++ [some y]) ++ M ++ C := by
      rw [List.append_assoc, List.set_append_right _ _ (Nat.le_refl _), Nat.sub_self]
      simp
    have e2 : A.length + 1 = (A ++ [some y]).length := by simp
    rw [e1, e2, copySlots_ok fresh st ys (A ++ [some y]) M C (s + st) (by simpa using hm) (fun x hx => hM x (by simp [hx]))]
    · simp
    · intro t z hz
      have hi : s + st + t * st = s + (t + 1) * st := by rw [Nat.succ_mul]; omega
      rw [hi]
      rcases hr (t + 1) z (by simpa using hz) with ⟨h1, h2⟩ | ⟨h1, h2⟩
      · left
        refine ⟨by simp; omega, ?_⟩
        rw [← h2]
        simp
      · right
        refine ⟨by simp; omega, ?_⟩
        rw [← h2, ← e1, List.getElem?_set_ne (by omega)]

/-- Reading a raw slot is undefined. -/
theorem copySlots_raw (fresh : Bool) {ss : List (Option T)} {d s st n : Nat} (hs : ss[s]? = some none) (hn : 0 < n) : copySlots fresh ss d s st n = none := by
  obtain ⟨n, rfl⟩ : ∃ m, n = m + 1 := ⟨n - 1, by omega⟩
  unfold copySlots
  rw [hs]

/-- Assignment over live elements does not make a raw slot live, so a raw slot that is read is still raw. -/
theorem copySlots_dead (st : Nat) : ∀ (n : Nat) (ss : List (Option T)) (d s t : Nat), t < n → ss[s + t * st]? = some none → copySlots false ss d s st n = none
  | 0, _, _, _, _, ht, _ => by omega
  | n + 1, ss, d, s, 0, _, hr => copySlots_raw false (by simpa using hr) (by omega)
  | n + 1, ss, d, s, t + 1, ht, hr => by
    unfold copySlots
    split
    · rename_i t' x h1 h2
      split
      · rename_i hx
        apply copySlots_dead st n _ (d + 1) (s + st) t (by omega)
        have hi : s + st + t * st = s + (t + 1) * st := by rw [Nat.succ_mul]; omega
        rw [hi, List.getElem?_set]
        split
        · rename_i he
          rw [← he, h2] at hr
          cases hr
          cases hx
        · exact hr
      · rfl
    · rfl

end Ustl.Vector
