import Verif.Vector.Own
/-!
# A vector edited with its own elements: push_back, resize, insert (C101)
-/
namespace Ustl.Vector
open Ustl.Memblock
variable {β T : Type _} {enc : T → List β} {sz : Nat} {rot : List (Cell β) → Nat → Nat → Nat → Option (List (Cell β))}

/-- Raw storage at the end of the elements, as slots. -/
theorem tail_slots {xs : List T} {size cap : Nat} (m : Nat) (hs : size = xs.length * sz) (hm : (xs.length + m) * sz ≤ cap) :
    lv enc xs ++ List.replicate (cap - size) (Cell.raw : Cell β) =
      slots enc sz (xs.map some ++ List.replicate m none) ++ List.replicate (cap - (xs.length + m) * sz) Cell.raw := by
  have hmul : (xs.length + m) * sz = xs.length * sz + m * sz := Nat.add_mul ..
  rw [slots_append, slots_some, slots_none, List.append_assoc, List.replicate_append_replicate]
  congr 2
  omega

/-- The construction loop, as slots: the elements read are old ones or ones already made. -/
theorem build_block (henc : ∀ t, (enc t).length = sz) (hsz : 0 < sz) {h : Heap (Cell β)} {id s st : Nat} {slack : List (Cell β)} (A C : List (Option T)) (ys : List T)
    (hb : h.blk id = some ⟨true, slots enc sz (A ++ List.replicate ys.length none ++ C) ++ slack⟩)
    (hr : ∀ t y, ys[t]? = some y → (s + t * st < A.length + t ∧ (A ++ ys.map some)[s + t * st]? = some (some y)) ∨
      (A.length + t ≤ s + t * st ∧ (A ++ List.replicate ys.length none ++ C)[s + t * st]? = some (some y))) :
    copyLoop sz true h (some (id, A.length * sz)) (some (id, s * sz)) (st * sz) ys.length =
      some (h.setBlk id (some ⟨true, slots enc sz (A ++ ys.map some ++ C) ++ slack⟩)) := by
  have hlen : (A ++ List.replicate ys.length (none : Option T) ++ C).length = A.length + ys.length + C.length := by simp; omega
  rw [copyLoop_slots henc hsz true st ys.length h _ A.length s hb (by rw [hlen]; omega),
    copySlots_ok true st ys A (List.replicate ys.length none) C s (by simp) (by intro x hx; rw [(List.mem_replicate.1 hx).2]; rfl) hr]
  · rfl
  · intro t ht
    rcases hr t ys[t] (List.getElem?_eq_getElem ht) with ⟨h1, _⟩ | ⟨_, h2⟩
    · rw [hlen]; omega
    · exact (List.getElem?_eq_some_iff.1 h2).1

/-! ### push_back -/

/-- **C101** `v.push_back (v[k])` with room for it. Missing: no room (`push_back_own_violated`). -/
theorem push_back_own_partial (henc : ∀ t, (enc t).length = sz) {h : Heap (Cell β)} {o : Obj} {xs : List T} (hv : VRep enc sz h o xs)
    (k : Nat) (hk : k < xs.length) (hn : (xs.length + 1) * sz ≤ o.cap) (a : Bool) : InPlace enc sz h o (xs ++ [xs[k]]) (pushBackRef sz h o k a) := by
  obtain ⟨id, g1, g2, g3, g4, g5⟩ := hv.place (by rintro rfl; simp at hk)
  have hmul : (xs.length + 1) * sz = xs.length * sz + 1 * sz := Nat.add_mul ..
  unfold pushBackRef appendHole
  simp only
  rw [reserve_noop 0 _ _ _ (by omega)]
  simp only [g1, adv, Option.map_some, Nat.zero_add]
  have hb : h.blk id = some ⟨true, slots enc sz (xs.map some) ++ List.replicate (o.cap - o.size) Cell.raw⟩ := by rw [g5, slots_some]
  rw [ld_slot henc hb (x := some xs[k]) (by rw [List.getElem?_map, List.getElem?_eq_getElem hk]; rfl)]
  simp only
  have hb2 : h.blk id = some ⟨true, lv enc xs ++ List.replicate sz Cell.raw ++ List.replicate (o.cap - (xs.length + 1) * sz) Cell.raw⟩ := by
    rw [g5, List.append_assoc, List.replicate_append_replicate]
    congr 4
    omega
  rw [st_at hb2 (by rw [lv_length henc, g3]) (by rw [slot_length henc, List.length_replicate])]
  have hs : lv enc xs ++ slot enc sz (some xs[k]) = slots enc sz ((xs ++ [xs[k]]).map some) := by
    rw [slots_some, lv_append]
    congr 1
    simp [lv, slot]
  have hl : o.size + 1 * sz = (xs ++ [xs[k]]).length * sz := by rw [List.length_append, List.length_singleton, g3, hmul]
  have hx := inPlace_block (enc := enc) (sz := sz) (h := h) (h' := h) (xs ++ [xs[k]]) g1 g2 (by simpa using hn) (fun _ _ => rfl)
  rw [hs, hl]
  simpa [g1] using hx

/-- **C101** is false of a full vector: the element is read from the block that was freed; if the allocator refuses, nothing changes. -/
theorem push_back_own_violated (henc : ∀ t, (enc t).length = sz) (hsz : 0 < sz) {h : Heap (Cell β)} {o : Obj} {xs : List T} (hh : HOK h)
    (hv : VRep enc sz h o xs) (k : Nat) (hk : k < xs.length) (hn : o.cap < (xs.length + 1) * sz) (hlim : (xs.length + 1) * sz ≤ 2 ^ 31) :
    pushBackRef sz h o k true = none ∧ pushBackRef sz h o k false = some (false, h, o) := by
  obtain ⟨id, g1, g2, g3, g4, g5⟩ := hv.place (by rintro rfl; simp at hk)
  have hmul : (xs.length + 1) * sz = o.size + 1 * sz := by rw [g3]; exact Nat.add_mul ..
  rw [hmul] at hn hlim
  unfold pushBackRef appendHole
  constructor
  · obtain ⟨h1, o1, e1, e2, e3, e4, j, e5, e6⟩ := reserve_moves henc (o.size + 1 * sz) hh hv g1 g2 hn hlim
    simp only
    rw [e1]
    simp only [g1, adv, Option.map_some]
    unfold ld
    rw [if_neg (by omega)]
    simp only [e3]
  · rw [reserve_refused (o.size + 1 * sz) g1 g2 g5 hn hlim]

/-! ### resize -/

/-- **C101** `v.resize (n, v[k])` that shrinks: the value is not read. -/
theorem resize_own_shrink_partial (henc : ∀ t, (enc t).length = sz) (hsz : 0 < sz) {h : Heap (Cell β)} {o : Obj} {xs : List T} (hv : VRep enc sz h o xs)
    (n k : Nat) (hn : n < xs.length) (a : Bool) : InPlace enc sz h o (xs.take n) (resizeOwn sz h o n k a) := by
  obtain ⟨id, g1, g2, g3, g4, g5⟩ := hv.place (by rintro rfl; simp at hn)
  have hns : n * sz < xs.length * sz := Nat.mul_lt_mul_of_pos_right hn hsz
  have hx : xs ≠ [] := by rintro rfl; simp at hn
  have hr := resize_block henc hsz n (xs.head hx) a g1 g3 g4 g5 (by omega)
  unfold resizeV at hr
  simp only at hr
  unfold resizeOwn
  rw [reserve_noop 0 (n * sz) _ _ (by omega)] at hr ⊢
  simp only at hr ⊢
  rw [if_pos (by omega)] at hr ⊢
  cases hd : destroyN h (adv o.ptr (n * sz)) (o.size - n * sz) with
  | none => rw [hd] at hr; cases hr
  | some h2 =>
  rw [hd] at hr
  simp only at hr ⊢
  rw [hr]
  have hl : (xs.take n).length = n := by simp; omega
  have hb := inPlace_block (enc := enc) (sz := sz) (h := h) (h' := h) (xs.take n) g1 g2 (by rw [hl]; omega) (fun _ _ => rfl)
  rw [hl, slots_some] at hb
  rw [show n - xs.length = 0 by omega, List.replicate_zero, List.append_nil]
  exact hb

/-- **C101** `v.resize (n, v[k])` that grows, with the room. Missing: no room (`resize_own_violated`). -/
theorem resize_own_partial (henc : ∀ t, (enc t).length = sz) (hsz : 0 < sz) {h : Heap (Cell β)} {o : Obj} {xs : List T} (hv : VRep enc sz h o xs)
    (n k : Nat) (hk : k < xs.length) (hn : xs.length ≤ n) (hc : n * sz ≤ o.cap) (a : Bool) :
    InPlace enc sz h o (xs ++ List.replicate (n - xs.length) xs[k]) (resizeOwn sz h o n k a) := by
  obtain ⟨id, g1, g2, g3, g4, g5⟩ := hv.place (by rintro rfl; simp at hk)
  have hns := Nat.mul_le_mul_right sz hn
  have hdiv : o.size / sz = xs.length := by rw [g3]; exact Nat.mul_div_cancel _ hsz
  unfold resizeOwn
  rw [reserve_noop 0 (n * sz) _ _ (by omega)]
  simp only
  rw [if_neg (by omega), hdiv]
  have hb : h.blk id = some ⟨true, slots enc sz (xs.map some ++ List.replicate (List.replicate (n - xs.length) xs[k]).length none ++ []) ++
      List.replicate (o.cap - n * sz) Cell.raw⟩ := by
    rw [List.length_replicate, List.append_nil, g5, tail_slots (n - xs.length) g3 (by rw [Nat.add_sub_cancel' hn]; exact hc), Nat.add_sub_cancel' hn]
  have e := build_block henc hsz (s := k) (st := 0) (xs.map some) [] (List.replicate (n - xs.length) xs[k]) hb
    (by
      intro t y hy
      left
      rw [List.getElem?_replicate] at hy
      split at hy
      · cases hy
        refine ⟨by simp; omega, ?_⟩
        rw [Nat.mul_zero, Nat.add_zero, List.getElem?_append_left (by simpa using hk), List.getElem?_map, List.getElem?_eq_getElem hk]
        rfl
      · cases hy)
  rw [List.length_replicate, List.length_map, Nat.zero_mul, List.append_nil, ← List.map_append] at e
  simp only [g1, adv, Option.map_some, Nat.zero_add]
  rw [g3, e]
  have hl : (xs ++ List.replicate (n - xs.length) xs[k]).length = n := by simp; omega
  have hx := inPlace_block (enc := enc) (sz := sz) (h := h) (h' := h) (xs ++ List.replicate (n - xs.length) xs[k]) g1 g2 (by rw [hl]; exact hc) (fun _ _ => rfl)
  rw [hl] at hx
  simpa [g1] using hx

/-- **C101** is false of a `resize` without the room. -/
theorem resize_own_violated (henc : ∀ t, (enc t).length = sz) (hsz : 0 < sz) {h : Heap (Cell β)} {o : Obj} {xs : List T} (hh : HOK h)
    (hv : VRep enc sz h o xs) (n k : Nat) (hk : k < xs.length) (hn : o.cap < n * sz) (hlim : n * sz ≤ 2 ^ 31) :
    resizeOwn sz h o n k true = none ∧ resizeOwn sz h o n k false = some (false, h, o) := by
  obtain ⟨id, g1, g2, g3, g4, g5⟩ := hv.place (by rintro rfl; simp at hk)
  unfold resizeOwn
  constructor
  · obtain ⟨h1, o1, e1, e2, e3, e4, j, e5, e6⟩ := reserve_moves henc (n * sz) hh hv g1 g2 hn hlim
    have hs1 := e2.size
    have hlt : xs.length < n := Nat.lt_of_mul_lt_mul_right (a := sz) (by omega)
    have hdiv : o1.size / sz = xs.length := by rw [hs1]; exact Nat.mul_div_cancel _ hsz
    rw [e1]
    simp only
    rw [if_neg (by omega), g1, hdiv]
    simp only [adv, Option.map_some]
    rw [copyLoop_freed hsz true e3 _ _ _ _ (by omega)]
  · rw [reserve_refused (n * sz) g1 g2 g5 hn hlim]

/-! ### insert -/

/-- `insert` in a vector with the room: the construction loop runs over the hole. -/
theorem insert_block (hr : RotateOK rot) (henc : ∀ t, (enc t).length = sz) (hsz : 0 < sz) {h : Heap (Cell β)} {o : Obj} {xs : List T} {id : Nat}
    (ip s stride n : Nat) (a : Bool) (g1 : o.ptr = some (id, 0)) (g3 : o.size = xs.length * sz)
    (g5 : h.blk id = some ⟨true, lv enc xs ++ List.replicate (o.cap - o.size) Cell.raw⟩) (hip : ip ≤ xs.length) (hn : (xs.length + n) * sz ≤ o.cap) :
    ∃ h1 : Heap (Cell β), (∀ k, k ≠ id → h1.blk k = h.blk k) ∧ h1.blk id = some ⟨true,
      slots enc sz ((xs.take ip).map some ++ List.replicate n none ++ (xs.drop ip).map some) ++ List.replicate (o.cap - (xs.length + n) * sz) Cell.raw⟩ ∧
      insertOwn sz rot h o ip s stride n a = (copyLoop sz true h1 (some (id, ip * sz)) (some (id, s * sz)) stride n).map fun h2 =>
        (true, h2, { o with size := (xs.length + n) * sz }) := by
  have hdiv : o.size / sz = xs.length := by rw [g3]; exact Nat.mul_div_cancel _ hsz
  refine ⟨_, fun k hk => setBlk_other hk, setBlk_get _, ?_⟩
  unfold insertOwn
  rw [hdiv, reserve_noop 0 _ _ _ (by omega)]
  simp only
  rw [hole_block hr henc ip n _ g1 g3 g5 hip hn]
  simp only [g1, adv, Option.map_some, Nat.zero_add]
  split <;> rename_i hc <;> rw [hc] <;> rfl

/-- What `insert` gives when every element read is an old one, before or after the hole, or one already made. -/
theorem insert_own_of (hr : RotateOK rot) (henc : ∀ t, (enc t).length = sz) (hsz : 0 < sz) {h : Heap (Cell β)} {o : Obj} {xs : List T} (hv : VRep enc sz h o xs)
    (hx : xs ≠ []) (ip s st : Nat) (ys : List T) (a : Bool) (hip : ip ≤ xs.length) (hn : (xs.length + ys.length) * sz ≤ o.cap)
    (hread : ∀ t y, ys[t]? = some y → (s + t * st < ip + t ∧ (xs.take ip ++ ys)[s + t * st]? = some y) ∨
      (ip + ys.length ≤ s + t * st ∧ xs[s + t * st - ys.length]? = some y)) :
    InPlace enc sz h o (xs.take ip ++ ys ++ xs.drop ip) (insertOwn sz rot h o ip s (st * sz) ys.length a) := by
  obtain ⟨id, g1, g2, g3, g4, g5⟩ := hv.place hx
  obtain ⟨h1, hk, hb, e⟩ := insert_block (s := s) (stride := st * sz) hr henc hsz ip ys.length a g1 g3 g5 hip hn
  have hA : ((xs.take ip).map some).length = ip := by simp; omega
  have e2 := build_block henc hsz (s := s) (st := st) ((xs.take ip).map some) ((xs.drop ip).map some) ys hb
    (by
      intro t y hy
      have ht := (List.getElem?_eq_some_iff.1 hy).1
      rw [hA]
      rcases hread t y hy with ⟨h1, h2⟩ | ⟨h1, h2⟩
      · left
        refine ⟨h1, ?_⟩
        rw [← List.map_append, List.getElem?_map, h2]
        rfl
      · right
        refine ⟨by omega, ?_⟩
        rw [List.getElem?_append_right (by simp; omega), List.getElem?_map, List.getElem?_drop, List.length_append, List.length_replicate, hA]
        rw [show ip + (s + t * st - (ip + ys.length)) = s + t * st - ys.length by omega, h2]
        rfl)
  rw [hA] at e2
  rw [e, e2]
  simp only [Option.map_some]
  have hl : (xs.take ip ++ ys ++ xs.drop ip).length = xs.length + ys.length := by simp; omega
  have hy := inPlace_block (enc := enc) (sz := sz) (h := h) (h' := h1) (xs.take ip ++ ys ++ xs.drop ip) g1 g2 (by rw [hl]; exact hn) hk
  rw [hl, List.map_append, List.map_append] at hy
  exact hy

/-- **C101** `v.insert (v.begin() + ip, v.begin() + s, v.begin() + s + n)` with room, of a piece before the place. Missing: no room, and
the other pieces (`insert_after_violated`, `insert_across_violated`, `insert_hole_violated`). -/
theorem insert_own_partial (hr : RotateOK rot) (henc : ∀ t, (enc t).length = sz) (hsz : 0 < sz) {h : Heap (Cell β)} {o : Obj} {xs : List T}
    (hv : VRep enc sz h o xs) (hx : xs ≠ []) (ip s n : Nat) (a : Bool) (hip : ip ≤ xs.length) (hn : (xs.length + n) * sz ≤ o.cap) (hs : s + n ≤ ip) :
    InPlace enc sz h o (xs.take ip ++ (xs.drop s).take n ++ xs.drop ip) (insertOwn sz rot h o ip s sz n a) := by
  have hl : ((xs.drop s).take n).length = n := by simp; omega
  have := insert_own_of (s := s) (st := 1) hr henc hsz hv hx ip ((xs.drop s).take n) a hip (by rw [hl]; exact hn)
    (by
      intro t y hy
      left
      rw [List.getElem?_take] at hy
      split at hy
      · rw [List.getElem?_drop] at hy
        refine ⟨by omega, ?_⟩
        rw [Nat.mul_one, List.getElem?_append_left (by simp; omega), List.getElem?_take, if_pos (by omega), hy]
      · cases hy)
  rwa [hl, Nat.one_mul] at this

/-- **C101** `v.insert (v.begin() + ip, n, v[k])` and `v.insert (v.begin() + ip, v[k])` with room, of an element before the place. Missing: no room, and
the other elements (`insert_after_violated`, `insert_hole_violated`). -/
theorem insert_value_partial (hr : RotateOK rot) (henc : ∀ t, (enc t).length = sz) (hsz : 0 < sz) {h : Heap (Cell β)} {o : Obj} {xs : List T}
    (hv : VRep enc sz h o xs) (ip k n : Nat) (a : Bool) (hk : k < ip) (hip : ip ≤ xs.length) (hn : (xs.length + n) * sz ≤ o.cap) :
    InPlace enc sz h o (xs.take ip ++ List.replicate n (xs[k]'(by omega)) ++ xs.drop ip) (insertOwn sz rot h o ip k 0 n a) := by
  have hkl : k < xs.length := by omega
  have := insert_own_of (s := k) (st := 0) hr henc hsz hv (by rintro rfl; simp at hkl) ip (List.replicate n xs[k]) a hip (by simpa using hn)
    (by
      intro t y hy
      left
      rw [List.getElem?_replicate] at hy
      split at hy
      · cases hy
        refine ⟨by omega, ?_⟩
        rw [Nat.mul_zero, Nat.add_zero, List.getElem?_append_left (by simp; omega), List.getElem?_take, if_pos hk, List.getElem?_eq_getElem hkl]
      · cases hy)
  rwa [List.length_replicate, Nat.zero_mul] at this

/-- **C101** is false of a piece after the place: what is inserted is the piece that begins `n` elements earlier. -/
theorem insert_after_violated (hr : RotateOK rot) (henc : ∀ t, (enc t).length = sz) (hsz : 0 < sz) {h : Heap (Cell β)} {o : Obj} {xs : List T}
    (hv : VRep enc sz h o xs) (hx : xs ≠ []) (ip s n : Nat) (a : Bool) (hip : ip ≤ xs.length) (hn : (xs.length + n) * sz ≤ o.cap) (hs : ip + n ≤ s)
    (hle : s + n ≤ xs.length) :
    InPlace enc sz h o (xs.take ip ++ (xs.drop (s - n)).take n ++ xs.drop ip) (insertOwn sz rot h o ip s sz n a) := by
  have hl : ((xs.drop (s - n)).take n).length = n := by simp; omega
  have := insert_own_of (s := s) (st := 1) hr henc hsz hv hx ip ((xs.drop (s - n)).take n) a hip (by rw [hl]; exact hn)
    (by
      intro t y hy
      right
      rw [hl]
      rw [List.getElem?_take] at hy
      split at hy
      · rw [List.getElem?_drop] at hy
        refine ⟨by omega, ?_⟩
        rw [← hy]
        congr 1
        omega
      · cases hy)
  rwa [hl, Nat.one_mul] at this

/-- **C101** nor of an element after the place: what is inserted is the element `n` places before it. -/
theorem insert_value_after_violated (hr : RotateOK rot) (henc : ∀ t, (enc t).length = sz) (hsz : 0 < sz) {h : Heap (Cell β)} {o : Obj} {xs : List T}
    (hv : VRep enc sz h o xs) (ip k n : Nat) (a : Bool) (hip : ip ≤ xs.length) (hn : (xs.length + n) * sz ≤ o.cap) (hs : ip + n ≤ k) (hk : k < xs.length) :
    InPlace enc sz h o (xs.take ip ++ List.replicate n (xs[k - n]'(by omega)) ++ xs.drop ip) (insertOwn sz rot h o ip k 0 n a) := by
  have hkl : k - n < xs.length := by omega
  have := insert_own_of (s := k) (st := 0) hr henc hsz hv (by rintro rfl; simp at hk) ip (List.replicate n xs[k - n]) a hip (by simpa using hn)
    (by
      intro t y hy
      right
      rw [List.getElem?_replicate] at hy
      split at hy
      · cases hy
        rw [List.length_replicate]
        refine ⟨by omega, ?_⟩
        rw [Nat.mul_zero, Nat.add_zero, List.getElem?_eq_getElem hkl]
      · cases hy)
  rwa [List.length_replicate, Nat.zero_mul] at this

/-- **C101** nor of a piece with the place inside: the part before the place is inserted again and again
(of a piece that ends at the place or before nothing is repeated: `insert_own_partial`). -/
theorem insert_across_violated (hr : RotateOK rot) (henc : ∀ t, (enc t).length = sz) (hsz : 0 < sz) {h : Heap (Cell β)} {o : Obj} {xs : List T}
    (hv : VRep enc sz h o xs) (ip s n : Nat) (a : Bool) (hip : ip ≤ xs.length) (hn : (xs.length + n) * sz ≤ o.cap) (hs : s < ip) :
    ∃ ys : List T, ys.length = n ∧ (∀ t, t < n → ys[t]? = xs[s + t % (ip - s)]?) ∧
      InPlace enc sz h o (xs.take ip ++ ys ++ xs.drop ip) (insertOwn sz rot h o ip s sz n a) := by
  have hmod : ∀ t, s + t % (ip - s) < ip := fun t => by have := Nat.mod_lt t (show ip - s > 0 by omega); omega
  let ys : List T := List.ofFn (n := n) fun t => xs[s + t.1 % (ip - s)]'(by have := hmod t.1; omega)
  have hl : ys.length = n := by simp [ys]
  have hy : ∀ t, t < n → ys[t]? = xs[s + t % (ip - s)]? := by
    intro t ht
    rw [List.getElem?_eq_getElem (by rw [hl]; exact ht), List.getElem?_eq_getElem (by have := hmod t; omega)]
    simp [ys]
  refine ⟨ys, hl, hy, ?_⟩
  have := insert_own_of (s := s) (st := 1) hr henc hsz hv (by rintro rfl; simp at hip; omega) ip ys a hip (by rw [hl]; exact hn)
    (by
      intro t y hty
      left
      have ht : t < n := by have := (List.getElem?_eq_some_iff.1 hty).1; omega
      refine ⟨by omega, ?_⟩
      rw [hy t ht] at hty
      rw [Nat.mul_one]
      by_cases hp : s + t < ip
      · rw [List.getElem?_append_left (by simp; omega), List.getElem?_take, if_pos hp, ← hty, Nat.mod_eq_of_lt (by omega)]
      · rw [List.getElem?_append_right (by simp; omega), show s + t - (xs.take ip).length = t - (ip - s) by simp; omega, hy _ (by omega), ← hty,
          Nat.mod_eq_sub_mod (show t ≥ ip - s by omega)])
  rwa [hl, Nat.one_mul] at this

/-- **C101** nor where the hole comes to be: raw storage is read (`stride = 0` for one value, `sz` for a piece). -/
theorem insert_hole_violated (hr : RotateOK rot) (henc : ∀ t, (enc t).length = sz) (hsz : 0 < sz) {h : Heap (Cell β)} {o : Obj} {xs : List T}
    (hv : VRep enc sz h o xs) (ip s stride n : Nat) (a : Bool) (hn : (xs.length + n) * sz ≤ o.cap) (h1 : ip ≤ s) (h2 : s < ip + n) (h3 : s < xs.length) :
    insertOwn sz rot h o ip s stride n a = none := by
  obtain ⟨id, g1, g2, g3, g4, g5⟩ := hv.place (by rintro rfl; simp at h3)
  obtain ⟨h1', hk, hb, e⟩ := insert_block (s := s) (stride := stride) hr henc hsz ip n a g1 g3 g5 (by omega) hn
  have hA : ((xs.take ip).map some).length = ip := by simp; omega
  obtain ⟨m, rfl⟩ : ∃ m, n = m + 1 := ⟨n - 1, by omega⟩
  have gd : ((xs.take ip).map some ++ List.replicate (m + 1) none ++ (xs.drop ip).map some)[ip]? = some none := by
    rw [List.append_assoc, List.getElem?_append_right (by omega), hA, Nat.sub_self]
    rfl
  have gs : ((xs.take ip).map some ++ List.replicate (m + 1) none ++ (xs.drop ip).map some)[s]? = some none := by
    rw [List.append_assoc, List.getElem?_append_right (by omega), hA, List.getElem?_append_left (by simp; omega), List.getElem?_replicate, if_pos (by omega)]
  rw [e]
  unfold copyLoop
  rw [copyCell_slots henc hsz true hb gs gd, if_neg (by simp [isNone])]
  rfl

/-- **C101** nor without the room. -/
theorem insert_own_room_violated (hr : RotateOK rot) (henc : ∀ t, (enc t).length = sz) (hsz : 0 < sz) {h : Heap (Cell β)} {o : Obj} {xs : List T} (hh : HOK h)
    (hv : VRep enc sz h o xs) (ip s stride n : Nat) (hs : s < xs.length) (hip : ip ≤ xs.length) (hn : o.cap < (xs.length + n) * sz)
    (hlim : (xs.length + n) * sz ≤ 2 ^ 31) :
    insertOwn sz rot h o ip s stride n true = none ∧ insertOwn sz rot h o ip s stride n false = some (false, h, o) := by
  obtain ⟨id, g1, g2, g3, g4, g5⟩ := hv.place (by rintro rfl; simp at hs)
  have hdiv : o.size / sz = xs.length := by rw [g3]; exact Nat.mul_div_cancel _ hsz
  have hn0 : 0 < n := by
    rcases Nat.eq_zero_or_pos n with rfl | h0
    · rw [Nat.add_zero] at hn; omega
    · exact h0
  unfold insertOwn
  rw [hdiv]
  constructor
  · obtain ⟨h1, o1, e1, e2, e3, e4, j, e5, e6⟩ := reserve_moves henc _ hh hv g1 g2 hn hlim
    obtain ⟨id1, k1, k2, k3, k4, k5⟩ := e2.place (by rintro rfl; simp at hs)
    rw [e5] at k1
    cases k1
    rw [e1]
    simp only
    rw [hole_block hr henc ip n _ e5 k3 k5 hip e4]
    simp only [g1, adv, Option.map_some]
    rw [copyLoop_freed hsz true (by rw [setBlk_other e6, e3]) _ _ _ _ hn0]
  · rw [reserve_refused _ g1 g2 g5 hn hlim]

/-! ### Examples -/

/-- Ten cells, four live: two elements of two bytes, room for three. -/
def ownHeap : Heap (Cell Nat) := ⟨fun k => if k = 0 then some ⟨true, lv enc2 [1, 2] ++ List.replicate 6 .raw⟩ else none, 1⟩
/-- The vector `[1, 2]`. -/
def ownObj : Obj := ⟨some (0, 0), 4, 10⟩

theorem enc2_len (t : Nat) : (enc2 t).length = 2 := rfl
theorem ownRep : VRep enc2 2 ownHeap ownObj [1, 2] := Or.inr ⟨0, rfl, by decide, rfl, by decide, rfl⟩
theorem ownHOK : HOK ownHeap := by
  intro id hid
  have : id ≠ 0 := by rintro rfl; exact absurd hid (by decide)
  simp [ownHeap, this]

example : InPlace enc2 2 ownHeap ownObj [1] (assignOwn enc2 2 false ownHeap ownObj 0 2 1 0 true) :=
  assign_own_partial enc2_len (by decide) ownRep 1 (by decide) 0 true false (Or.inl rfl)
example : assignOwn enc2 2 false ownHeap ownObj 1 2 1 0 true = none := assign_piece_violated enc2_len (by decide) ownRep 1 1 (by decide) (by decide) (by decide) 0 true
example : Reads enc2 2 ownObj [2] (assignOwn enc2 2 true ownHeap ownObj 1 2 1 0 true) :=
  assign_pod_partial enc2_len (by decide) ownRep 1 1 (by decide) (by decide) 0 true
example : InPlace enc2 2 ownHeap ownObj [2, 2, 2] (assignOwn enc2 2 false ownHeap ownObj 1 0 3 0 true) :=
  assign_value_partial enc2_len (by decide) ownRep 3 1 (by decide) (by decide) (by decide) 0 true
example : Reads enc2 2 ownObj [2] (assignOwn enc2 2 true ownHeap ownObj 1 0 1 0 true) :=
  assign_value_pod_partial enc2_len (by decide) ownRep 1 1 (by decide) (by decide) 0 true
example : assignOwn enc2 2 false ownHeap ownObj 1 0 1 0 true = none := assign_value_violated enc2_len (by decide) ownRep 1 1 (by decide) (by decide) (by decide) 0 true
example : assignOwn enc2 2 false ownHeap ownObj 1 0 6 0 true = none ∧ assignOwn enc2 2 false ownHeap ownObj 1 0 6 0 false = some (false, ownHeap, ownObj) :=
  assign_value_room_violated enc2_len (by decide) ownHOK ownRep 6 1 (by decide) (by decide) (by decide) 0 false
example : InPlace enc2 2 ownHeap ownObj [1, 2, 1] (pushBackRef 2 ownHeap ownObj 0 true) := push_back_own_partial enc2_len ownRep 0 (by decide) (by decide) true
example : pushBackRef 1 (oneBlock [.live 5]) ⟨some (0, 0), 1, 1⟩ 0 true = none ∧
    pushBackRef 1 (oneBlock [.live 5]) ⟨some (0, 0), 1, 1⟩ 0 false = some (false, oneBlock [.live 5], ⟨some (0, 0), 1, 1⟩) :=
  push_back_own_violated (enc := fun t : Nat => [t]) (xs := [5]) (fun _ => rfl) (by decide)
    (by intro id hid; have : id ≠ 0 := by { rintro rfl; exact absurd hid (by decide) }
        simp [oneBlock, this])
    (Or.inr ⟨0, rfl, by decide, rfl, by decide, rfl⟩) 0 (by decide) (by decide) (by decide)
example : InPlace enc2 2 ownHeap ownObj [1] (resizeOwn 2 ownHeap ownObj 1 0 true) := resize_own_shrink_partial enc2_len (by decide) ownRep 1 0 (by decide) true
example : InPlace enc2 2 ownHeap ownObj [1, 2, 2, 2] (resizeOwn 2 ownHeap ownObj 4 1 true) :=
  resize_own_partial enc2_len (by decide) ownRep 4 1 (by decide) (by decide) (by decide) true
example : resizeOwn 2 ownHeap ownObj 6 1 true = none ∧ resizeOwn 2 ownHeap ownObj 6 1 false = some (false, ownHeap, ownObj) :=
  resize_own_violated enc2_len (by decide) ownHOK ownRep 6 1 (by decide) (by decide) (by decide)
example : InPlace enc2 2 ownHeap ownObj [1, 1, 2] (insertOwn 2 crot ownHeap ownObj 1 0 2 1 true) :=
  insert_own_partial crot_ok enc2_len (by decide) ownRep (by decide) 1 0 1 true (by decide) (by decide) (by decide)
example : InPlace enc2 2 ownHeap ownObj [1, 1, 1, 2] (insertOwn 2 crot ownHeap ownObj 1 0 0 2 true) :=
  insert_value_partial crot_ok enc2_len (by decide) ownRep 1 0 2 true (by decide) (by decide) (by decide)
example : InPlace enc2 2 ownHeap ownObj [1, 1, 2] (insertOwn 2 crot ownHeap ownObj 0 1 2 1 true) :=
  insert_after_violated crot_ok enc2_len (by decide) ownRep (by decide) 0 1 1 true (by decide) (by decide) (by decide) (by decide)
example : InPlace enc2 2 ownHeap ownObj [1, 1, 2] (insertOwn 2 crot ownHeap ownObj 0 1 0 1 true) :=
  insert_value_after_violated crot_ok enc2_len (by decide) ownRep 0 1 1 true (by decide) (by decide) (by decide) (by decide)
example : ∃ ys : List Nat, ys.length = 2 ∧ (∀ t, t < 2 → ys[t]? = [1, 2][0 + t % (1 - 0)]?) ∧
    InPlace enc2 2 ownHeap ownObj ([1] ++ ys ++ [2]) (insertOwn 2 crot ownHeap ownObj 1 0 2 2 true) :=
  insert_across_violated crot_ok enc2_len (by decide) ownRep 1 0 2 true (by decide) (by decide) (by decide)
example : insertOwn 2 crot ownHeap ownObj 1 1 0 1 true = none :=
  insert_hole_violated crot_ok enc2_len (by decide) ownRep 1 1 0 1 true (by decide) (by decide) (by decide) (by decide)
example : insertOwn 2 crot ownHeap ownObj 1 0 2 4 true = none ∧ insertOwn 2 crot ownHeap ownObj 1 0 2 4 false = some (false, ownHeap, ownObj) :=
  insert_own_room_violated crot_ok enc2_len (by decide) ownHOK ownRep 1 0 2 4 (by decide) (by decide) (by decide) (by decide)

end Ustl.Vector
