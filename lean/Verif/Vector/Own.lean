import Verif.Vector.Self
/-!
# A vector edited with its own elements: what comes of it (C101)
-/
namespace Ustl.Vector
open Ustl.Memblock
variable {β T : Type _} {enc : T → List β} {sz : Nat} {rot : List (Cell β) → Nat → Nat → Nat → Option (List (Cell β))}

/-- The call returned, the vector is where it was and holds `xs`, and no other block changed. -/
def InPlace (enc : T → List β) (sz : Nat) (h : Heap (Cell β)) (o : Obj) (xs : List T) (r : Option (Bool × Heap (Cell β) × Obj)) : Prop :=
  ∃ h' o', r = some (true, h', o') ∧ VRep enc sz h' o' xs ∧ o'.ptr = o.ptr ∧ o'.cap = o.cap ∧ ∀ k, o.ptr ≠ some (k, 0) → h'.blk k = h.blk k

/-- The call returned and the vector holds `xs`; storage past its end is not described. -/
def Reads (enc : T → List β) (sz : Nat) (o : Obj) (xs : List T) (r : Option (Bool × Heap (Cell β) × Obj)) : Prop :=
  ∃ h' o', r = some (true, h', o') ∧ o'.size = xs.length * sz ∧ ld h' o'.ptr o'.size = some (lv enc xs) ∧ o'.ptr = o.ptr ∧ o'.cap = o.cap

/-! ### Preparations -/

theorem setBlk_other {h : Heap (Cell β)} {id k : Nat} {b : Option (Blk (Cell β))} (hk : k ≠ id) : (h.setBlk id b).blk k = h.blk k := by
  simp [Heap.setBlk, hk]

/-- `resize` of a vector with the room for it. -/
theorem resize_block (henc : ∀ t, (enc t).length = sz) (hsz : 0 < sz) {h : Heap (Cell β)} {o : Obj} {xs : List T} {id : Nat} (n : Nat) (x : T) (a : Bool)
    (g1 : o.ptr = some (id, 0)) (g3 : o.size = xs.length * sz) (g4 : o.size ≤ o.cap)
    (g5 : h.blk id = some ⟨true, lv enc xs ++ List.replicate (o.cap - o.size) Cell.raw⟩) (hn : n * sz ≤ o.cap) :
    resizeV enc sz h o n x a = some (true, h.setBlk id (some ⟨true, lv enc (xs.take n ++ List.replicate (n - xs.length) x) ++
      List.replicate (o.cap - n * sz) Cell.raw⟩), { o with size := n * sz }) := by
  unfold resizeV
  simp only
  rw [reserve_noop 0 (n * sz) _ _ (by omega)]
  simp only [g1, adv, Option.map_some, Nat.zero_add]
  by_cases hlt : n * sz < o.size
  · have hnx : n < xs.length := by rw [g3] at hlt; exact Nat.lt_of_mul_lt_mul_right hlt
    rw [if_pos hlt]
    have hb : h.blk id = some ⟨true, lv enc (xs.take n) ++ lv enc (xs.drop n) ++ List.replicate (o.cap - o.size) Cell.raw⟩ := by
      rw [g5, ← lv_append, List.take_append_drop]
    have hd : (xs.drop n).length * sz + n * sz = xs.length * sz := by rw [← Nat.add_mul]; congr 1; simp; omega
    rw [destroy_at henc hb (by rw [lv_length henc, List.length_take, Nat.min_eq_left (by omega)]) (by omega)]
    rw [List.append_assoc, List.replicate_append_replicate, show o.size - n * sz + (o.cap - o.size) = o.cap - n * sz by omega]
    rw [show n - xs.length = 0 by omega]
    simp
  · rw [if_neg hlt]
    have hnx : xs.length ≤ n := by
      rw [g3] at hlt
      exact Nat.le_of_mul_le_mul_right (by omega : xs.length * sz ≤ n * sz) hsz
    have hdiv : o.size / sz = xs.length := by rw [g3]; exact Nat.mul_div_cancel _ hsz
    have hd : (n - xs.length) * sz + xs.length * sz = n * sz := by rw [← Nat.add_mul]; congr 1; omega
    have hb : h.blk id = some ⟨true, lv enc xs ++ List.replicate ((List.replicate (n - xs.length) x).length * sz) Cell.raw ++
        List.replicate (o.cap - n * sz) Cell.raw⟩ := by
      rw [g5, List.append_assoc, List.replicate_append_replicate, List.length_replicate,
        show (n - xs.length) * sz + (o.cap - n * sz) = o.cap - o.size by omega]
    rw [hdiv, construct_at henc hb (by rw [lv_length henc]; omega), ← lv_append, List.take_of_length_le hnx]

/-- The hole that `insert` makes, in a vector with the room for it. -/
theorem hole_block (hr : RotateOK rot) (henc : ∀ t, (enc t).length = sz) {h : Heap (Cell β)} {o : Obj} {xs : List T} {id : Nat} (ip n : Nat)
    (ans : Option (Nat → Cell β)) (g1 : o.ptr = some (id, 0)) (g3 : o.size = xs.length * sz)
    (g5 : h.blk id = some ⟨true, lv enc xs ++ List.replicate (o.cap - o.size) Cell.raw⟩) (hip : ip ≤ xs.length) (hn : (xs.length + n) * sz ≤ o.cap) :
    Memblock.insert 0 rot h o (ip * sz) (n * sz) ans = some (true, h.setBlk id (some ⟨true,
      slots enc sz ((xs.take ip).map some ++ List.replicate n none ++ (xs.drop ip).map some) ++ List.replicate (o.cap - (xs.length + n) * sz) Cell.raw⟩),
      { o with size := (xs.length + n) * sz }) := by
  have hmul : (xs.length + n) * sz = xs.length * sz + n * sz := Nat.add_mul ..
  have hipsz : ip * sz ≤ xs.length * sz := Nat.mul_le_mul_right _ hip
  unfold Memblock.insert Memblock.resize
  rw [if_pos (by omega), if_neg (by omega)]
  simp only
  have hb : h.blk id = some ⟨true, lv enc (xs.take ip) ++ lv enc (xs.drop ip) ++ List.replicate (n * sz) Cell.raw ++
      List.replicate (o.cap - (xs.length + n) * sz) Cell.raw⟩ := by
    rw [g5, ← lv_append, List.take_append_drop, List.append_assoc, List.replicate_append_replicate,
      show n * sz + (o.cap - (xs.length + n) * sz) = o.cap - o.size by omega]
  have hl1 : (lv enc (xs.take ip)).length = ip * sz := by rw [lv_length henc, List.length_take, Nat.min_eq_left hip]
  have hl2 : (lv enc (xs.drop ip)).length + ip * sz = xs.length * sz := by
    rw [lv_length henc, ← Nat.add_mul]; congr 1; simp; omega
  rw [rotIn_at hr (o := { o with size := o.size + n * sz }) g1 hb hl1.symm (by omega) (by simp only [List.length_replicate]; omega)]
  simp only [slots_append, slots_some, slots_none]
  rw [g3, ← hmul]

/-- `reserve` beyond the capacity moves the elements and frees the old block. -/
theorem reserve_moves (henc : ∀ t, (enc t).length = sz) {h : Heap (Cell β)} {o : Obj} {xs : List T} {id : Nat} (n : Nat) (hh : HOK h)
    (hv : VRep enc sz h o xs) (hid : o.ptr = some (id, 0)) (hc : o.cap ≠ 0) (hn : o.cap < n) (hlim : n ≤ 2 ^ 31) :
    ∃ h1 o1, reserve 0 h o n false (allocAns true) = some (true, h1, o1) ∧ VRep enc sz h1 o1 xs ∧ h1.blk id = none ∧ n ≤ o1.cap ∧
      ∃ j, o1.ptr = some (j, 0) ∧ id ≠ j := by
  obtain ⟨ok, h1, o1, e1, e2, e3, e4, e5, e6⟩ := reserve_v henc n false true hh hv hlim
  cases ok with
  | false => exact absurd (e2 rfl).2.2 (by decide)
  | true =>
    rcases hv with ⟨rfl, _⟩ | ⟨id', k1, k2, k3, k4, k5⟩
    · cases hid
    · rw [hid] at k1
      cases k1
      have hlt := hh.lt k5
      have hp : o1.ptr = some (h.next, 0) := by
        unfold reserve at e1
        simp only [Nat.add_zero] at e1
        rw [if_neg (by omega)] at e1
        have hge : n ≤ nextPow2 n := nextPow2_ge (by omega) hlim
        generalize nextPow2 n = p at e1 hge
        rw [if_neg hc, hid] at e1
        simp only [realloc, k5, allocAns, if_true] at e1
        rw [if_neg (show ¬ ((0 : Nat) ≠ 0) by simp), if_neg (show ¬ (if false = true then n else p) = 0 by simp; omega)] at e1
        simp only at e1
        rw [if_neg (by simp)] at e1
        cases e1
        rfl
      refine ⟨h1, o1, e1, e4, ?_, e6 rfl, _, hp, by omega⟩
      cases hb : h1.blk id with
      | none => rfl
      | some b =>
        cases hq : b.heap with
        | false =>
          have := e3.nofor id b hb hq
          rw [k5] at this
          cases this
          cases hq
        | true =>
          rcases e3.leak id b hb hq with ⟨_, h4⟩ | ⟨_, h4⟩
          · rw [hp] at h4; cases h4; omega
          · exact absurd ⟨hc, hid⟩ h4

/-- `reserve` beyond the capacity when the allocator refuses. -/
theorem reserve_refused {h : Heap (Cell β)} {o : Obj} {bs : List (Cell β)} {id : Nat} (n : Nat) (g1 : o.ptr = some (id, 0)) (g2 : o.cap ≠ 0)
    (g5 : h.blk id = some ⟨true, bs⟩) (hn : o.cap < n) (hlim : n ≤ 2 ^ 31) : reserve 0 h o n false (allocAns false) = some (false, h, o) := by
  unfold reserve
  simp only
  rw [if_neg (by omega)]
  have hge : n + 0 ≤ (if false = true then n + 0 else nextPow2 (n + 0)) := by simpa using nextPow2_ge (by omega) hlim
  generalize (if false = true then n + 0 else nextPow2 (n + 0)) = p at *
  rw [if_neg g2, g1]
  simp only [realloc, g5]
  rw [if_neg (show ¬ ((0 : Nat) ≠ 0) by simp), if_neg (show ¬ p = 0 by omega)]
  rfl

/-- Reading a freed block is undefined. -/
theorem copyLoop_freed (hsz : 0 < sz) (fresh : Bool) {h : Heap (Cell β)} {id : Nat} (hb : h.blk id = none) (dst : Option (Nat × Nat)) (k st n : Nat) (hn : 0 < n) :
    copyLoop sz fresh h dst (some (id, k)) st n = none := by
  obtain ⟨n, rfl⟩ : ∃ m, n = m + 1 := ⟨n - 1, by omega⟩
  unfold copyLoop copyCell ld
  rw [if_neg (by omega)]
  simp only [hb]

theorem st_other {h h2 : Heap (Cell β)} {j k id : Nat} {bs : List (Cell β)} (hs : st h (some (j, k)) bs = some h2) (hj : id ≠ j) : h2.blk id = h.blk id := by
  unfold st at hs
  split at hs
  · cases hs; rfl
  · simp only at hs
    split at hs
    · split at hs
      · cases hs; exact setBlk_other hj
      · cases hs
    · cases hs

theorem VRep.place {h : Heap (Cell β)} {o : Obj} {xs : List T} (hv : VRep enc sz h o xs) (hx : xs ≠ []) :
    ∃ id, o.ptr = some (id, 0) ∧ o.cap ≠ 0 ∧ o.size = xs.length * sz ∧ o.size ≤ o.cap ∧
      h.blk id = some ⟨true, lv enc xs ++ List.replicate (o.cap - o.size) Cell.raw⟩ := by
  rcases hv with ⟨_, rfl⟩ | h
  · exact absurd rfl hx
  · exact h

/-- The block of a vector, as slots. -/
theorem inPlace_block {h h' : Heap (Cell β)} {o : Obj} {id : Nat} (ys : List T) (g1 : o.ptr = some (id, 0)) (g2 : o.cap ≠ 0)
    (hle : ys.length * sz ≤ o.cap) (hk : ∀ k, k ≠ id → h'.blk k = h.blk k) :
    InPlace enc sz h o ys (some (true, h'.setBlk id (some ⟨true, slots enc sz (ys.map some) ++ List.replicate (o.cap - ys.length * sz) Cell.raw⟩),
      { o with size := ys.length * sz })) := by
  refine ⟨_, _, rfl, Or.inr ⟨id, g1, g2, rfl, hle, ?_⟩, rfl, rfl, ?_⟩
  · rw [setBlk_get, slots_some]
  · intro k hk'
    have : k ≠ id := by rintro rfl; exact hk' g1
    rw [setBlk_other this, hk k this]

/-! ### assign -/

/-- The assignment loop after a `resize` that destroyed what it cut off. -/
theorem assign_block (henc : ∀ t, (enc t).length = sz) (hsz : 0 < sz) {h : Heap (Cell β)} {o : Obj} {xs : List T} {id : Nat} (s st n : Nat) (x : T) (a pod : Bool)
    (g1 : o.ptr = some (id, 0)) (g3 : o.size = xs.length * sz) (g4 : o.size ≤ o.cap)
    (g5 : h.blk id = some ⟨true, lv enc xs ++ List.replicate (o.cap - o.size) Cell.raw⟩) (hn : n * sz ≤ o.cap) (hp : pod = false ∨ xs.length ≤ n)
    (hs : ∀ t, t < n → s + t * st < max n xs.length) :
    ∃ h1 : Heap (Cell β), (∀ k, k ≠ id → h1.blk k = h.blk k) ∧ assignOwn enc sz pod h o s (st * sz) n x a =
      (copySlots false ((xs.take n ++ List.replicate (n - xs.length) x).map some ++ List.replicate (xs.length - n) none) 0 s st n).map fun ss' =>
        (true, h1.setBlk id (some ⟨true, slots enc sz ss' ++ List.replicate (o.cap - max n xs.length * sz) Cell.raw⟩), { o with size := n * sz }) := by
  have hpod : ¬ (pod = true ∧ n * sz < o.size) := by
    rintro ⟨h1, h2⟩
    rcases hp with h3 | h3
    · rw [h3] at h1; cases h1
    · have := Nat.mul_le_mul_right sz h3; omega
  unfold assignOwn resizeP
  rw [if_neg hpod, resize_block henc hsz n x a g1 g3 g4 g5 hn]
  simp only
  generalize hyy : xs.take n ++ List.replicate (n - xs.length) x = ys
  have hyl : ys.length = n := by rw [← hyy]; simp; omega
  have hmax : max n xs.length * sz = n * sz + (xs.length - n) * sz := by rw [← Nat.add_mul]; congr 1; omega
  have hmc : max n xs.length * sz ≤ o.cap := by
    rcases Nat.le_total n xs.length with h1 | h1
    · rw [Nat.max_eq_right h1]; omega
    · rw [Nat.max_eq_left h1]; exact hn
  have hb : (h.setBlk id (some ⟨true, lv enc ys ++ List.replicate (o.cap - n * sz) Cell.raw⟩)).blk id =
      some ⟨true, slots enc sz (ys.map some ++ List.replicate (xs.length - n) none) ++ List.replicate (o.cap - max n xs.length * sz) Cell.raw⟩ := by
    rw [setBlk_get, slots_append, slots_some, slots_none, List.append_assoc, List.replicate_append_replicate]
    congr 4
    omega
  have hlen : (ys.map some ++ List.replicate (xs.length - n) none).length = max n xs.length := by
    rw [List.length_append, List.length_map, hyl, List.length_replicate]; omega
  refine ⟨h.setBlk id (some ⟨true, lv enc ys ++ List.replicate (o.cap - n * sz) Cell.raw⟩), fun k hk => setBlk_other hk, ?_⟩
  have e := copyLoop_slots henc hsz false st n _ _ 0 s hb (by rw [hlen]; omega) (by rw [hlen]; exact hs)
  have ep : adv o.ptr (s * sz) = some (id, s * sz) := by simp [adv, g1]
  rw [ep, g1, show (some (id, 0) : Option (Nat × Nat)) = some (id, 0 * sz) by simp, e]
  cases copySlots false (ys.map some ++ List.replicate (xs.length - n) none) 0 s st n <;> simp

/-- **C101** `v.assign (v.begin(), v.begin() + n)` keeps the first `n` elements; `v = v` changes nothing. Missing: other pieces (`assign_piece_violated`). -/
theorem assign_own_partial (henc : ∀ t, (enc t).length = sz) (hsz : 0 < sz) {h : Heap (Cell β)} {o : Obj} {xs : List T} (hv : VRep enc sz h o xs)
    (n : Nat) (hn : n ≤ xs.length) (x : T) (a pod : Bool) (hp : pod = false ∨ n = xs.length) :
    InPlace enc sz h o (xs.take n) (assignOwn enc sz pod h o 0 sz n x a) := by
  rcases hv with ⟨rfl, rfl⟩ | ⟨id, g1, g2, g3, g4, g5⟩
  · have : n = 0 := by simpa using hn
    subst this
    have hr : resizeV enc sz h Obj.empty 0 x a = some (true, h, Obj.empty) := by
      unfold resizeV
      simp only
      rw [reserve_noop 0 (0 * sz) _ _ (by simp [Obj.empty])]
      simp only
      rw [if_neg (by simp [Obj.empty]), show 0 - Obj.empty.size / sz = 0 from Nat.zero_sub _, List.replicate_zero, construct_nil]
      simp [Obj.empty]
    refine ⟨h, Obj.empty, ?_, Or.inl ⟨rfl, by simp⟩, rfl, rfl, fun _ _ => rfl⟩
    unfold assignOwn resizeP
    rw [if_neg (by simp [Obj.empty]), hr]
    rfl
  · have hns := Nat.mul_le_mul_right sz hn
    obtain ⟨h1, hk, e⟩ := assign_block henc hsz 0 1 n x a pod g1 g3 g4 g5 (by omega) (hp.imp_right (by omega)) (by intro t ht; omega)
    rw [Nat.one_mul] at e
    rw [e]
    have hl : (xs.take n).length = n := by simp; omega
    have e0 := copySlots_ok false 1 (xs.take n) [] ((xs.take n ++ List.replicate (n - xs.length) x).map some) (List.replicate (xs.length - n) none) 0
      (by simp; omega) (by intro y hy; simp only [List.mem_map] at hy; obtain ⟨z, _, rfl⟩ := hy; rfl)
      (by
        intro t y hy
        right
        refine ⟨by simp, ?_⟩
        rw [Nat.mul_one, Nat.zero_add, List.nil_append, show n - xs.length = 0 by omega, List.replicate_zero, List.append_nil]
        rw [List.getElem?_append_left (by have := (List.getElem?_eq_some_iff.1 hy).1; simpa using this)]
        rw [List.getElem?_map, hy]
        rfl)
    rw [hl] at e0
    rw [List.nil_append] at e0
    rw [show ([] : List (Option T)).length = 0 from rfl] at e0
    rw [e0]
    simp only [Option.map_some, List.nil_append]
    have hb := inPlace_block (enc := enc) (sz := sz) (h := h) (h' := h1) (xs.take n) g1 g2 (by rw [hl]; omega) hk
    rw [hl] at hb
    have hz : slots enc sz ((xs.take n).map some ++ List.replicate (xs.length - n) none) ++ List.replicate (o.cap - max n xs.length * sz) Cell.raw =
        slots enc sz ((xs.take n).map some) ++ List.replicate (o.cap - n * sz) (Cell.raw : Cell β) := by
      rw [slots_append, slots_none, List.append_assoc, List.replicate_append_replicate, Nat.max_eq_right hn, Nat.sub_mul]
      congr 2
      omega
    rw [hz]
    exact hb

/-- **C101** is false of every other piece, unless the elements are of a `pod` type: `resize` destroys elements that are then read. -/
theorem assign_piece_violated (henc : ∀ t, (enc t).length = sz) (hsz : 0 < sz) {h : Heap (Cell β)} {o : Obj} {xs : List T} (hv : VRep enc sz h o xs)
    (s n : Nat) (hs : 0 < s) (hn : 0 < n) (hle : s + n ≤ xs.length) (x : T) (a : Bool) : assignOwn enc sz false h o s sz n x a = none := by
  obtain ⟨id, g1, g2, g3, g4, g5⟩ := hv.place (by rintro rfl; simp at hle; omega)
  have hns := Nat.mul_le_mul_right sz (show n ≤ xs.length by omega)
  obtain ⟨h1, hk, e⟩ := assign_block henc hsz s 1 n x a false g1 g3 g4 g5 (by omega) (Or.inl rfl) (by intro t ht; omega)
  rw [Nat.one_mul] at e
  rw [e, copySlots_dead 1 n _ 0 s (n - s) (by omega)]
  · rfl
  · rw [Nat.mul_one, List.getElem?_append_right (by simp; omega), List.getElem?_replicate, if_pos (by simp; omega)]

/-- **C101** of a `pod` element type any piece is assigned as it was. -/
theorem assign_pod_partial (henc : ∀ t, (enc t).length = sz) (hsz : 0 < sz) {h : Heap (Cell β)} {o : Obj} {xs : List T} (hv : VRep enc sz h o xs)
    (s n : Nat) (hle : s + n ≤ xs.length) (hn : n < xs.length) (x : T) (a : Bool) :
    Reads enc sz o ((xs.drop s).take n) (assignOwn enc sz true h o s sz n x a) := by
  obtain ⟨id, g1, g2, g3, g4, g5⟩ := hv.place (by rintro rfl; simp at hn)
  have hns : n * sz < xs.length * sz := Nat.mul_lt_mul_of_pos_right hn hsz
  have hl : ((xs.drop s).take n).length = n := by simp; omega
  unfold assignOwn resizeP
  rw [if_pos ⟨rfl, by omega⟩]
  simp only
  have e := copyLoop_slots henc hsz false 1 n h (xs.map some) 0 s (by rw [g5, slots_some]) (by simp; omega) (by intro t ht; simp; omega)
  have ep : adv o.ptr (s * sz) = some (id, s * sz) := by simp [adv, g1]
  rw [Nat.one_mul, Nat.zero_mul] at e
  rw [ep, g1, e]
  have e0 := copySlots_ok false 1 ((xs.drop s).take n) [] ((xs.take n).map some) ((xs.drop n).map some) s (by simp; omega)
    (by intro y hy; simp only [List.mem_map] at hy; obtain ⟨z, _, rfl⟩ := hy; rfl)
    (by
      intro t y hy
      right
      refine ⟨by simp, ?_⟩
      rw [List.nil_append, ← List.map_append, List.take_append_drop, List.getElem?_map, Nat.mul_one]
      rw [List.getElem?_take] at hy
      split at hy
      · rw [List.getElem?_drop] at hy
        rw [hy]
        rfl
      · cases hy)
  rw [hl, List.nil_append, ← List.map_append, List.take_append_drop] at e0
  rw [show ([] : List (Option T)).length = 0 from rfl] at e0
  rw [e0]
  refine ⟨_, _, rfl, by rw [hl], ?_, g1.symm, rfl⟩
  have hB : (h.setBlk id (some ⟨true, slots enc sz ([] ++ ((xs.drop s).take n).map some ++ (xs.drop n).map some) ++
      List.replicate (o.cap - o.size) Cell.raw⟩)).blk id = some ⟨true, [] ++ lv enc ((xs.drop s).take n) ++ (slots enc sz ((xs.drop n).map some) ++
      List.replicate (o.cap - o.size) Cell.raw)⟩ := by
    rw [setBlk_get, slots_append, List.nil_append, slots_some, List.nil_append, List.append_assoc]
  exact ld_at hB rfl (by rw [lv_length henc, hl])

theorem isNone_some (l : List T) : ∀ x ∈ l.map some, isNone x = false := by
  intro y hy
  simp only [List.mem_map] at hy
  obtain ⟨z, _, rfl⟩ := hy
  rfl

/-- The slots after a fill with one of the live elements. -/
theorem fill_slots (ys : List T) (C : List (Option T)) {k : Nat} {y : T} (hy : (ys.map some ++ C)[k]? = some (some y)) :
    copySlots false (ys.map some ++ C) 0 k 0 ys.length = some ((List.replicate ys.length y).map some ++ C) := by
  have e0 := copySlots_ok false 0 (List.replicate ys.length y) [] (ys.map some) C k (by simp) (isNone_some ys)
    (by
      intro t z hz
      rw [List.getElem?_replicate] at hz
      split at hz
      · rename_i ht
        cases hz
        rw [Nat.mul_zero, Nat.add_zero]
        by_cases hk : k < t
        · left
          refine ⟨by simp; omega, ?_⟩
          rw [List.nil_append, List.getElem?_map, List.getElem?_replicate, if_pos (by omega)]
          rfl
        · right
          exact ⟨by simp; omega, by simpa using hy⟩
      · cases hz)
  simpa using e0

/-- **C101** `v.assign (n, v[k])` with room for `n` elements, if element `k` stays: `n` copies of it. Missing: no room, and elements
that the `resize` destroys (`assign_value_violated`). -/
theorem assign_value_partial (henc : ∀ t, (enc t).length = sz) (hsz : 0 < sz) {h : Heap (Cell β)} {o : Obj} {xs : List T} (hv : VRep enc sz h o xs)
    (n k : Nat) (hk : k < xs.length) (hn : n * sz ≤ o.cap) (hkn : k < n) (x : T) (a : Bool) :
    InPlace enc sz h o (List.replicate n xs[k]) (assignOwn enc sz false h o k 0 n x a) := by
  obtain ⟨id, g1, g2, g3, g4, g5⟩ := hv.place (by rintro rfl; simp at hk)
  obtain ⟨h1, hk1, e⟩ := assign_block henc hsz k 0 n x a false g1 g3 g4 g5 hn (Or.inl rfl) (by intro t ht; omega)
  rw [Nat.zero_mul] at e
  have hl : (xs.take n ++ List.replicate (n - xs.length) x).length = n := by simp; omega
  have e0 := fill_slots (xs.take n ++ List.replicate (n - xs.length) x) (List.replicate (xs.length - n) none) (k := k) (y := xs[k])
    (by
      rw [List.getElem?_append_left (by rw [List.length_map, hl]; omega), List.getElem?_map,
        List.getElem?_append_left (by simp; omega), List.getElem?_take, if_pos (by omega), List.getElem?_eq_getElem hk]
      rfl)
  rw [hl] at e0
  rw [e, e0]
  simp only [Option.map_some]
  have hb := inPlace_block (enc := enc) (sz := sz) (h := h) (h' := h1) (List.replicate n xs[k]) g1 g2 (by rw [List.length_replicate]; exact hn) hk1
  rw [List.length_replicate] at hb
  have hmc : max n xs.length * sz ≤ o.cap := by
    rcases Nat.le_total n xs.length with h1 | h1
    · rw [Nat.max_eq_right h1]; omega
    · rw [Nat.max_eq_left h1]; exact hn
  have hmax : max n xs.length * sz = n * sz + (xs.length - n) * sz := by rw [← Nat.add_mul]; congr 1; omega
  have hz : slots enc sz ((List.replicate n xs[k]).map some ++ List.replicate (xs.length - n) none) ++ List.replicate (o.cap - max n xs.length * sz) Cell.raw =
      slots enc sz ((List.replicate n xs[k]).map some) ++ List.replicate (o.cap - n * sz) (Cell.raw : Cell β) := by
    rw [slots_append, slots_none, List.append_assoc, List.replicate_append_replicate]
    congr 2
    omega
  rw [hz]
  exact hb

/-- **C101** of a `pod` element type an element that `resize` cuts off can be the value, too. -/
theorem assign_value_pod_partial (henc : ∀ t, (enc t).length = sz) (hsz : 0 < sz) {h : Heap (Cell β)} {o : Obj} {xs : List T} (hv : VRep enc sz h o xs)
    (n k : Nat) (hk : k < xs.length) (hn : n < xs.length) (x : T) (a : Bool) :
    Reads enc sz o (List.replicate n xs[k]) (assignOwn enc sz true h o k 0 n x a) := by
  obtain ⟨id, g1, g2, g3, g4, g5⟩ := hv.place (by rintro rfl; simp at hn)
  have hns : n * sz < xs.length * sz := Nat.mul_lt_mul_of_pos_right hn hsz
  unfold assignOwn resizeP
  rw [if_pos ⟨rfl, by omega⟩]
  simp only
  have e := copyLoop_slots henc hsz false 0 n h (xs.map some) 0 k (by rw [g5, slots_some]) (by simp; omega) (by intro t ht; simp; omega)
  have ep : adv o.ptr (k * sz) = some (id, k * sz) := by simp [adv, g1]
  have e0 := fill_slots (xs.take n) ((xs.drop n).map some) (k := k) (y := xs[k])
    (by rw [← List.map_append, List.take_append_drop, List.getElem?_map, List.getElem?_eq_getElem hk]; rfl)
  rw [← List.map_append, List.take_append_drop, show (xs.take n).length = n by simp; omega] at e0
  rw [Nat.zero_mul, e0] at e
  rw [ep, g1, e]
  refine ⟨_, _, rfl, by rw [List.length_replicate], ?_, g1.symm, rfl⟩
  have hB : (h.setBlk id (some ⟨true, slots enc sz ((List.replicate n xs[k]).map some ++ (xs.drop n).map some) ++
      List.replicate (o.cap - o.size) Cell.raw⟩)).blk id = some ⟨true, [] ++ lv enc (List.replicate n xs[k]) ++ (slots enc sz ((xs.drop n).map some) ++
      List.replicate (o.cap - o.size) Cell.raw)⟩ := by
    rw [setBlk_get, slots_append, slots_some, List.nil_append, List.append_assoc]
  exact ld_at hB rfl (by rw [lv_length henc, List.length_replicate])

/-- **C101** is false of a value that the `resize` destroys. -/
theorem assign_value_violated (henc : ∀ t, (enc t).length = sz) (hsz : 0 < sz) {h : Heap (Cell β)} {o : Obj} {xs : List T} (hv : VRep enc sz h o xs)
    (n k : Nat) (hk : k < xs.length) (hn : 0 < n) (hkn : n ≤ k) (x : T) (a : Bool) : assignOwn enc sz false h o k 0 n x a = none := by
  obtain ⟨id, g1, g2, g3, g4, g5⟩ := hv.place (by rintro rfl; simp at hk)
  have hns := Nat.mul_le_mul_right sz (show n ≤ xs.length by omega)
  obtain ⟨h1, hk1, e⟩ := assign_block henc hsz k 0 n x a false g1 g3 g4 g5 (by omega) (Or.inl rfl) (by intro t ht; omega)
  rw [Nat.zero_mul] at e
  rw [e, copySlots_raw false _ hn]
  · rfl
  · rw [List.getElem?_append_right (by simp; omega), List.getElem?_replicate, if_pos (by simp; omega)]

/-- **C101** is false without the room: the value is read from the block that was freed; if the allocator refuses, nothing changes. -/
theorem assign_value_room_violated (henc : ∀ t, (enc t).length = sz) (hsz : 0 < sz) {h : Heap (Cell β)} {o : Obj} {xs : List T} (hh : HOK h)
    (hv : VRep enc sz h o xs) (n k : Nat) (hk : k < xs.length) (hn : o.cap < n * sz) (hlim : n * sz ≤ 2 ^ 31) (x : T) (pod : Bool) :
    assignOwn enc sz pod h o k 0 n x true = none ∧ assignOwn enc sz pod h o k 0 n x false = some (false, h, o) := by
  obtain ⟨id, g1, g2, g3, g4, g5⟩ := hv.place (by rintro rfl; simp at hk)
  have hn0 : 0 < n := by rcases Nat.eq_zero_or_pos n with rfl | h0; · simp at hn
                         · exact h0
  unfold assignOwn resizeP
  rw [if_neg (fun hc => by omega), if_neg (fun hc => by omega)]
  constructor
  · obtain ⟨h1, o1, e1, e2, e3, e4, j, e5, e6⟩ := reserve_moves henc (n * sz) hh hv g1 g2 hn hlim
    have hr : resizeV enc sz h o n x true = none ∨ ∃ h2 o2, resizeV enc sz h o n x true = some (true, h2, o2) ∧ h2.blk id = none := by
      unfold resizeV
      simp only
      rw [e1]
      simp only
      rw [if_neg (by rw [e2.size]; omega), e5]
      simp only [adv, Option.map_some]
      cases hc : construct enc sz h1 (some (j, 0 + o1.size)) (List.replicate (n - o1.size / sz) x) with
      | none => exact Or.inl rfl
      | some h2 =>
        refine Or.inr ⟨_, _, rfl, ?_⟩
        unfold construct at hc
        split at hc
        · rw [st_other hc e6, e3]
        · cases hc
    rcases hr with hr | ⟨h2, o2, hr, hb⟩
    · rw [hr]
    · rw [hr]
      simp only [g1, adv, Option.map_some]
      rw [copyLoop_freed hsz false hb _ _ _ _ hn0]
  · have hres := reserve_refused (n * sz) g1 g2 g5 hn hlim
    unfold resizeV
    simp only
    rw [hres]

end Ustl.Vector
