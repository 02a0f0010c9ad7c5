import Verif.Vector.Lemmas
/-!
# C86: linking vectors whose elements have destructors

Here the elements are objects (`Verif.Vector.Model`): storage is raw or part of a live element, destroying raw
storage is undefined. `src` is an ordinary vector; `view src` is what `b.link (src)` makes of another vector `b`
(uvector.h:101-102, memlink.h:42-43, cmemlink.cc:18-24: same pointer, same size, no capacity).
-/
namespace Ustl.VecLink.Own
open Ustl.Memblock Ustl.Vector

variable {β T : Type _} {enc : T → List β} {sz : Nat}
  {rot : List (Cell β) → Nat → Nat → Nat → Option (List (Cell β))}

/-- The vector that `link (src)` gives. Models uvector.h:101-102 (cmemlink.cc:18-24, memblock.cc:21-25). -/
def linkTo (src : Obj) : Obj := ⟨src.ptr, src.size, 0⟩

/-- The storage whose elements the destructor of `o` will destroy: all of it, but only for a vector that is not
linked. Models uvector.h:126-127, 226-229. -/
def destroyedBy (h : Heap (Cell β)) (o : Obj) : Option (List (Cell β)) :=
  if o.cap = 0 then some [] else ld h o.ptr o.size

/-- Destroying a vector some of whose elements are already destroyed is undefined. -/
theorem destruct_none {h : Heap (Cell β)} {src : Obj} {id k m : Nat} {bs : List (Cell β)}
    (hp : src.ptr = some (id, 0)) (hc : src.cap ≠ 0) (hb : h.blk id = some ⟨true, bs⟩)
    (hk : (bs.drop k).take m = List.replicate m Cell.raw) (hm : 0 < m) (hle : k + m ≤ src.size)
    (hl : src.size ≤ bs.length) : destructV h src = none := by
  have hraw : bs[k]'(by omega) = Cell.raw := by
    have h0 : ((bs.drop k).take m)[0]? = (List.replicate m (Cell.raw : Cell β))[0]? := by rw [hk]
    rw [List.getElem?_take_of_lt hm, List.getElem?_drop, Nat.add_zero, List.getElem?_eq_getElem (by omega),
      List.getElem?_replicate, if_pos hm] at h0
    exact Option.some.inj h0
  have hall : ((bs.drop 0).take src.size).all (fun c => !c.isRaw) = false := by
    rw [List.all_eq_false]
    refine ⟨Cell.raw, ?_, by simp [Cell.isRaw]⟩
    rw [List.drop_zero, List.mem_take_iff_getElem]
    exact ⟨k, by omega, hraw⟩
  have hld : ld h src.ptr src.size = some ((bs.drop 0).take src.size) := by
    unfold ld
    rw [if_neg (by omega), hp]
    simp only [hb]
    rw [if_pos (by omega)]
  unfold destructV destroyAll
  rw [if_neg hc]
  unfold destroyN cellsAre
  rw [hld]
  simp only [hall]
  rfl

/-- A linked vector's allocation leaves every existing block alone. -/
theorem reserve_keeps {h h1 : Heap (Cell β)} {o o1 : Obj} {n : Nat} {a : Bool} {ok : Bool} (hc : o.cap = 0)
    (hn : 0 < n) (hres : reserve 0 h o n false (allocAns a) = some (ok, h1, o1)) :
    (∀ k, k ≠ h.next → h1.blk k = h.blk k) ∧ (ok = true → o1.ptr = some (h.next, 0)) := by
  unfold reserve at hres
  simp only [hc] at hres
  rw [if_neg (by omega)] at hres
  cases a with
  | false =>
    simp only [allocAns, realloc, if_true, Bool.false_eq_true, if_false] at hres
    cases hres
    exact ⟨fun _ _ => rfl, by simp⟩
  | true =>
    simp only [allocAns, realloc, if_true, Bool.false_eq_true, if_false] at hres
    have hm : ∀ k, k ≠ h.next → (h.malloc (nextPow2 (n + 0)) [] (fun _ => (Cell.raw : Cell β))).blk k = h.blk k :=
      fun k hk => if_neg hk
    generalize h.malloc (nextPow2 (n + 0)) [] (fun _ => (Cell.raw : Cell β)) = hm' at hres hm
    generalize nextPow2 (n + 0) = n' at hres
    by_cases hp : o.ptr = none
    · rw [if_neg (by simp [hp])] at hres
      cases hres
      exact ⟨hm, fun _ => rfl⟩
    · rw [if_pos ⟨trivial, hp⟩] at hres
      cases hl : ld hm' o.ptr (min (o.size + 1) n') with
      | none => rw [hl] at hres; cases hres
      | some xs =>
        rw [hl] at hres
        simp only at hres
        cases hst : st hm' (some (h.next, 0)) xs with
        | none => rw [hst] at hres; cases hres
        | some h2 =>
          rw [hst] at hres
          cases hres
          refine ⟨fun k hk => ?_, fun _ => rfl⟩
          unfold st at hst
          split at hst
          · cases hst; exact hm k hk
          · split at hst
            · cases hst
            · rename_i p hp2
              cases hp2
              split at hst
              · split at hst
                · cases hst
                  simp only [Heap.setBlk, if_neg hk]
                  exact hm k hk
                · cases hst
              · cases hst

/-- **C86 (violated)** `pop_back` on a linked vector destroys the last element of the vector it is linked to: that
vector's destructor then destroys it again, which is undefined behaviour. -/
theorem linked_pop_violated {h h' : Heap (Cell β)} {src b' : Obj} {xs : List T} (henc : ∀ t, (enc t).length = sz)
    (hsz : 0 < sz) (hv : VRep enc sz h src xs) (hne : xs ≠ [])
    (hpop : popBack sz h (linkTo src) = some (h', b')) : destructV h' src = none := by
  rcases hv with ⟨rfl, rfl⟩ | ⟨id, g1, g2, g3, g4, g5⟩
  · exact absurd rfl hne
  have hpos : 0 < xs.length := List.length_pos_iff.2 hne
  have hsum : (xs.length - 1) * sz + sz = xs.length * sz := by
    rw [← Nat.succ_mul]; congr 1; omega
  have hx : lv enc xs = lv enc xs.dropLast ++ lv enc [xs.getLast hne] := by
    rw [← lv_append, List.dropLast_concat_getLast hne]
  have hd := destroy_at (enc := enc) (h := h) (id := id) (k := src.size - sz) (n := sz)
    (A := lv enc xs.dropLast) (ys := [xs.getLast hne]) (C := List.replicate (src.cap - src.size) Cell.raw) henc
    (by rw [g5, hx]) (by rw [lv_length henc, List.length_dropLast]; omega) (by simp)
  unfold popBack at hpop
  rw [if_neg (show ¬ (linkTo src).size < sz from Nat.not_lt.2 (by show sz ≤ src.size; omega))] at hpop
  simp only [linkTo, g1, Vector.adv, Option.map_some, Nat.zero_add] at hpop
  rw [hd] at hpop
  cases hpop
  refine destruct_none (k := src.size - sz) (m := sz) g1 g2 (setBlk_get _) ?_ hsz (by omega) ?_
  · rw [List.append_assoc, List.drop_left' (by rw [lv_length henc, List.length_dropLast]; omega)]
    exact List.take_left' (by simp)
  · simp only [List.length_append, lv_length henc, List.length_dropLast, List.length_replicate]; omega

/-- **C86 (violated)** `erase` on a linked vector destroys the erased elements in the memory it is linked to, before
it takes its private copy: the owner's destructor then destroys them again, which is undefined behaviour. -/
theorem linked_erase_violated {h h' : Heap (Cell β)} {src b' : Obj} {xs : List T} {ep n : Nat} {a ok : Bool}
    (henc : ∀ t, (enc t).length = sz) (hsz : 0 < sz) (hh : HOK h) (hv : VRep enc sz h src xs)
    (hep : ep + n ≤ xs.length) (hn : 0 < n)
    (her : eraseV sz rot h (linkTo src) ep n a = some (ok, h', b')) : destructV h' src = none := by
  rcases hv with ⟨rfl, rfl⟩ | ⟨id, g1, g2, g3, g4, g5⟩
  · simp at hep; omega
  have hmul : (ep + n) * sz = ep * sz + n * sz := Nat.add_mul ..
  have hle : (ep + n) * sz ≤ xs.length * sz := Nat.mul_le_mul_right _ hep
  have hpos : 0 < n * sz := Nat.mul_pos hn hsz
  have hx : lv enc xs = lv enc (xs.take ep) ++ lv enc ((xs.drop ep).take n) ++ lv enc (xs.drop (ep + n)) := by
    rw [← lv_append, ← lv_append, ← List.take_add, List.take_append_drop]
  have hA : (lv enc (xs.take ep)).length = ep * sz := by
    rw [lv_length henc, List.length_take, Nat.min_eq_left (by omega)]
  have hd := destroy_at (enc := enc) (h := h) (id := id) (k := ep * sz) (n := n * sz)
    (A := lv enc (xs.take ep)) (ys := (xs.drop ep).take n)
    (C := lv enc (xs.drop (ep + n)) ++ List.replicate (src.cap - src.size) Cell.raw) henc
    (by rw [g5, hx]; simp only [List.append_assoc]) hA.symm (by congr 1; simp; omega)
  unfold eraseV at her
  simp only [linkTo] at her
  rw [g1] at her
  simp only [Vector.adv, Option.map_some, Nat.zero_add] at her
  rw [hd] at her
  simp only at her
  have hidlt : id ≠ h.next := fun he => by
    have := hh.lt g5; omega
  have hkeep : h'.blk id = some ⟨true, lv enc (xs.take ep) ++ List.replicate (n * sz) Cell.raw ++
      (lv enc (xs.drop (ep + n)) ++ List.replicate (src.cap - src.size) Cell.raw)⟩ := by
    unfold Memblock.erase at her
    split at her
    · cases hres : reserve 0 (h.setBlk id (some ⟨true, lv enc (xs.take ep) ++ List.replicate (n * sz) Cell.raw ++
          (lv enc (xs.drop (ep + n)) ++ List.replicate (src.cap - src.size) Cell.raw)⟩))
          ⟨some (id, 0), src.size, 0⟩ src.size false (allocAns a) with
      | none => rw [hres] at her; cases her
      | some r =>
        obtain ⟨ok1, h1, o1⟩ := r
        obtain ⟨k1, k2⟩ := reserve_keeps rfl (by omega) hres
        have hb1 := (k1 id hidlt).trans (setBlk_get _)
        rw [hres] at her
        cases ok1 with
        | false => cases her; exact hb1
        | true =>
          simp only at her
          have hp1 := k2 rfl
          cases hro : rotateIn rot h1 o1 (ep * sz) (ep * sz + n * sz) with
          | none => rw [hro] at her; cases her
          | some h2 =>
            rw [hro] at her
            cases her
            unfold rotateIn at hro
            split at hro
            · cases hro; exact hb1
            · rw [hp1] at hro
              simp only at hro
              split at hro
              · split at hro
                · cases hro
                · cases hro
                  have hn2 : id ≠ (h.setBlk id (some ⟨true, lv enc (xs.take ep) ++ List.replicate (n * sz) Cell.raw ++
                    (lv enc (xs.drop (ep + n)) ++ List.replicate (src.cap - src.size) Cell.raw)⟩)).next := hidlt
                  rw [← hb1]
                  exact if_neg hn2
              · cases hro
    · cases her
  refine destruct_none (k := ep * sz) (m := n * sz) g1 g2 hkeep ?_ hpos (by omega) ?_
  · rw [List.append_assoc, List.drop_left' hA]
    exact List.take_left' (by simp)
  · simp only [List.length_append, hA, lv_length henc, List.length_drop, List.length_replicate]
    have : (xs.length - (ep + n)) * sz = xs.length * sz - (ep + n) * sz := Nat.sub_mul ..
    omega

/-- The copying step of `reserve` on a linked vector, once the new block exists. -/
theorem copy_core {hm h2 : Heap (Cell β)} {src : Obj} {xs : List T} {id nid n' : Nat} {ys : List (Cell β)}
    {junk : List (Cell β)} (henc : ∀ t, (enc t).length = sz) (hpos : 0 < xs.length * sz) (hid : id ≠ nid)
    (g1 : src.ptr = some (id, 0)) (g2 : src.cap ≠ 0) (g3 : src.size = xs.length * sz)
    (hb : hm.blk id = some ⟨true, lv enc xs ++ List.replicate (src.cap - src.size) Cell.raw⟩)
    (hmn : hm.blk nid = some ⟨true, junk⟩) (hj : junk.length = n') (hge : src.size ≤ n')
    (hl : ld hm (some (id, 0)) (min (src.size + 1) n') = some ys) (hst : st hm (some (nid, 0)) ys = some h2) :
    destroyedBy h2 ⟨some (nid, 0), src.size, n'⟩ = some (lv enc xs) ∧ destroyedBy h2 src = some (lv enc xs) := by
  have hll := lv_length henc xs
  have hyl := ld_length hl
  have hytake : ys.take src.size = lv enc xs := by
    unfold ld at hl
    rw [if_neg (by omega)] at hl
    simp only [hb] at hl
    split at hl
    · have := Option.some.inj hl
      rw [← this, List.drop_zero, List.take_take, Nat.min_eq_left (by omega), g3]
      exact List.take_left' hll
    · cases hl
  unfold st at hst
  rw [if_neg (by intro h0; rw [h0] at hyl; simp at hyl; omega)] at hst
  simp only [hmn] at hst
  rw [if_pos (by omega)] at hst
  cases hst
  refine ⟨?_, ?_⟩
  · unfold destroyedBy ld
    simp only
    rw [if_neg (by omega), if_neg (by omega), setBlk_get]
    simp only
    rw [if_pos (by simp; omega), List.drop_zero, List.take_zero, List.nil_append,
      List.take_append_of_le_length (by omega), hytake]
  · unfold destroyedBy ld
    rw [if_neg g2, if_neg (by omega), g1]
    simp only [Heap.setBlk, if_neg hid, hb]
    rw [if_pos (by simp [hll]; omega), List.drop_zero, g3]
    exact congrArg some (List.take_left' hll)

/-- `reserve` on a linked vector, when it returns. -/
theorem reserve_linked_parts {h h' : Heap (Cell β)} {o : Obj} {p : Nat × Nat} {n : Nat} {b' : Obj} {a : Bool}
    (hc : o.cap = 0) (hp : o.ptr = some p) (hn : 0 < n)
    (hres : reserve 0 h o n false (allocAns a) = some (true, h', b')) :
    ∃ n', n' = nextPow2 (n + 0) ∧ ∃ hm ys, hm = h.malloc n' [] (fun _ => (Cell.raw : Cell β)) ∧
      ld hm (some p) (min (o.size + 1) n') = some ys ∧ st hm (some (h.next, 0)) ys = some h' ∧
      b' = ⟨some (h.next, 0), o.size, n'⟩ := by
  unfold reserve at hres
  simp only [hc] at hres
  rw [if_neg (by omega)] at hres
  cases a with
  | false =>
    simp only [allocAns, realloc, if_true, Bool.false_eq_true, if_false] at hres
    cases hres
  | true =>
    simp only [allocAns, realloc, if_true, Bool.false_eq_true, if_false] at hres
    generalize nextPow2 (n + 0) = n' at hres
    refine ⟨n', rfl, h.malloc n' [] (fun _ => (Cell.raw : Cell β)), ?_⟩
    generalize h.malloc n' [] (fun _ => (Cell.raw : Cell β)) = hm at hres
    rw [if_pos ⟨trivial, by rw [hp]; simp⟩, hp] at hres
    cases hl : ld hm (some p) (min (o.size + 1) n') with
    | none => rw [hl] at hres; cases hres
    | some ys =>
      rw [hl] at hres
      simp only at hres
      cases hst : st hm (some (h.next, 0)) ys with
      | none => rw [hst] at hres; cases hres
      | some h2 =>
        rw [hst] at hres
        cases hres
        exact ⟨ys, rfl, rfl, hst, rfl⟩

/-- **C86 (violated)** taking a private copy of a linked vector copies its elements byte by byte: afterwards two
vectors, in different blocks, will each destroy an element with the bytes of every `xs[k]`, although only one such
element was ever constructed; for elements that own memory this is a double free. It happens in `copy_link`,
`reserve`, `push_back`, `insert`, `resize` and `assign` on a linked vector (all of them call `reserve`). -/
theorem linked_copy_violated {h h' : Heap (Cell β)} {src b' : Obj} {xs : List T} {n : Nat} {a : Bool}
    (henc : ∀ t, (enc t).length = sz) (hsz : 0 < sz) (hh : HOK h) (hv : VRep enc sz h src xs) (hne : xs ≠ [])
    (hn : src.size ≤ n) (hlim : n ≤ 2 ^ 31)
    (hres : reserve 0 h (linkTo src) n false (allocAns a) = some (true, h', b')) :
    b'.ptr ≠ src.ptr ∧ destroyedBy h' b' = some (lv enc xs) ∧ destroyedBy h' src = some (lv enc xs) := by
  rcases hv with ⟨rfl, rfl⟩ | ⟨id, g1, g2, g3, g4, g5⟩
  · exact absurd rfl hne
  have hpos : 0 < xs.length * sz := Nat.mul_pos (List.length_pos_iff.2 hne) hsz
  have hidlt : id ≠ h.next := fun he => by
    have := hh.lt g5; omega
  have hn0 : 0 < n := by omega
  obtain ⟨n', k0, hm, ys, k1, k2, k3, k4⟩ := reserve_linked_parts (o := linkTo src) rfl g1 hn0 hres
  have hge : n ≤ n' := by
    rw [k0]; exact Nat.le_trans (Nat.le_of_eq (Nat.add_zero n).symm) (nextPow2_ge (by omega) (by omega))
  clear hlim k0 hres
  have hb : hm.blk id = h.blk id := by rw [k1]; exact if_neg hidlt
  have hmn : ∃ junk, hm.blk h.next = some ⟨true, junk⟩ ∧ junk.length = n' := by
    refine ⟨_, by rw [k1]; exact if_pos rfl, by simp⟩
  obtain ⟨junk, j1, j2⟩ := hmn
  subst k4
  refine ⟨by rw [g1]; intro h0; cases h0; exact hidlt rfl, ?_⟩
  exact copy_core henc hpos hidlt g1 g2 g3 (hb.trans g5) j1 j2 (by omega) k2 k3

end Ustl.VecLink.Own
