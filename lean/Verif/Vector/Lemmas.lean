import Verif.Vector.Spec
import Verif.Memblock.Props
/-!
# Lemmas about vectors
-/
namespace Ustl.Vector
open Ustl.Memblock
variable {β T : Type _} {enc : T → List β} {sz : Nat} {rot : List (Cell β) → Nat → Nat → Nat → Option (List (Cell β))}

/-- Object `o` holds exactly the elements `xs`: its block is their representation followed by raw cells. -/
def VRep (enc : T → List β) (sz : Nat) (h : Heap (Cell β)) (o : Obj) (xs : List T) : Prop :=
  (o = Obj.empty ∧ xs = []) ∨ ∃ id, o.ptr = some (id, 0) ∧ o.cap ≠ 0 ∧ o.size = xs.length * sz ∧ o.size ≤ o.cap ∧
    h.blk id = some ⟨true, lv enc xs ++ List.replicate (o.cap - o.size) Cell.raw⟩

theorem lv_length (henc : ∀ t, (enc t).length = sz) (xs : List T) : (lv enc xs).length = xs.length * sz := by
  induction xs with
  | nil => simp [lv]
  | cons x xs ih => simp only [lv, List.flatMap_cons, List.length_append, List.length_map, henc] at ih ⊢
                    rw [ih, List.length_cons, Nat.succ_mul, Nat.add_comm]

theorem lv_append (xs ys : List T) : lv enc (xs ++ ys) = lv enc xs ++ lv enc ys := by simp [lv]

theorem lv_live (xs : List T) : (lv enc xs).all (fun c => !c.isRaw) = true := by
  simp [lv, Cell.isRaw]

theorem VRep.ook {h : Heap (Cell β)} {o : Obj} {xs : List T} (henc : ∀ t, (enc t).length = sz)
    (hv : VRep enc sz h o xs) : OOK h o := by
  rcases hv with ⟨rfl, _⟩ | ⟨id, h1, h2, h3, h4, h5⟩
  · exact ⟨fun h => absurd rfl h, fun _ => Or.inl ⟨rfl, rfl⟩⟩
  · exact ⟨fun _ => ⟨id, _, h1, h5, rfl, by simp [lv_length henc]; omega, h4⟩, fun h => absurd h h2⟩

theorem VRep.size {h : Heap (Cell β)} {o : Obj} {xs : List T} (hv : VRep enc sz h o xs) :
    o.size = xs.length * sz := by
  rcases hv with ⟨rfl, rfl⟩ | ⟨id, h1, h2, h3, h4, h5⟩
  · simp [Obj.empty]
  · exact h3

theorem setBlk_self {h : Heap (Cell β)} {id : Nat} {b : Option (Blk (Cell β))} (hb : h.blk id = b) :
    h.setBlk id b = h := by
  unfold Heap.setBlk
  cases h
  congr 1
  funext k
  by_cases hk : k = id <;> simp_all

/-- Cells of a block, by position. -/
theorem ld_at {h : Heap (Cell β)} {id : Nat} {A B C : List (Cell β)} {k n : Nat} {t : Bool}
    (hb : h.blk id = some ⟨t, A ++ B ++ C⟩) (hk : k = A.length) (hn : n = B.length) :
    ld h (some (id, k)) n = some B := by
  subst hk hn
  unfold ld
  split
  · rename_i h0; rw [List.length_eq_zero_iff.1 h0]
  · simp only [hb]
    rw [if_pos (by simp only [List.length_append]; omega), List.append_assoc, List.drop_left, List.take_left]

theorem st_at {h : Heap (Cell β)} {id : Nat} {A B C xs : List (Cell β)} {k : Nat}
    (hb : h.blk id = some ⟨true, A ++ B ++ C⟩) (hk : k = A.length) (hn : xs.length = B.length) :
    st h (some (id, k)) xs = some (h.setBlk id (some ⟨true, A ++ xs ++ C⟩)) := by
  subst hk
  unfold st
  split
  · rename_i h0
    subst h0
    have : B = [] := List.length_eq_zero_iff.1 hn.symm
    subst this
    rw [setBlk_self hb]
  · simp only [hb]
    rw [if_pos (by simp only [List.length_append]; omega), hn, List.append_assoc A B C, List.take_left,
      ← List.append_assoc, ← List.length_append, List.drop_left]

/-- `reserve` on a vector: the elements stay, the new cells are raw. -/
theorem reserve_v {h : Heap (Cell β)} {o : Obj} {xs : List T} (henc : ∀ t, (enc t).length = sz) (n : Nat)
    (exact : Bool) (a : Bool) (hh : HOK h) (hv : VRep enc sz h o xs) (hlim : n ≤ 2 ^ 31) :
    ∃ ok h' o', reserve 0 h o n exact (allocAns a) = some (ok, h', o') ∧
      (ok = false → h' = h ∧ o' = o ∧ a = false) ∧ Eff h o h' o' ∧ VRep enc sz h' o' xs ∧ o.cap ≤ o'.cap ∧
      (ok = true → n ≤ o'.cap) := by
  have ho := hv.ook henc
  rcases Nat.lt_or_ge o.cap (n + 0) with hcap | hcap
  · unfold reserve
    simp only
    rw [if_neg (by omega)]
    have hge : n + 0 ≤ (if exact = true then n + 0 else nextPow2 (n + 0)) := by
      cases exact with
      | true => simp
      | false => simpa using nextPow2_ge (by omega) hlim
    generalize (if exact = true then n + 0 else nextPow2 (n + 0)) = n' at *
    rcases hv with ⟨rfl, rfl⟩ | ⟨id, g1, g2, g3, g4, g5⟩
    · rw [if_pos (show Obj.empty.cap = 0 from rfl)]
      cases a with
      | false => exact ⟨false, h, Obj.empty, by simp [allocAns, realloc], by simp, Eff.refl hh ho, Or.inl ⟨rfl, rfl⟩,
          Nat.le_refl _, by simp⟩
      | true =>
        simp only [realloc, allocAns, if_true]
        rw [if_neg (by simp [Obj.empty])]
        have hb : (h.malloc n' [] fun _ => (Cell.raw : Cell β)).blk h.next = some ⟨true, List.replicate n' Cell.raw⟩ := by
          simp only [Heap.malloc, if_true, List.take_nil, List.nil_append, List.length_nil, Nat.sub_zero]
          rw [List.map_const', List.length_range]
        refine ⟨true, _, _, rfl, by simp, eff_fresh hh rfl hb (by simp) (Nat.zero_le _) (by omega) ?_ ?_
          (fun _ _ h => absurd rfl h), ?_, Nat.zero_le _, fun _ => hge⟩
        · intro id hid _; simp [Heap.malloc, hid]
        · intro id hid; simp [Heap.malloc, Nat.ne_of_gt hid, hh id (by omega)]
        · exact Or.inr ⟨h.next, rfl, by simp; omega, by simp [Obj.empty], Nat.zero_le _, by rw [hb]; simp [lv, Obj.empty]⟩
    · rw [if_neg g2]
      have hlt := hh.lt g5
      have hlen : (lv enc xs ++ List.replicate (o.cap - o.size) Cell.raw).length = o.cap := by
        simp [lv_length henc]; omega
      simp only [g1, realloc, g5]
      rw [if_neg (by simp), if_neg (by omega)]
      cases a with
      | false => exact ⟨false, h, o, rfl, by simp, Eff.refl hh ho, Or.inr ⟨id, g1, g2, g3, g4, g5⟩, Nat.le_refl _, by simp⟩
      | true =>
        simp only [allocAns, if_true]
        rw [if_neg (by simp)]
        have hb : ((h.setBlk id none).malloc n' (lv enc xs ++ List.replicate (o.cap - o.size) Cell.raw)
            (fun _ => (Cell.raw : Cell β))).blk h.next = some ⟨true, lv enc xs ++ List.replicate (n' - o.size) Cell.raw⟩ := by
          simp only [Heap.malloc, Heap.setBlk, if_true]
          rw [List.take_of_length_le (by omega), List.map_const', List.length_range, hlen, List.append_assoc,
            List.replicate_append_replicate, show o.cap - o.size + (n' - o.cap) = n' - o.size by omega]
        refine ⟨true, _, ⟨some (h.next, 0), o.size, n'⟩, rfl, by simp, eff_fresh hh rfl hb (by simp [lv_length henc]; omega) (by omega) (by omega) ?_ ?_ ?_, ?_,
          by simp; omega, fun _ => hge⟩
        · intro k hk hne
          have : k ≠ id := by
            rintro rfl
            rcases hne with h6 | h6
            · exact g2 h6
            · exact h6 g1
          simp [Heap.malloc, Heap.setBlk, hk, this]
        · intro k hk
          have h6 : k ≠ h.next := by omega
          have h7 : k ≠ id := by omega
          simp [Heap.malloc, Heap.setBlk, h6, h7, hh k (by omega)]
        · intro k h6 _ h7; rw [g1] at h7; cases h7; simp [Heap.malloc, Heap.setBlk, h6]
        · exact Or.inr ⟨h.next, rfl, by simp; omega, g3, by simp; omega, hb⟩
  · refine ⟨true, h, o, reserve_noop 0 n exact _ hcap, by simp, Eff.refl hh ho, hv, Nat.le_refl _, fun _ => hcap⟩

/-- Writing a whole block of a vector. -/
theorem put_v {h : Heap (Cell β)} {o : Obj} {id : Nat} {bs : List (Cell β)} (henc : ∀ t, (enc t).length = sz)
    (hh : HOK h) (ho : OOK h o) (h1 : o.ptr = some (id, 0)) (h2 : o.cap ≠ 0) (h3 : h.blk id = some ⟨true, bs⟩)
    (ys : List T) (hle : ys.length * sz ≤ o.cap) :
    Eff h o (h.setBlk id (some ⟨true, lv enc ys ++ List.replicate (o.cap - ys.length * sz) Cell.raw⟩))
      { o with size := ys.length * sz } ∧
    VRep enc sz (h.setBlk id (some ⟨true, lv enc ys ++ List.replicate (o.cap - ys.length * sz) Cell.raw⟩))
      { o with size := ys.length * sz } ys := by
  have hbl : bs.length = o.cap := by
    obtain ⟨id', b, g1, g2, g3, g4, g5⟩ := ho.owned h2
    rw [h1] at g1; cases g1
    rw [h3] at g2; cases g2
    exact g4
  have hv : VRep enc sz (h.setBlk id (some ⟨true, lv enc ys ++ List.replicate (o.cap - ys.length * sz) Cell.raw⟩))
      { o with size := ys.length * sz } ys :=
    Or.inr ⟨id, h1, h2, rfl, hle, by simp [Heap.setBlk]⟩
  refine ⟨?_, hv⟩
  have e1 := eff_set hh ho h2 h1 h3 rfl (lv enc ys ++ List.replicate (o.cap - ys.length * sz) Cell.raw)
    (by simp [lv_length henc]; omega)
  exact e1.trans (Eff.size e1.hok (hv.ook henc))

/-- The outcome of an operation that may throw. -/
def VOut (enc : T → List β) (sz : Nat) (h : Heap (Cell β)) (o : Obj) (a : Bool) (xs xs' : List T)
    (r : Option (Bool × Heap (Cell β) × Obj)) : Prop :=
  ∃ ok h' o', r = some (ok, h', o') ∧ (ok = false → h' = h ∧ o' = o ∧ a = false) ∧ Eff h o h' o' ∧
    VRep enc sz h' o' (if ok then xs' else xs) ∧ o.cap ≤ o'.cap

theorem raw_all (n : Nat) : (List.replicate n (Cell.raw : Cell β)).all Cell.isRaw = true := by
  simp [Cell.isRaw]

theorem construct_at {h : Heap (Cell β)} {id k : Nat} {A C : List (Cell β)} {ys : List T}
    (henc : ∀ t, (enc t).length = sz)
    (hb : h.blk id = some ⟨true, A ++ List.replicate (ys.length * sz) Cell.raw ++ C⟩) (hk : k = A.length) :
    construct enc sz h (some (id, k)) ys = some (h.setBlk id (some ⟨true, A ++ lv enc ys ++ C⟩)) := by
  unfold construct cellsAre
  rw [ld_at hb hk (by simp)]
  simp only [raw_all, if_true]
  exact st_at hb hk (by simp [lv_length henc])

theorem destroy_at {h : Heap (Cell β)} {id k n : Nat} {A C : List (Cell β)} {ys : List T}
    (henc : ∀ t, (enc t).length = sz)
    (hb : h.blk id = some ⟨true, A ++ lv enc ys ++ C⟩) (hk : k = A.length) (hn : n = ys.length * sz) :
    destroyN h (some (id, k)) n = some (h.setBlk id (some ⟨true, A ++ List.replicate n Cell.raw ++ C⟩)) := by
  unfold destroyN cellsAre
  rw [ld_at hb hk (by rw [lv_length henc, hn])]
  simp only [lv_live, if_true]
  exact st_at hb hk (by simp [lv_length henc, hn])

theorem assign_at {h : Heap (Cell β)} {id k : Nat} {A C : List (Cell β)} {xs ys : List T}
    (henc : ∀ t, (enc t).length = sz) (hb : h.blk id = some ⟨true, A ++ lv enc xs ++ C⟩) (hk : k = A.length)
    (hl : ys.length = xs.length) :
    assignElems enc sz h (some (id, k)) ys = some (h.setBlk id (some ⟨true, A ++ lv enc ys ++ C⟩)) := by
  unfold assignElems cellsAre
  rw [ld_at hb hk (by rw [lv_length henc, hl])]
  simp only [lv_live, if_true]
  exact st_at hb hk (by simp [lv_length henc, hl])

theorem construct_nil {h : Heap (Cell β)} {p : Option (Nat × Nat)} :
    construct enc sz h p ([] : List T) = some h := by
  simp [construct, cellsAre, ld, st, lv]

theorem destroy_zero {h : Heap (Cell β)} {p : Option (Nat × Nat)} : destroyN h p 0 = some h := by
  simp [destroyN, cellsAre, ld, st]

theorem assign_nil {h : Heap (Cell β)} {p : Option (Nat × Nat)} :
    assignElems enc sz h p ([] : List T) = some h := by
  simp [assignElems, cellsAre, ld, st, lv]

/-- `push_back`, copy construction, range construction. -/
theorem append_v {h : Heap (Cell β)} {o : Obj} {xs ys : List T} (henc : ∀ t, (enc t).length = sz) (hsz : 0 < sz)
    (a : Bool) (hh : HOK h) (hv : VRep enc sz h o xs) (hlim : (xs.length + ys.length) * sz ≤ 2 ^ 31) :
    VOut enc sz h o a xs (xs ++ ys) (append enc sz h o ys a) := by
  have hs := hv.size
  have hmul : (xs.length + ys.length) * sz = xs.length * sz + ys.length * sz := Nat.add_mul ..
  obtain ⟨ok, h1, o1, e1, e2, e3, e4, hcm, e5⟩ := reserve_v henc (o.size + ys.length * sz) false a hh hv (by omega)
  unfold append appendHole
  rw [e1]
  cases ok with
  | false => exact ⟨false, h1, o1, rfl, e2, e3, e4, hcm⟩
  | true =>
    have hcap := e5 rfl
    simp only
    have hs1 := e4.size
    have hlen : (xs ++ ys).length * sz = o.size + ys.length * sz := by rw [List.length_append]; omega
    rcases e4 with ⟨rfl, rfl⟩ | ⟨id, g1, g2, g3, g4, g5⟩
    · have h0 : o.size + ys.length * sz = 0 := by simp [Obj.empty] at hcap; omega
      have hy : ys = [] := by
        rcases Nat.mul_eq_zero.1 (show ys.length * sz = 0 by omega) with h | h
        · exact List.length_eq_zero_iff.1 h
        · omega
      subst hy
      rw [construct_nil]
      simp only
      rw [h0]
      exact ⟨true, h1, Obj.empty, rfl, by simp, e3, Or.inl ⟨rfl, by simp⟩, hcm⟩
    · have hb : h1.blk id = some ⟨true, lv enc xs ++ List.replicate (ys.length * sz) Cell.raw ++
          List.replicate (o1.cap - (xs ++ ys).length * sz) Cell.raw⟩ := by
        rw [g5, List.append_assoc, List.replicate_append_replicate,
          show ys.length * sz + (o1.cap - (xs ++ ys).length * sz) = o1.cap - o1.size by omega]
      have := put_v henc e3.hok e3.ook g1 g2 g5 (xs ++ ys) (by omega)
      rw [g1] at this
      simp only [g1, adv, Option.map_some, Nat.zero_add]
      rw [construct_at henc hb (by rw [lv_length henc]; omega), ← lv_append]
      simp only
      rw [← hlen]
      refine ⟨true, _, _, rfl, by simp, e3.trans this.1, this.2, hcm⟩

theorem pop_v {h : Heap (Cell β)} {o : Obj} {xs : List T} (henc : ∀ t, (enc t).length = sz)
    (hh : HOK h) (hv : VRep enc sz h o xs) (hne : xs ≠ []) :
    ∃ h' o', popBack sz h o = some (h', o') ∧ Eff h o h' o' ∧ VRep enc sz h' o' xs.dropLast ∧ o'.cap = o.cap := by
  have ho := hv.ook henc
  rcases hv with ⟨rfl, rfl⟩ | ⟨id, g1, g2, g3, g4, g5⟩
  · exact absurd rfl hne
  · have hpos : 0 < xs.length := List.length_pos_iff.2 hne
    have hdl : xs.dropLast.length = xs.length - 1 := by simp
    have hsum : xs.dropLast.length * sz + sz = xs.length * sz := by
      rw [hdl, ← Nat.succ_mul]; congr 1; omega
    unfold popBack
    rw [if_neg (by omega)]
    have hxs : xs = xs.dropLast ++ [xs.getLast hne] := (List.dropLast_concat_getLast hne).symm
    have hb : h.blk id = some ⟨true, lv enc xs.dropLast ++ lv enc [xs.getLast hne] ++ List.replicate (o.cap - o.size) Cell.raw⟩ := by
      rw [g5, ← lv_append, ← hxs]
    have := put_v henc hh ho g1 g2 g5 xs.dropLast (by omega)
    rw [g1] at this
    simp only [g1, adv, Option.map_some, Nat.zero_add]
    rw [destroy_at henc hb (by rw [lv_length henc]; omega) (by simp)]
    rw [List.append_assoc, List.replicate_append_replicate,
      show sz + (o.cap - o.size) = o.cap - xs.dropLast.length * sz by omega,
      show o.size - sz = xs.dropLast.length * sz by omega]
    exact ⟨_, _, rfl, this.1, this.2, rfl⟩

theorem resize_v {h : Heap (Cell β)} {o : Obj} {xs : List T} (henc : ∀ t, (enc t).length = sz) (hsz : 0 < sz)
    (n : Nat) (x : T) (a : Bool) (hh : HOK h) (hv : VRep enc sz h o xs) (hlim : n * sz ≤ 2 ^ 31) :
    VOut enc sz h o a xs (xs.take n ++ List.replicate (n - xs.length) x) (resizeV enc sz h o n x a) := by
  obtain ⟨ok, h1, o1, e1, e2, e3, e4, hcm, e5⟩ := reserve_v henc (n * sz) false a hh hv hlim
  unfold resizeV
  simp only
  rw [e1]
  cases ok with
  | false => exact ⟨false, h1, o1, rfl, e2, e3, e4, hcm⟩
  | true =>
    have hcap := e5 rfl
    have hs1 := e4.size
    simp only
    rcases e4 with ⟨rfl, rfl⟩ | ⟨id, g1, g2, g3, g4, g5⟩
    · have hn : n = 0 := by
        rcases Nat.mul_eq_zero.1 (show n * sz = 0 by simp [Obj.empty] at hcap; omega) with h | h <;> omega
      subst hn
      rw [if_neg (show ¬ 0 * sz < Obj.empty.size by simp [Obj.empty]), show 0 - Obj.empty.size / sz = 0 from Nat.zero_sub _,
        List.replicate_zero, construct_nil]
      exact ⟨true, h1, Obj.empty, by simp [Obj.empty], by simp, e3, Or.inl ⟨rfl, by simp⟩, hcm⟩
    · have hlen : (xs.take n ++ List.replicate (n - xs.length) x).length = n := by simp; omega
      have := put_v henc e3.hok e3.ook g1 g2 g5 (xs.take n ++ List.replicate (n - xs.length) x) (by rw [hlen]; omega)
      rw [g1, hlen] at this
      simp only [g1, adv, Option.map_some, Nat.zero_add]
      by_cases hlt : n * sz < o1.size
      · have hnx : n < xs.length := by
          rw [g3] at hlt; exact Nat.lt_of_mul_lt_mul_right hlt
        rw [if_pos hlt]
        have hb : h1.blk id = some ⟨true, lv enc (xs.take n) ++ lv enc (xs.drop n) ++ List.replicate (o1.cap - o1.size) Cell.raw⟩ := by
          rw [g5, ← lv_append, List.take_append_drop]
        have hd : (xs.drop n).length * sz + n * sz = xs.length * sz := by
          rw [← Nat.add_mul]; congr 1; simp; omega
        rw [destroy_at henc hb (by rw [lv_length henc, List.length_take, Nat.min_eq_left (by omega)]) (by omega)]
        rw [List.append_assoc, List.replicate_append_replicate,
          show o1.size - n * sz + (o1.cap - o1.size) = o1.cap - n * sz by omega]
        have hr : xs.take n ++ List.replicate (n - xs.length) x = xs.take n := by
          rw [show n - xs.length = 0 by omega]; simp
        rw [hr] at this ⊢
        exact ⟨true, _, _, rfl, by simp, e3.trans this.1, this.2, hcm⟩
      · rw [if_neg hlt]
        have hnx : xs.length ≤ n := by
          rw [g3] at hlt
          exact Nat.le_of_mul_le_mul_right (by omega : xs.length * sz ≤ n * sz) hsz
        have hdiv : o1.size / sz = xs.length := by rw [g3]; exact Nat.mul_div_cancel _ hsz
        have hd : (n - xs.length) * sz + xs.length * sz = n * sz := by
          rw [← Nat.add_mul]; congr 1; omega
        have hb : h1.blk id = some ⟨true, lv enc xs ++ List.replicate ((List.replicate (n - xs.length) x).length * sz) Cell.raw ++
            List.replicate (o1.cap - n * sz) Cell.raw⟩ := by
          rw [g5, List.append_assoc, List.replicate_append_replicate, List.length_replicate,
            show (n - xs.length) * sz + (o1.cap - n * sz) = o1.cap - o1.size by omega]
        rw [hdiv, construct_at henc hb (by rw [lv_length henc]; omega), ← lv_append]
        have hr : xs.take n = xs := List.take_of_length_le hnx
        rw [hr] at this ⊢
        exact ⟨true, _, _, rfl, by simp, e3.trans this.1, this.2, hcm⟩

/-- Rotation inside a block. -/
theorem rotIn_at (hr : RotateOK rot) {h : Heap (Cell β)} {o : Obj} {id f m : Nat} {pre a b post : List (Cell β)}
    (h1 : o.ptr = some (id, 0)) (h2 : h.blk id = some ⟨true, pre ++ a ++ b ++ post⟩) (hf : f = pre.length)
    (hm : m = f + a.length) (hs : o.size = m + b.length) :
    rotateIn rot h o f m = some (h.setBlk id (some ⟨true, pre ++ b ++ a ++ post⟩)) := by
  unfold rotateIn
  subst hf
  by_cases h0 : pre.length = m ∨ m = o.size
  · rw [if_pos h0]
    have : a = [] ∨ b = [] := by
      rcases h0 with h0 | h0
      · left; exact List.length_eq_zero_iff.1 (by omega)
      · right; exact List.length_eq_zero_iff.1 (by omega)
    rw [setBlk_self]
    rw [h2]
    rcases this with rfl | rfl <;> simp
  · rw [if_neg h0]
    simp only [h1, h2, Nat.zero_add]
    rw [hs, hm, hr pre a b post]

theorem insert_v (hr : RotateOK rot) {h : Heap (Cell β)} {o : Obj} {xs ys : List T}
    (henc : ∀ t, (enc t).length = sz) (hsz : 0 < sz) (ip : Nat) (a : Bool) (hh : HOK h) (hv : VRep enc sz h o xs)
    (hip : ip ≤ xs.length) (hlim : (xs.length + ys.length) * sz ≤ 2 ^ 31) :
    VOut enc sz h o a xs (xs.take ip ++ ys ++ xs.drop ip) (insertV enc sz rot h o ip ys a) := by
  have hs := hv.size
  have hdiv : o.size / sz = xs.length := by rw [hs]; exact Nat.mul_div_cancel _ hsz
  have hmul : (xs.length + ys.length) * sz = xs.length * sz + ys.length * sz := Nat.add_mul ..
  obtain ⟨ok, h1, o1, e1, e2, e3, e4, hcm, e5⟩ := reserve_v henc ((xs.length + ys.length) * sz) false a hh hv hlim
  unfold insertV
  rw [hdiv, e1]
  cases ok with
  | false => exact ⟨false, h1, o1, rfl, e2, e3, e4, hcm⟩
  | true =>
    have hcap := e5 rfl
    have hs1 := e4.size
    have hipsz : ip * sz ≤ xs.length * sz := Nat.mul_le_mul_right _ hip
    have hlen : (xs.take ip ++ ys ++ xs.drop ip).length * sz = o1.size + ys.length * sz := by
      rw [hs1, ← Nat.add_mul]; congr 1; simp; omega
    simp only
    unfold Memblock.insert Memblock.resize
    rw [if_pos (by omega), if_neg (by omega)]
    simp only
    rcases e4 with ⟨rfl, rfl⟩ | ⟨id, g1, g2, g3, g4, g5⟩
    · have hy : ys = [] := by
        rcases Nat.mul_eq_zero.1 (show ys.length * sz = 0 by simp [Obj.empty] at hcap; omega) with h | h
        · exact List.length_eq_zero_iff.1 h
        · omega
      subst hy
      have hz : Obj.empty.size = 0 := rfl
      simp only [List.length_nil, Nat.zero_mul, Nat.add_zero, Nat.sub_zero]
      have hip0 : ip = 0 := by simpa using hip
      subst hip0
      rw [Nat.zero_mul]
      simp only [rotateIn, hz, true_or, if_true, construct_nil]
      exact ⟨true, h1, Obj.empty, rfl, by simp, e3, Or.inl ⟨rfl, by simp⟩, hcm⟩
    · have hb : h1.blk id = some ⟨true, lv enc (xs.take ip) ++ lv enc (xs.drop ip) ++
          List.replicate (ys.length * sz) Cell.raw ++ List.replicate (o1.cap - (o1.size + ys.length * sz)) Cell.raw⟩ := by
        rw [g5, ← lv_append, List.take_append_drop, List.append_assoc, List.replicate_append_replicate,
          show ys.length * sz + (o1.cap - (o1.size + ys.length * sz)) = o1.cap - o1.size by omega]
      have hl1 : (lv enc (xs.take ip)).length = ip * sz := by
        rw [lv_length henc, List.length_take, Nat.min_eq_left hip]
      have hl2 : (lv enc (xs.drop ip)).length + ip * sz = xs.length * sz := by
        rw [lv_length henc, ← Nat.add_mul]; congr 1; simp; omega
      rw [rotIn_at hr (o := { o1 with size := o1.size + ys.length * sz }) g1 hb hl1.symm (by omega)
        (by simp only [List.length_replicate]; omega)]
      simp only
      have := put_v henc e3.hok e3.ook g1 g2 g5 (xs.take ip ++ ys ++ xs.drop ip) (by omega)
      rw [g1, hlen] at this
      simp only [g1, adv, Option.map_some, Nat.zero_add]
      have hb2 : (h1.setBlk id (some ⟨true, lv enc (xs.take ip) ++ List.replicate (ys.length * sz) Cell.raw ++
          lv enc (xs.drop ip) ++ List.replicate (o1.cap - (o1.size + ys.length * sz)) Cell.raw⟩)).blk id =
          some ⟨true, lv enc (xs.take ip) ++ List.replicate (ys.length * sz) Cell.raw ++
          (lv enc (xs.drop ip) ++ List.replicate (o1.cap - (o1.size + ys.length * sz)) Cell.raw)⟩ := by
        simp [Heap.setBlk]
      rw [construct_at henc hb2 hl1.symm]
      simp only
      rw [lv_append, lv_append] at this
      have hset : ∀ b b' : Option (Blk (Cell β)), (h1.setBlk id b).setBlk id b' = h1.setBlk id b' := by
        intro b b'; unfold Heap.setBlk; congr 1; funext k; by_cases hk : k = id <;> simp [hk]
      rw [hset, ← List.append_assoc]
      exact ⟨true, _, _, rfl, by simp, e3.trans this.1, this.2, hcm⟩

theorem setBlk_setBlk {h : Heap (Cell β)} {id : Nat} (b b' : Option (Blk (Cell β))) :
    (h.setBlk id b).setBlk id b' = h.setBlk id b' := by
  unfold Heap.setBlk; congr 1; funext k; by_cases hk : k = id <;> simp [hk]

theorem setBlk_get {h : Heap (Cell β)} {id : Nat} (b : Option (Blk (Cell β))) : (h.setBlk id b).blk id = b := by
  simp [Heap.setBlk]

theorem erase_v (hr : RotateOK rot) {h : Heap (Cell β)} {o : Obj} {xs : List T}
    (henc : ∀ t, (enc t).length = sz) (ep n : Nat) (a : Bool) (hh : HOK h) (hv : VRep enc sz h o xs)
    (hep : ep + n ≤ xs.length) :
    VOut enc sz h o a xs (xs.take ep ++ xs.drop (ep + n)) (eraseV sz rot h o ep n a) := by
  have hs := hv.size
  have ho := hv.ook henc
  have hmul : (ep + n) * sz = ep * sz + n * sz := Nat.add_mul ..
  have hle : (ep + n) * sz ≤ xs.length * sz := Nat.mul_le_mul_right _ hep
  unfold eraseV
  rcases hv with ⟨rfl, rfl⟩ | ⟨id, g1, g2, g3, g4, g5⟩
  · have : ep = 0 ∧ n = 0 := by simp at hep; omega
    obtain ⟨rfl, rfl⟩ := this
    simp only [Nat.zero_mul, destroy_zero, Memblock.erase, Nat.zero_add]
    rw [if_pos (Nat.zero_le _), reserve_noop 0 _ _ _ (by simp [Obj.empty])]
    exact ⟨true, h, Obj.empty, by simp [rotateIn, Obj.empty], by simp, Eff.refl hh ho, Or.inl ⟨rfl, rfl⟩, Nat.le_refl _⟩
  · have hx : xs = xs.take ep ++ ((xs.drop ep).take n ++ xs.drop (ep + n)) := by
      rw [← List.drop_drop, List.take_append_drop, List.take_append_drop]
    have hl1 : (xs.take ep).length = ep := by rw [List.length_take]; omega
    have hl2 : ((xs.drop ep).take n).length = n := by rw [List.length_take, List.length_drop]; omega
    have hl3 : (xs.drop (ep + n)).length * sz + (ep + n) * sz = xs.length * sz := by
      rw [← Nat.add_mul]; congr 1; rw [List.length_drop]; omega
    have hb : h.blk id = some ⟨true, lv enc (xs.take ep) ++ lv enc ((xs.drop ep).take n) ++
        (lv enc (xs.drop (ep + n)) ++ List.replicate (o.cap - o.size) Cell.raw)⟩ := by
      rw [g5]; congr 2
      conv => lhs; rw [hx]
      simp only [lv_append, List.append_assoc]
    have hlen : (xs.take ep ++ xs.drop (ep + n)).length * sz = o.size - n * sz := by
      rw [List.length_append, Nat.add_mul, hl1]; omega
    have hput := put_v henc hh ho g1 g2 g5 (xs.take ep ++ xs.drop (ep + n)) (by omega)
    rw [hlen] at hput
    simp only [g1, adv, Option.map_some, Nat.zero_add]
    rw [destroy_at henc hb (by rw [lv_length henc, hl1]) (by rw [hl2])]
    simp only [Memblock.erase]
    rw [if_pos (by omega), reserve_noop 0 _ _ _ (by omega)]
    simp only
    have hb2 := setBlk_get (h := h) (id := id) (some ⟨true, lv enc (xs.take ep) ++ List.replicate (n * sz) Cell.raw ++
        (lv enc (xs.drop (ep + n)) ++ List.replicate (o.cap - o.size) Cell.raw)⟩)
    rw [← List.append_assoc (lv enc (xs.take ep) ++ List.replicate (n * sz) Cell.raw)] at hb2 ⊢
    rw [rotIn_at hr g1 hb2 (by rw [lv_length henc, hl1]) (by simp) (by rw [lv_length henc]; omega)]
    simp only
    rw [setBlk_setBlk, ← lv_append, List.append_assoc, List.replicate_append_replicate,
      show n * sz + (o.cap - o.size) = o.cap - (o.size - n * sz) by omega]
    exact ⟨true, _, _, rfl, by simp, hput.1, hput.2, Nat.le_refl _⟩

theorem assign_v {h : Heap (Cell β)} {o : Obj} {xs ys : List T} (henc : ∀ t, (enc t).length = sz) (hsz : 0 < sz)
    (x : T) (a : Bool) (hh : HOK h) (hv : VRep enc sz h o xs) (hlim : ys.length * sz ≤ 2 ^ 31) :
    VOut enc sz h o a xs ys (assignV enc sz h o ys x a) := by
  obtain ⟨ok, h1, o1, e1, e2, e3, e4, hcm⟩ := resize_v henc hsz ys.length x a hh hv hlim
  unfold assignV
  rw [e1]
  cases ok with
  | false => exact ⟨false, h1, o1, rfl, e2, e3, e4, hcm⟩
  | true =>
    simp only [if_true] at e4 ⊢
    have hl : (xs.take ys.length ++ List.replicate (ys.length - xs.length) x).length = ys.length := by simp; omega
    rcases e4 with ⟨rfl, h0⟩ | ⟨id, g1, g2, g3, g4, g5⟩
    · have : ys = [] := List.length_eq_zero_iff.1 (by rw [← hl, h0]; rfl)
      subst this
      rw [assign_nil]
      exact ⟨true, h1, Obj.empty, rfl, by simp, e3, Or.inl ⟨rfl, rfl⟩, hcm⟩
    · rw [hl] at g3
      have hput := put_v henc e3.hok e3.ook g1 g2 g5 ys (by omega)
      have : (⟨o1.ptr, ys.length * sz, o1.cap⟩ : Obj) = o1 := by cases o1; simp_all
      rw [this] at hput
      rw [g1, assign_at (A := []) (k := 0) henc (by rw [g5]; rfl) rfl hl.symm, List.nil_append,
        show o1.cap - o1.size = o1.cap - ys.length * sz by omega]
      exact ⟨true, _, _, rfl, by simp, e3.trans hput.1, hput.2, hcm⟩

/-- `destroy_all`: every cell becomes raw. -/
theorem destroyAll_v {h : Heap (Cell β)} {o : Obj} {xs : List T} (henc : ∀ t, (enc t).length = sz)
    (hh : HOK h) (hv : VRep enc sz h o xs) :
    ∃ h', destroyAll h o = some h' ∧ Eff h o h' { o with size := 0 } ∧ VRep enc sz h' { o with size := 0 } ([] : List T) := by
  have ho := hv.ook henc
  unfold destroyAll
  rcases hv with ⟨rfl, rfl⟩ | ⟨id, g1, g2, g3, g4, g5⟩
  · exact ⟨h, rfl, Eff.refl hh ho, Or.inl ⟨rfl, rfl⟩⟩
  · rw [if_neg g2]
    have hput := put_v (enc := enc) henc hh ho g1 g2 g5 [] (by simp)
    rw [g1, destroy_at (A := []) (k := 0) henc (by rw [g5]; rfl) rfl g3, List.nil_append, List.replicate_append_replicate,
      show o.size + (o.cap - o.size) = o.cap by omega]
    rw [g1] at hput
    simp only [lv, List.flatMap_nil, List.nil_append, List.length_nil, Nat.zero_mul, Nat.sub_zero] at hput
    exact ⟨_, rfl, hput.1, hput.2⟩

theorem clear_v {h : Heap (Cell β)} {o : Obj} {xs : List T} (henc : ∀ t, (enc t).length = sz)
    (a : Bool) (hh : HOK h) (hv : VRep enc sz h o xs) :
    ∃ h' o', clearV h o a = some (true, h', o') ∧ Eff h o h' o' ∧ VRep enc sz h' o' ([] : List T) ∧ o'.cap = o.cap := by
  obtain ⟨h1, e1, e2, e3⟩ := destroyAll_v henc hh hv
  unfold clearV
  rw [e1]
  simp only [Memblock.resize]
  rw [if_neg (by omega)]
  exact ⟨_, _, rfl, e2, e3, rfl⟩

theorem destruct_v {h : Heap (Cell β)} {o : Obj} {xs : List T} (henc : ∀ t, (enc t).length = sz)
    (hh : HOK h) (hv : VRep enc sz h o xs) :
    ∃ h', destructV h o = some (h', Obj.empty) ∧ Eff h o h' Obj.empty := by
  obtain ⟨h1, e1, e2, e3⟩ := destroyAll_v henc hh hv
  have ho1 : OOK h1 o := by
    have := hv.size
    rcases hv with ⟨rfl, rfl⟩ | ⟨id, g1, g2, g3, g4, g5⟩
    · exact e2.ook
    · refine ⟨fun _ => ?_, fun h => absurd h g2⟩
      obtain ⟨id, b, k1, k2, k3, k4, k5⟩ := e2.ook.owned g2
      exact ⟨id, b, k1, k2, k3, k4, g4⟩
  unfold destructV
  rw [e1]
  simp only
  have hraw : cellsAre Cell.isRaw h1 o.ptr o.cap = true := by
    rcases e3 with ⟨h0, _⟩ | ⟨id, g1, g2, g3, g4, g5⟩
    · have h1' := congrArg Obj.cap h0
      simp only [Obj.empty] at h1'
      simp [cellsAre, ld, h1']
    · simp only at g1 g5
      unfold cellsAre
      rw [g1, ld_at (A := []) (k := 0) (B := List.replicate o.cap Cell.raw) (C := []) (t := true) (by rw [g5]; simp [lv]) rfl (by simp)]
      exact raw_all _
  rw [if_pos hraw]
  obtain ⟨h2, k1, k2, _⟩ := deallocate_spec e2.hok ho1
  refine ⟨h2, k1, ?_⟩
  -- from `{o with size := 0}` back to `o`: ownership does not depend on the size
  exact e2.trans ⟨⟨k2.hok, k2.ook, k2.keep, k2.next, k2.own, k2.nofor⟩, k2.leak⟩

theorem shrink_v {h : Heap (Cell β)} {o : Obj} {xs : List T} (henc : ∀ t, (enc t).length = sz) (hsz : 0 < sz)
    (a : Bool) (hh : HOK h) (hv : VRep enc sz h o xs) :
    ∃ ok h' o', shrinkToFit h o (allocAns a) = some (ok, h', o') ∧ (ok = false → h' = h ∧ o' = o ∧ a = false) ∧
      Eff h o h' o' ∧ VRep enc sz h' o' xs := by
  have ho := hv.ook henc
  obtain ⟨ok, h', o', e1, e2, e3, e4, e5⟩ := shrink_spec (allocAns a) hh ho
  cases ok with
  | false =>
    obtain ⟨k1, k2, k3⟩ := e2 rfl
    refine ⟨false, h', o', e1, fun _ => ⟨k1, k2, ?_⟩, e3, ?_⟩
    · cases a with
      | false => rfl
      | true => simp [allocAns] at k3
    · rw [k1, k2]; exact hv
  | true =>
    refine ⟨true, h', o', e1, by simp, e3, ?_⟩
    rcases hv with ⟨rfl, rfl⟩ | ⟨id, g1, g2, g3, g4, g5⟩
    · simp only [shrinkToFit, Obj.empty, if_true, Option.some.injEq, Prod.mk.injEq, true_and] at e1
      rw [← e1.2]; exact Or.inl ⟨rfl, rfl⟩
    · have hc := e5 rfl g2
      have hsz' : o'.size = o.size := by
        have h1 := view_length ho
        have h2 := view_length e3.ook
        rw [e4] at h2; omega
      by_cases hz : o.size = 0
      · have hoe : o' = Obj.empty := by
          unfold shrinkToFit at e1
          rw [if_neg g2] at e1
          simp only [g1, realloc, g5, hz, ne_eq, not_true_eq_false, if_false, if_true] at e1
          cases e1; rfl
        have hx : xs = [] := by
          rcases Nat.mul_eq_zero.1 (show xs.length * sz = 0 by omega) with h | h
          · exact List.length_eq_zero_iff.1 h
          · omega
        exact Or.inl ⟨hoe, hx⟩
      · have hc' : o'.cap ≠ 0 := by omega
        obtain ⟨id', b, k1, k2, k3, k4, k5⟩ := e3.ook.owned hc'
        refine Or.inr ⟨id', k1, hc', by omega, k5, ?_⟩
        rw [k2]
        obtain ⟨hp, bytes⟩ := b
        simp only at k3 k4
        rw [view_owned k1 k2, view_owned g1 g5, hsz', List.take_of_length_le (by simp; omega)] at e4
        simp only at e4
        rw [e4, k3, List.take_left' (by rw [lv_length henc]; omega), show o'.cap - o'.size = 0 by omega]
        simp

theorem set_v {h : Heap (Cell β)} {o : Obj} {xs : List T} (henc : ∀ t, (enc t).length = sz)
    (k : Nat) (x : T) (hh : HOK h) (hv : VRep enc sz h o xs) (hk : k < xs.length) :
    ∃ h', setElem enc sz h o k x = some h' ∧ Eff h o h' o ∧ VRep enc sz h' o (xs.set k x) := by
  have ho := hv.ook henc
  rcases hv with ⟨rfl, rfl⟩ | ⟨id, g1, g2, g3, g4, g5⟩
  · simp at hk
  · have hx : xs = xs.take k ++ [xs[k]] ++ xs.drop (k + 1) := by simp
    have hy : xs.set k x = xs.take k ++ [x] ++ xs.drop (k + 1) := by
      rw [List.set_eq_take_append_cons_drop, if_pos hk]; simp
    have hle : (k + 1) * sz ≤ o.size := by rw [g3]; exact Nat.mul_le_mul_right _ hk
    unfold setElem
    rw [if_pos hle]
    have hb : h.blk id = some ⟨true, lv enc (xs.take k) ++ lv enc [xs[k]] ++ (lv enc (xs.drop (k + 1)) ++
        List.replicate (o.cap - o.size) Cell.raw)⟩ := by
      rw [g5]; congr 2
      conv => lhs; rw [hx]
      simp only [lv_append, List.append_assoc]
    have hput := put_v henc hh ho g1 g2 g5 (xs.set k x) (by simp; omega)
    have hl : (xs.set k x).length * sz = o.size := by simp; omega
    have : (⟨o.ptr, (xs.set k x).length * sz, o.cap⟩ : Obj) = o := by rw [hl]
    rw [this, hl] at hput
    simp only [g1, adv, Option.map_some, Nat.zero_add]
    rw [assign_at (ys := [x]) henc hb (by rw [lv_length henc, List.length_take, Nat.min_eq_left (by omega)]) rfl,
      ← List.append_assoc, ← lv_append, ← lv_append, ← hy]
    exact ⟨_, rfl, hput.1, hput.2⟩

theorem get_v {h : Heap (Cell β)} {o : Obj} {xs : List T} (henc : ∀ t, (enc t).length = sz)
    (hv : VRep enc sz h o xs) (k : Nat) (hk : k < xs.length) :
    getElem sz h o k = some ((enc xs[k]).map Cell.live) := by
  rcases hv with ⟨rfl, rfl⟩ | ⟨id, g1, g2, g3, g4, g5⟩
  · simp at hk
  · have hx : xs = xs.take k ++ [xs[k]] ++ xs.drop (k + 1) := by simp
    have hle : (k + 1) * sz ≤ o.size := by rw [g3]; exact Nat.mul_le_mul_right _ hk
    unfold getElem
    rw [if_pos hle]
    have hb : h.blk id = some ⟨true, lv enc (xs.take k) ++ lv enc [xs[k]] ++ (lv enc (xs.drop (k + 1)) ++
        List.replicate (o.cap - o.size) Cell.raw)⟩ := by
      rw [g5]; congr 2
      conv => lhs; rw [hx]
      simp only [lv_append, List.append_assoc]
    simp only [g1, adv, Option.map_some, Nat.zero_add]
    rw [ld_at hb (by rw [lv_length henc, List.length_take, Nat.min_eq_left (by omega)])
      (by rw [lv_length henc]; simp)]
    simp [lv]

end Ustl.Vector
