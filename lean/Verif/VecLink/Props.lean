import Verif.VecLink.Spec
import Verif.Memblock.Props
/-!
# C86: vectors linked to foreign memory
-/
namespace Ustl.VecLink
open Ustl.Memblock
variable {α T : Type _} {enc : T → List α} {sz : Nat} {rot : List α → Nat → Nat → Nat → Option (List α)}

theorem encs_length (henc : ∀ t, (enc t).length = sz) (xs : List T) : (encs enc xs).length = xs.length * sz := by
  induction xs with
  | nil => simp [encs]
  | cons x xs ih =>
    simp only [encs, List.flatMap_cons, List.length_append, henc] at ih ⊢
    rw [ih, List.length_cons, Nat.succ_mul, Nat.add_comm]

theorem encs_append (xs ys : List T) : encs enc (xs ++ ys) = encs enc xs ++ encs enc ys := by simp [encs]

theorem encs_take (henc : ∀ t, (enc t).length = sz) (xs : List T) (n : Nat) :
    (encs enc xs).take (n * sz) = encs enc (xs.take n) := by
  rcases Nat.lt_or_ge xs.length n with h | h
  · rw [List.take_of_length_le (l := xs) (by omega), List.take_of_length_le]
    rw [encs_length henc]; exact Nat.mul_le_mul_right _ (by omega)
  · have hx : encs enc xs = encs enc (xs.take n) ++ encs enc (xs.drop n) := by
      rw [← encs_append, List.take_append_drop]
    rw [hx]
    exact List.take_left' (by rw [encs_length henc, List.length_take, Nat.min_eq_left h])

theorem encs_drop (henc : ∀ t, (enc t).length = sz) (xs : List T) (n : Nat) :
    (encs enc xs).drop (n * sz) = encs enc (xs.drop n) := by
  rcases Nat.lt_or_ge xs.length n with h | h
  · rw [List.drop_eq_nil_of_le, List.drop_eq_nil_of_le (by omega)]; · rfl
    rw [encs_length henc]; exact Nat.mul_le_mul_right _ (by omega)
  · have hx : encs enc xs = encs enc (xs.take n) ++ encs enc (xs.drop n) := by
      rw [← encs_append, List.take_append_drop]
    rw [hx]
    exact List.drop_left' (by rw [encs_length henc, List.length_take, Nat.min_eq_left h])

/-- Storing into an owned block. -/
theorem st_own {h : Heap α} {id k : Nat} {bs xs : List α} (hb : h.blk id = some ⟨true, bs⟩)
    (hl : k + xs.length ≤ bs.length) : ∃ h2, st h (some (id, k)) xs = some h2 ∧
      h2 = h.setBlk id (some ⟨true, bs.take k ++ xs ++ bs.drop (k + xs.length)⟩) := by
  unfold st
  split
  · rename_i h0
    subst h0
    refine ⟨_, rfl, ?_⟩
    simp only [List.append_nil, List.length_nil, Nat.add_zero, List.take_append_drop]
    unfold Heap.setBlk
    cases h
    congr 1
    funext j
    by_cases hj : j = id <;> simp_all
  · simp only [hb]
    rw [if_pos hl]
    exact ⟨_, rfl, rfl⟩

/-- After `reserve`: either nothing was asked of a linked (or empty) vector, or the vector owns a block with
enough room that starts with the visible bytes it had. -/
theorem room {h : Heap α} {o : Obj} (n : Nat) (a : Option (Nat → α)) (hh : HOK h) (ho : OOK h o)
    (hlim : n ≤ 2 ^ 31) :
    (a = none ∧ reserve 0 h o n false a = some (false, h, o)) ∨
    (n = 0 ∧ o.cap = 0 ∧ reserve 0 h o n false a = some (true, h, o)) ∨
    ∃ h1 o1 id bs, reserve 0 h o n false a = some (true, h1, o1) ∧ o1.ptr = some (id, 0) ∧ o1.cap ≠ 0 ∧
      h1.blk id = some ⟨true, bs⟩ ∧ bs.length = o1.cap ∧ n ≤ o1.cap ∧ o1.size = o.size ∧
      bs.take (min o.size n) = (view h o).take n ∧ (∀ m, m ≤ o1.cap → Eff h o h1 { o1 with size := m }) := by
  have hv := view_length ho
  rcases Nat.lt_or_ge o.cap (n + 0) with hcap | hcap
  · rcases reserve_grow 0 n false a hh ho hcap (fun _ => hlim) with h1 | ⟨h', bs, n', g1, _, g2, g3, g4, g5, g6, g7, g8, g9⟩
    · exact Or.inl h1
    · right; right
      have h0 : n' ≠ 0 := by omega
      refine ⟨h', _, h.next, bs, g2, rfl, h0, g4, g5, g1, rfl, ?_, fun m hm => eff_fresh hh g3 g4 g5 hm h0 g7 g8 g9⟩
      have : (bs.take (min o.size n')).take n = ((view h o).take n').take n := by rw [g6]
      rw [List.take_take, List.take_take] at this
      rw [show min n n' = n by omega] at this
      rw [← this]; congr 1; omega
  · right
    by_cases hc : o.cap = 0
    · left; exact ⟨by omega, hc, by rw [reserve_noop 0 n false a hcap]⟩
    · right
      obtain ⟨id, b, k1, k2, k3, k4, k5⟩ := ho.owned hc
      obtain ⟨bh, bs⟩ := b
      simp only at k3 k4; subst k3
      refine ⟨h, o, id, bs, reserve_noop 0 n false a hcap, k1, hc, k2, k4, by omega, rfl, ?_, fun m hm =>
        Eff.size hh (ho.resize (Or.inl hm))⟩
      rw [view_owned k1 k2, List.take_take]; congr 1; omega

/-- One call on one vector: it completes or throws, touches no block but the vector's own, and the visible bytes
become those of `ys` (or stay when it throws). -/
def Out (enc : T → List α) (h : Heap α) (o : Obj) (ys : List T) (r : Option (Bool × Heap α × Obj)) : Prop :=
  ∃ ok h' o', r = some (ok, h', o') ∧ (ok = false → h' = h ∧ o' = o) ∧ Eff h o h' o' ∧
    (ok = true → view h' o' = encs enc ys)

theorem Out.threw {h : Heap α} {o : Obj} {ys : List T} (hh : HOK h) (ho : OOK h o) :
    Out enc h o ys (some (false, h, o)) :=
  ⟨false, h, o, rfl, fun _ => ⟨rfl, rfl⟩, Eff.refl hh ho, by simp⟩

/-- Overwriting the tail of an owned block and setting the size. -/
theorem put_tail {h h1 : Heap α} {o o1 : Obj} {id k : Nat} {bs ys : List α} (hp : o1.ptr = some (id, 0))
    (hc : o1.cap ≠ 0) (hb : h1.blk id = some ⟨true, bs⟩) (hl : bs.length = o1.cap)
    (he : ∀ m, m ≤ o1.cap → Eff h o h1 { o1 with size := m }) (hk : k + ys.length ≤ o1.cap) :
    ∃ h2, st h1 (adv o1.ptr k) ys = some h2 ∧ Eff h o h2 { o1 with size := k + ys.length } ∧
      view h2 { o1 with size := k + ys.length } = bs.take k ++ ys := by
  obtain ⟨h2, e1, e2⟩ := st_own (k := k) hb (by omega : k + ys.length ≤ bs.length)
  have he1 := he (k + ys.length) hk
  have e3 : Eff h1 { o1 with size := k + ys.length } h2 { o1 with size := k + ys.length } := by
    rw [e2]
    exact eff_set he1.hok he1.ook (o := { o1 with size := k + ys.length }) hc hp hb rfl _ (by simp; omega)
  refine ⟨h2, ?_, he1.trans e3, ?_⟩
  · rw [hp]; simpa [adv] using e1
  · rw [view_owned (o := { o1 with size := k + ys.length }) hp (b := ⟨true, bs.take k ++ ys ++ bs.drop (k + ys.length)⟩)
      (by rw [e2]; simp [Heap.setBlk])]
    exact List.take_left' (by simp; omega)

theorem view_size {h : Heap α} {o : Obj} {xs : List T} (henc : ∀ t, (enc t).length = sz) (ho : OOK h o)
    (hv : view h o = encs enc xs) : o.size = xs.length * sz := by
  have := view_length ho
  rw [hv, encs_length henc] at this
  exact this.symm

theorem view_nil {h : Heap α} {o : Obj} (h0 : o.size = 0) : view h o = [] := by
  unfold view
  cases o.ptr with
  | none => rfl
  | some p =>
    simp only
    cases h.blk p.1 with
    | none => rfl
    | some b => simp [h0]

theorem append_out {h : Heap α} {o : Obj} {xs ys : List T} (henc : ∀ t, (enc t).length = sz)
    (a : Option (Nat → α)) (hh : HOK h) (ho : OOK h o) (hv : view h o = encs enc xs)
    (hlim : (xs.length + ys.length) * sz ≤ 2 ^ 31) :
    Out enc h o (xs ++ ys) (append enc sz h o ys a) := by
  have hs := view_size henc ho hv
  have hmul : (xs.length + ys.length) * sz = xs.length * sz + ys.length * sz := Nat.add_mul ..
  have hly := encs_length henc ys
  unfold append
  rcases room (o.size + ys.length * sz) a hh ho (by omega) with ⟨_, e⟩ | ⟨e0, ec, e⟩ |
    ⟨h1, o1, id, bs, e, p1, p2, p3, p4, p5, p6, p7, p8⟩
  · rw [e]; exact Out.threw hh ho
  · rw [e]
    have hy : encs enc ys = [] := List.length_eq_zero_iff.1 (by omega)
    have hx : encs enc xs = [] := List.length_eq_zero_iff.1 (by rw [encs_length henc]; omega)
    have hsz : o.size + ys.length * sz = o.size := by omega
    simp only [hy, st, if_true, hsz]
    exact ⟨true, h, o, rfl, by simp, Eff.refl hh ho, fun _ => by rw [hv, encs_append, hy, List.append_nil]⟩
  · rw [e]
    simp only
    obtain ⟨h2, q1, q2, q3⟩ := put_tail (k := o.size) (ys := encs enc ys) p1 p2 p3 p4 p8 (by omega)
    rw [p6, q1]
    rw [hly] at q2 q3
    refine ⟨true, h2, _, rfl, by simp, q2, fun _ => ?_⟩
    rw [q3, encs_append, ← hv]
    congr 1
    rw [Nat.min_eq_left (by omega)] at p7
    rw [p7, List.take_of_length_le (by rw [view_length ho]; omega)]

theorem pop_out {h : Heap α} {o : Obj} {xs : List T} (henc : ∀ t, (enc t).length = sz) (hh : HOK h)
    (ho : OOK h o) (hv : view h o = encs enc xs) (hne : xs ≠ []) :
    ∃ h' o', popBack sz h o = some (h', o') ∧ Eff h o h' o' ∧ view h' o' = encs enc xs.dropLast := by
  have hs := view_size henc ho hv
  have hpos : 0 < xs.length := List.length_pos_iff.2 hne
  have hsum : (xs.length - 1) * sz + sz = xs.length * sz := by
    rw [← Nat.succ_mul]; congr 1; omega
  unfold popBack
  rw [if_neg (by omega)]
  refine ⟨_, _, rfl, Eff.size hh (ho.resize ?_), ?_⟩
  · by_cases hc : o.cap = 0
    · exact Or.inr ⟨hc, by omega⟩
    · obtain ⟨id, b, k1, k2, k3, k4, k5⟩ := ho.owned hc
      exact Or.inl (by omega)
  · rw [take_view (by omega), hv, show o.size - sz = (xs.length - 1) * sz by omega, encs_take henc,
      List.dropLast_eq_take]

theorem resize_out {h : Heap α} {o : Obj} {xs : List T} (henc : ∀ t, (enc t).length = sz) (hsz : 0 < sz)
    (n : Nat) (x : T) (a : Option (Nat → α)) (hh : HOK h) (ho : OOK h o) (hv : view h o = encs enc xs)
    (hlim : n * sz ≤ 2 ^ 31) :
    Out enc h o (xs.take n ++ List.replicate (n - xs.length) x) (resize enc sz h o n x a) := by
  have hs := view_size henc ho hv
  have hdiv : o.size / sz = xs.length := by rw [hs]; exact Nat.mul_div_cancel _ hsz
  unfold resize
  rcases room (n * sz) a hh ho hlim with ⟨_, e⟩ | ⟨e0, ec, e⟩ |
    ⟨h1, o1, id, bs, e, p1, p2, p3, p4, p5, p6, p7, p8⟩
  · rw [e]; exact Out.threw hh ho
  · rw [e]
    have hn : n = 0 := by
      rcases Nat.mul_eq_zero.1 e0 with h0 | h0
      · exact h0
      · omega
    subst hn
    have hres : Eff h o h { o with size := 0 } := Eff.size hh (ho.resize (Or.inl (Nat.zero_le _)))
    have hvw : view h { o with size := 0 } = encs enc (xs.take 0 ++ []) := by
      rw [view_nil rfl]; simp [encs]
    simp only [Nat.zero_mul, Nat.zero_sub, List.replicate_zero]
    split
    · exact ⟨true, h, _, rfl, by simp, hres, fun _ => hvw⟩
    · simp only [encs, List.flatMap_nil, st, if_true]
      exact ⟨true, h, _, rfl, by simp, hres, fun _ => hvw⟩
  · rw [e]
    simp only [p6]
    split
    · rename_i hlt
      refine ⟨true, h1, _, rfl, by simp, p8 _ p5, fun _ => ?_⟩
      have hn : n ≤ xs.length := by
        rcases Nat.lt_or_ge xs.length n with hgt | hge
        · have := Nat.mul_le_mul_right sz (Nat.le_of_lt hgt); omega
        · exact hge
      rw [view_owned (o := { o1 with size := n * sz }) p1 p3]
      rw [Nat.min_eq_right (by omega)] at p7
      simp only
      rw [p7, hv, encs_take henc, show n - xs.length = 0 by omega]; simp
    · rename_i hge
      have hn : xs.length ≤ n := by
        rw [hs] at hge
        exact Nat.le_of_mul_le_mul_right (Nat.le_of_not_lt hge) hsz
      have hly := encs_length henc (List.replicate (n - xs.length) x)
      rw [List.length_replicate, Nat.sub_mul] at hly
      have hle := Nat.mul_le_mul_right sz hn
      have hend : o.size + (encs enc (List.replicate (n - xs.length) x)).length = n * sz := by omega
      obtain ⟨h2, q1, q2, q3⟩ := put_tail (k := o.size) (ys := encs enc (List.replicate (n - xs.length) x)) p1 p2 p3
        p4 p8 (by omega)
      rw [hdiv, q1]
      rw [hend] at q2 q3
      refine ⟨true, h2, _, rfl, by simp, q2, fun _ => ?_⟩
      rw [q3, encs_append, List.take_of_length_le hn, ← hv]
      congr 1
      rw [Nat.min_eq_left (by omega)] at p7
      rw [p7, List.take_of_length_le (by rw [view_length ho]; omega)]

/-- Overwriting part of an owned block. -/
theorem put_mid {h : Heap α} {o : Obj} {k : Nat} {xs A B C : List α} (hh : HOK h) (ho : OOK h o)
    (hc : o.cap ≠ 0) (hv : view h o = A ++ B ++ C) (hk : k = A.length) (hl : xs.length = B.length) :
    ∃ h', st h (adv o.ptr k) xs = some h' ∧ Eff h o h' o ∧ view h' o = A ++ xs ++ C := by
  obtain ⟨id, b, k1, k2, k3, k4, k5⟩ := ho.owned hc
  obtain ⟨bh, bs⟩ := b
  simp only at k3 k4; subst k3
  have hvl := view_length ho
  rw [hv] at hvl
  simp only [List.length_append] at hvl
  have hvo := view_owned k1 k2
  rw [hv] at hvo
  simp only at hvo
  obtain ⟨h2, e1, e2⟩ := st_own (k := k) (xs := xs) k2 (by omega)
  refine ⟨h2, by rw [k1]; simpa [adv] using e1, by rw [e2]; exact eff_set hh ho hc k1 k2 rfl _ (by simp; omega), ?_⟩
  rw [view_owned k1 (b := ⟨true, bs.take k ++ xs ++ bs.drop (k + xs.length)⟩) (by rw [e2]; simp [Heap.setBlk])]
  simp only
  have hA : bs.take k = A := by
    have : (bs.take o.size).take k = (A ++ B ++ C).take k := by rw [hvo]
    rw [List.take_take, Nat.min_eq_left (by omega), List.append_assoc, List.take_left' hk.symm] at this
    exact this
  have hC : (bs.drop (k + xs.length)).take C.length = C := by
    have : (bs.take o.size).drop (k + xs.length) = (A ++ B ++ C).drop (k + xs.length) := by rw [hvo]
    rw [List.drop_take, List.drop_left' (by simp; omega), show o.size - (k + xs.length) = C.length by omega] at this
    exact this
  rw [hA, List.take_append, List.take_of_length_le (by simp; omega)]
  congr 1
  rw [show o.size - (A ++ xs).length = C.length by simp; omega]
  exact hC

theorem assign_out {h : Heap α} {o : Obj} {xs ys : List T} (henc : ∀ t, (enc t).length = sz) (hsz : 0 < sz)
    (x : T) (a : Option (Nat → α)) (hh : HOK h) (ho : OOK h o) (hv : view h o = encs enc xs)
    (hlim : ys.length * sz ≤ 2 ^ 31) : Out enc h o ys (assign enc sz h o ys x a) := by
  have hly := encs_length henc ys
  unfold assign
  by_cases hcase : ∃ h' o', resize enc sz h o ys.length x a = some (true, h', o') ∧ o'.cap = 0 ∧ ys ≠ []
  · obtain ⟨h', o', e1, e2, e3⟩ := hcase
    exfalso
    -- a completed resize to a non-zero size leaves an owned block
    have hpos : 0 < ys.length := List.length_pos_iff.2 e3
    have hpos' : 0 < ys.length * sz := Nat.mul_pos hpos hsz
    unfold resize at e1
    rcases room (ys.length * sz) a hh ho hlim with ⟨_, e⟩ | ⟨e0, ec, e⟩ |
      ⟨h1, o1, id, bs, e, p1, p2, p3, p4, p5, p6, p7, p8⟩
    · rw [e] at e1; cases e1
    · omega
    · rw [e] at e1
      simp only at e1
      split at e1
      · cases e1; exact p2 e2
      · split at e1
        · cases e1
        · cases e1; exact p2 e2
  · obtain ⟨ok, h1, o1, e1, e2, e3, e4⟩ := resize_out henc hsz ys.length x a hh ho hv hlim
    rw [e1]
    cases ok with
    | false => obtain ⟨rfl, rfl⟩ := e2 rfl; exact Out.threw hh ho
    | true =>
      simp only
      by_cases hy : ys = []
      · subst hy
        simp only [encs, List.flatMap_nil, st, if_true]
        refine ⟨true, h1, o1, rfl, by simp, e3, fun _ => ?_⟩
        rw [e4 rfl]; simp [encs]
      · have hc : o1.cap ≠ 0 := fun hc => hcase ⟨h1, o1, e1, hc, hy⟩
        obtain ⟨h2, q1, q2, q3⟩ := put_mid (k := 0) (xs := encs enc ys) (A := []) (C := []) e3.hok e3.ook hc
          (B := encs enc (xs.take ys.length ++ List.replicate (ys.length - xs.length) x))
          (by rw [e4 rfl, List.append_nil, List.nil_append]) rfl
          (by rw [encs_length henc, encs_length henc]; congr 1; simp; omega)
        have q1' : st h1 o1.ptr (encs enc ys) = some h2 := by
          rw [← q1]; cases o1.ptr <;> simp [adv]
        rw [q1']
        exact ⟨true, h2, o1, rfl, by simp, e3.trans q2, fun _ => by rw [q3]; simp⟩

theorem insert_out (hr : RotateOK rot) {h : Heap α} {o : Obj} {xs ys : List T} (henc : ∀ t, (enc t).length = sz)
    (hsz : 0 < sz) (ip : Nat) (a : Option (Nat → α)) (hh : HOK h) (ho : OOK h o) (hv : view h o = encs enc xs)
    (hip : ip ≤ xs.length) (hlim : (xs.length + ys.length) * sz ≤ 2 ^ 31) :
    ∃ ok h' o', insert enc sz rot h o ip ys a = some (ok, h', o') ∧ Eff h o h' o' ∧
      view h' o' = encs enc (if ok then xs.take ip ++ ys ++ xs.drop ip else xs) := by
  have hs := view_size henc ho hv
  have hdiv : o.size / sz = xs.length := by rw [hs]; exact Nat.mul_div_cancel _ hsz
  have hmul : (xs.length + ys.length) * sz = xs.length * sz + ys.length * sz := Nat.add_mul ..
  have hly := encs_length henc ys
  have hipm := Nat.mul_le_mul_right sz hip
  unfold insert
  rw [hdiv]
  obtain ⟨ok, h1, o1, e1, e2, e3, e4, e5, e6⟩ := reserve_spec 0 ((xs.length + ys.length) * sz) false a hh ho
    (fun _ => hlim) (fun _ => by omega)
  rw [e1]
  cases ok with
  | false => exact ⟨false, h1, o1, rfl, e3, by rw [e4, hv]; rfl⟩
  | true =>
    simp only
    obtain ⟨ok2, h2, o2, f1, f2, f3, f4⟩ := insert_spec 0 hr (ip * sz) (ys.length * sz) a e3.hok e3.ook
      (by omega) (by omega)
    rw [f1]
    cases ok2 with
    | false =>
      obtain ⟨rfl, rfl, _⟩ := f2 rfl
      exact ⟨false, _, _, rfl, e3, by rw [e4, hv]; rfl⟩
    | true =>
      simp only
      obtain ⟨hole, g1, g2⟩ := f4 rfl
      rw [e4, hv, encs_take henc, encs_drop henc] at g2
      by_cases hc : o2.cap = 0
      · -- only when there was nothing to insert into an empty or linked vector
        have hcap := e6 rfl
        have hc1 : o1.cap = 0 := by
          apply Classical.byContradiction
          intro hne
          obtain ⟨_, _, k1, k2, _⟩ := e3.ook.owned hne
          unfold Memblock.insert at f1
          rw [if_pos (by omega : ip * sz ≤ o1.size)] at f1
          unfold Memblock.resize at f1
          rw [if_neg (by omega)] at f1
          simp only at f1
          split at f1
          · cases f1
          · cases f1; exact hne hc
        have hy : encs enc ys = [] := List.length_eq_zero_iff.1 (by omega)
        have hhole : hole = [] := List.length_eq_zero_iff.1 (by omega)
        refine ⟨true, h2, o2, by rw [hy]; simp [st], e3.trans f3, ?_⟩
        rw [g2, if_pos rfl, encs_append, encs_append, hy, hhole]
      · obtain ⟨h3, q1, q2, q3⟩ := put_mid (k := ip * sz) (xs := encs enc ys) f3.hok f3.ook hc g2
          (by rw [encs_length henc, List.length_take, Nat.min_eq_left hip]) (by omega)
        rw [q1]
        exact ⟨true, h3, o2, rfl, (e3.trans f3).trans q2, by rw [q3, if_pos rfl, encs_append, encs_append]⟩

theorem set_out {h : Heap α} {o : Obj} {xs : List T} (henc : ∀ t, (enc t).length = sz) (k : Nat) (x : T)
    (hh : HOK h) (ho : OOK h o) (hv : view h o = encs enc xs) (hk : k < xs.length) (hc : o.cap ≠ 0) :
    ∃ h', set enc sz h o k x = some h' ∧ Eff h o h' o ∧ view h' o = encs enc (xs.set k x) := by
  have hs := view_size henc ho hv
  have hle : (k + 1) * sz ≤ xs.length * sz := Nat.mul_le_mul_right _ hk
  unfold set
  rw [if_pos (by omega)]
  have hx : xs = xs.take k ++ [xs[k]] ++ xs.drop (k + 1) := by simp
  have hv' : view h o = encs enc (xs.take k) ++ encs enc [xs[k]] ++ encs enc (xs.drop (k + 1)) := by
    rw [← encs_append, ← encs_append, ← hx, hv]
  have h1 : encs enc [x] = enc x := by simp [encs]
  obtain ⟨h', q1, q2, q3⟩ := put_mid (k := k * sz) (xs := enc x) hh ho hc hv'
    (by rw [encs_length henc, List.length_take, Nat.min_eq_left (by omega)]) (by simp [encs, henc])
  refine ⟨h', q1, q2, ?_⟩
  rw [q3, List.set_eq_take_append_cons_drop, if_pos hk, ← h1, ← encs_append, ← encs_append]
  simp

/-- The invariant of a history. -/
structure Inv' (enc : T → List α) (w : World α) (v : Nat → List T) : Prop where
  hok : HOK w.heap
  owns : Owns w
  vals : ∀ i, view w.heap (w.obj i) = encs enc (v i)

theorem put_inv {w : World α} {v : Nat → List T} {i : Nat} {h' : Heap α} {o' : Obj} {xs : List T}
    (hi : Inv' enc w v) (e : Eff0 w.heap (w.obj i) h' o') (hv : view h' o' = encs enc xs) :
    Inv' enc ⟨h', fun k => if k = i then o' else w.obj k⟩ (upd v i xs) ∧ SameForeign w.heap h' := by
  obtain ⟨g1, g2, g3, g4, g5⟩ := lift hi.hok hi.owns e
  refine ⟨⟨g1, g2, fun k => ?_⟩, fun id b hb => ⟨fun h => e.nofor id b h hb, fun h => g5 id b h hb⟩⟩
  by_cases hk : k = i
  · subst hk; rw [upd, if_pos rfl, ← hv]; exact g4
  · have := g3 k hk
    simp only [World.views] at this
    rw [upd, if_neg hk, ← hi.vals k]; exact this

theorem upd_self (v : Nat → List T) (i : Nat) : upd v i (v i) = v := by
  funext k; unfold upd; split
  · rename_i h; rw [h]
  · rfl

/-- What one call guarantees. -/
def StepOut (enc : T → List α) (arr : Nat × Nat → Nat → List T) (w : World α) (op : Op T) (v : Nat → List T)
    (r : Option (Bool × World α)) : Prop :=
  ∃ ok w', r = some (ok, w') ∧ Inv' enc w' (if ok then op.apply arr v else v) ∧ SameForeign w.heap w'.heap

theorem stepOut_of {arr : Nat × Nat → Nat → List T} {w : World α} {op : Op T} {v : Nat → List T} {i : Nat}
    {ys : List T} {r : Option (Bool × Heap α × Obj)} (hi : Inv' enc w v) (happ : op.apply arr v = upd v i ys)
    (hr : ∃ ok h' o', r = some (ok, h', o') ∧ Eff0 w.heap (w.obj i) h' o' ∧
      view h' o' = encs enc (if ok then ys else v i)) : StepOut enc arr w op v (w.put i r) := by
  obtain ⟨ok, h', o', h1, h2, h3⟩ := hr
  obtain ⟨g1, g2⟩ := put_inv hi h2 h3
  refine ⟨ok, _, by rw [h1]; rfl, ?_, g2⟩
  cases ok with
  | true => rw [if_pos rfl, happ]; exact g1
  | false => simp only [Bool.false_eq_true, if_false] at g1 ⊢; rw [upd_self] at g1; exact g1

theorem out_step {arr : Nat × Nat → Nat → List T} {w : World α} {op : Op T} {v : Nat → List T} {i : Nat}
    {ys : List T} {r : Option (Bool × Heap α × Obj)} (hi : Inv' enc w v) (happ : op.apply arr v = upd v i ys)
    (ho : Out enc w.heap (w.obj i) ys r) : StepOut enc arr w op v (w.put i r) := by
  obtain ⟨ok, h', o', h1, h2, h3, h4⟩ := ho
  refine stepOut_of hi happ ⟨ok, h', o', h1, h3.toEff0, ?_⟩
  cases ok with
  | true => exact h4 rfl
  | false => obtain ⟨rfl, rfl⟩ := h2 rfl; exact hi.vals i

theorem link_step (henc : ∀ t, (enc t).length = sz) (hsz : 0 < sz) (hr : RotateOK rot)
    {arr : Nat × Nat → Nat → List T} {w : World α} {v : Nat → List T} (hi : Inv' enc w v) (op : Op T)
    (a : Option (Nat → α)) (hp : Pre enc sz arr w op v) : StepOut enc arr w op v (step enc sz rot w op a) := by
  cases op with
  | link i p n =>
    refine stepOut_of hi (ys := arr p n) rfl ⟨true, _, _, rfl, ⟨hi.hok, ⟨fun h => absurd rfl h, fun _ =>
      Or.inr ⟨p, rfl, hp.1⟩⟩, fun _ _ _ => rfl, Nat.le_refl _, fun h => absurd rfl h, fun _ _ h _ => h⟩, ?_⟩
    obtain ⟨⟨b, h1, h2, h3⟩, h4⟩ := hp
    rw [if_pos rfl, ← h4]
    simp only [view, Memblock.link, foreign, h1]
  | manage i xs =>
    obtain ⟨hc, hne⟩ := hp
    have hc' : (w.obj i).cap = 0 := hc
    have hpos : 0 < xs.length * sz := Nat.mul_pos (List.length_pos_iff.2 hne) hsz
    have hbk : (Heap.mk (fun k => if k = w.heap.next then some ⟨true, encs enc xs⟩ else w.heap.blk k)
        (w.heap.next + 1)).blk w.heap.next = some ⟨true, encs enc xs⟩ := if_pos rfl
    have e := eff_fresh (o := w.obj i) (sz := xs.length * sz) (cap := xs.length * sz) hi.hok rfl hbk
      (encs_length henc xs) (Nat.le_refl _) (by omega) (fun id h _ => if_neg h) (fun id h => by
        have h1 : id ≠ w.heap.next := by omega
        simp [h1, hi.hok id (by omega)]) (fun id _ h => absurd hc' h)
    refine stepOut_of hi (ys := xs) rfl ⟨true, _, ⟨some (w.heap.next, 0), xs.length * sz, xs.length * sz⟩,
      by simp [Memblock.manage, hc'], e.toEff0, ?_⟩
    rw [if_pos rfl, view_owned rfl hbk]
    exact List.take_of_length_le (by rw [encs_length henc]; exact Nat.le_refl _)
  | unlink i =>
    refine stepOut_of hi (ys := []) rfl ⟨true, _, _, rfl, ⟨hi.hok, ⟨fun h => absurd rfl h, fun _ =>
      Or.inl ⟨rfl, rfl⟩⟩, fun _ _ _ => rfl, Nat.le_refl _, fun h => absurd rfl h, fun _ _ h _ => h⟩, rfl⟩
  | copyLink i =>
    have hs := view_size henc (hi.owns.ook i) (hi.vals i)
    simp only [Pre] at hp
    obtain ⟨ok, h', o', e1, e2, e3, e4, _⟩ := reserve_spec 0 (w.obj i).size false a hi.hok (hi.owns.ook i)
      (fun _ => by omega) (by simp)
    refine stepOut_of hi (ys := v i) (upd_self v i).symm ⟨ok, h', o', e1, e3.toEff0, ?_⟩
    rw [e4, hi.vals i]; cases ok <;> rfl
  | reserve i n =>
    have hs := view_size henc (hi.owns.ook i) (hi.vals i)
    obtain ⟨ok, h', o', e1, e2, e3, e4, _⟩ := reserve_spec 0 (n * sz) false a hi.hok (hi.owns.ook i)
      (fun _ => hp.1) (fun hc => by rw [hs]; exact Nat.mul_le_mul_right _ (hp.2 hc))
    refine stepOut_of hi (ys := v i) (upd_self v i).symm ⟨ok, h', o', e1, e3.toEff0, ?_⟩
    rw [e4, hi.vals i]; cases ok <;> rfl
  | append i xs => exact out_step hi rfl (append_out henc a hi.hok (hi.owns.ook i) (hi.vals i) hp)
  | popBack i =>
    obtain ⟨h', o', e1, e2, e3⟩ := pop_out henc hi.hok (hi.owns.ook i) (hi.vals i) hp
    exact stepOut_of hi (ys := (v i).dropLast) rfl ⟨true, h', o', by rw [e1]; rfl, e2.toEff0, e3⟩
  | resize i n x => exact out_step hi rfl (resize_out henc hsz n x a hi.hok (hi.owns.ook i) (hi.vals i) hp)
  | insert i ip xs =>
    obtain ⟨ok, h', o', e1, e2, e3⟩ := insert_out hr henc hsz ip a hi.hok (hi.owns.ook i) (hi.vals i) hp.1 hp.2
    exact stepOut_of hi (ys := (v i).take ip ++ xs ++ (v i).drop ip) rfl ⟨ok, h', o', e1, e2.toEff0, e3⟩
  | erase i ep n =>
    have hs := view_size henc (hi.owns.ook i) (hi.vals i)
    have hle : (ep + n) * sz ≤ (v i).length * sz := Nat.mul_le_mul_right _ hp.1
    have hmul : (ep + n) * sz = ep * sz + n * sz := Nat.add_mul ..
    have h2 := hp.2
    obtain ⟨ok, h', o', e1, e2, e3, e4⟩ := erase_spec 0 hr (ep * sz) (n * sz) a hi.hok (hi.owns.ook i)
      (by omega) (by omega)
    refine out_step hi (ys := (v i).take ep ++ (v i).drop (ep + n)) rfl ⟨ok, h', o', e1, fun h =>
      ⟨(e2 h).1, (e2 h).2.1⟩, e3, fun h => ?_⟩
    rw [e4 h, hi.vals i, ← hmul, encs_take henc, encs_drop henc, encs_append]
  | assign i xs d => exact out_step hi rfl (assign_out henc hsz d a hi.hok (hi.owns.ook i) (hi.vals i) hp)
  | clear i =>
    show StepOut enc arr w (.clear i) v (w.put i (Memblock.resize 0 w.heap (w.obj i) 0 true a))
    refine out_step (i := i) hi (ys := []) rfl ?_
    unfold Memblock.resize
    rw [if_neg (by omega)]
    exact ⟨true, _, _, rfl, by simp, Eff.size hi.hok ((hi.owns.ook i).resize (Or.inl (Nat.zero_le _))),
      fun _ => view_nil rfl⟩
  | set i k x =>
    obtain ⟨h', e1, e2, e3⟩ := set_out henc k x hi.hok (hi.owns.ook i) (hi.vals i) hp.1 hp.2
    exact stepOut_of hi (ys := (v i).set k x) rfl ⟨true, h', w.obj i, by rw [e1]; rfl, e2.toEff0, e3⟩
  | swap i j =>
    have key : ∀ k, ((w.setObj i (w.obj j)).setObj j (w.obj i)).obj k =
        w.obj (if k = j then i else if k = i then j else k) := by
      intro k
      simp only [World.setObj]
      by_cases h1 : k = j
      · simp [h1]
      · rw [if_neg h1, if_neg h1]
        by_cases h2 : k = i
        · rw [if_pos h2, if_pos h2]
        · rw [if_neg h2, if_neg h2]
    refine ⟨true, _, rfl, ⟨hi.hok, ⟨fun k => by rw [key]; exact hi.owns.owned _, fun k => by
      rw [key]; exact hi.owns.linked _, fun k l hkl => ?_⟩, fun k => ?_⟩, fun _ _ _ => Iff.rfl⟩
    · rw [key, key]
      apply hi.owns.unique
      split <;> split <;> (try split) <;> (try split) <;> omega
    · rw [key]
      have := hi.vals (if k = j then i else if k = i then j else k)
      show view w.heap _ = _
      rw [this, if_pos rfl]
      congr 1
      simp only [Op.apply, upd]
      split
      · rfl
      · split <;> rfl
  | shrinkToFit i =>
    obtain ⟨ok, h', o', e1, e2, e3, e4, _⟩ := shrink_spec a hi.hok (hi.owns.ook i)
    refine stepOut_of hi (ys := v i) (upd_self v i).symm ⟨ok, h', o', e1, e3.toEff0, ?_⟩
    rw [e4, hi.vals i]; cases ok <;> rfl
  | destruct i =>
    obtain ⟨h', e1, e2, _⟩ := deallocate_spec hi.hok (hi.owns.ook i)
    exact stepOut_of hi (ys := []) rfl ⟨true, h', Obj.empty, by rw [e1]; rfl, e2.toEff0, rfl⟩

theorem SameForeign.trans {h h1 h2 : Heap α} (a : SameForeign h h1) (b : SameForeign h1 h2) : SameForeign h h2 :=
  fun id bk hb => (b id bk hb).trans (a id bk hb)

theorem hist_inv (henc : ∀ t, (enc t).length = sz) (hsz : 0 < sz) (hr : RotateOK rot)
    {arr : Nat × Nat → Nat → List T} {w0 w : World α} {ops : List (Op T × Bool)} {v : Nat → List T}
    (hi : Initial w0) (hh : Hist enc sz rot arr w0 ops w v) : Inv' enc w v ∧ SameForeign w0.heap w.heap := by
  induction hh with
  | nil =>
    refine ⟨⟨hi.ok.1, hi.ok.2, fun i => ?_⟩, fun _ _ _ => Iff.rfl⟩
    rw [hi.1 i]; rfl
  | ok hh hp hs ih =>
    obtain ⟨ok, w', g1, g2, g3⟩ := link_step henc hsz hr ih.1 _ _ hp
    rw [hs] at g1
    cases g1
    exact ⟨g2, ih.2.trans g3⟩
  | threw hh hp hs ih =>
    obtain ⟨ok, w', g1, g2, g3⟩ := link_step henc hsz hr ih.1 _ _ hp
    rw [hs] at g1
    cases g1
    exact ⟨g2, ih.2.trans g3⟩

theorem Inv'.shows {w : World α} {v : Nat → List T} (henc : ∀ t, (enc t).length = sz) (hsz : 0 < sz)
    (hi : Inv' enc w v) (i : Nat) : Shows enc sz w i (v i) := by
  have ho := hi.owns.ook i
  have hs := view_size henc ho (hi.vals i)
  refine ⟨by rw [hs]; exact Nat.mul_div_cancel _ hsz, fun k hk => ?_⟩
  have hle : (k + 1) * sz ≤ (v i).length * sz := Nat.mul_le_mul_right _ hk
  have hk1 : (k + 1) * sz = k * sz + sz := Nat.succ_mul ..
  unfold get
  rw [if_pos (by omega)]
  have hld := ld_view ho
  rw [hi.vals i] at hld
  have hx : v i = (v i).take k ++ [(v i)[k]] ++ (v i).drop (k + 1) := by simp
  have henk : ((encs enc (v i)).drop (k * sz)).take sz = enc (v i)[k] := by
    rw [encs_drop henc]
    have h1 := encs_take henc ((v i).drop k) 1
    rw [Nat.one_mul] at h1
    rw [h1]
    have : ((v i).drop k).take 1 = [(v i)[k]] := by
      rw [List.drop_eq_getElem_cons hk]; rfl
    rw [this]; simp [encs]
  unfold ld at hld ⊢
  rw [if_neg (by omega)] at hld ⊢
  cases hp : (w.obj i).ptr with
  | none => rw [hp] at hld; cases hld
  | some p =>
    rw [hp] at hld
    simp only [adv, Option.map_some] at hld ⊢
    cases hb : w.heap.blk p.1 with
    | none => rw [hb] at hld; cases hld
    | some b =>
      rw [hb] at hld
      simp only at hld ⊢
      split at hld
      · rename_i hl
        rw [if_pos (by omega)]
        have hld' := Option.some.inj hld
        rw [← henk, ← hld', List.drop_take, List.take_take, List.drop_drop]
        congr 2
        omega
      · cases hld

/-- **C86 (partial)** linked vectors of plain elements refine lists: whatever vectors are linked to foreign
arrays, given blocks to manage, unlinked, copied out and edited, and whichever allocations fail, every vector shows
exactly the list that the calls that returned give, starting from the linked array's elements, and the foreign
memory itself is never changed, freed or added to. Missing: elements with destructors
(`linked_erase_violated`, `linked_pop_violated`, `linked_copy_violated`), a foreign array that ends where its
memory ends (`Memblock.copy_link_overread_violated`), and the limits of `Pre`. -/
theorem linked_vectors_partial (henc : ∀ t, (enc t).length = sz) (hsz : 0 < sz) (hr : RotateOK rot)
    {arr : Nat × Nat → Nat → List T} {w0 w : World α} {ops : List (Op T × Bool)} {v : Nat → List T}
    (hi : Initial w0) (hh : Hist enc sz rot arr w0 ops w v) :
    (∀ i, Shows enc sz w i (v i)) ∧ SameForeign w0.heap w.heap :=
  ⟨fun i => (hist_inv henc hsz hr hi hh).1.shows henc hsz i, (hist_inv henc hsz hr hi hh).2⟩

/-- **C86 (partial)** progress: in any such history every further call within its contract returns or throws
`bad_alloc`; in particular destroying a linked vector never frees the linked memory, and no two vectors ever free
the same block. Missing: as above. -/
theorem linked_vectors_no_ub_partial (henc : ∀ t, (enc t).length = sz) (hsz : 0 < sz) (hr : RotateOK rot)
    {arr : Nat × Nat → Nat → List T} {w0 w : World α} {ops : List (Op T × Bool)} {v : Nat → List T}
    (hi : Initial w0) (hh : Hist enc sz rot arr w0 ops w v) (op : Op T) (a : Option (Nat → α))
    (hp : Pre enc sz arr w op v) : ∃ ok w', step enc sz rot w op a = some (ok, w') := by
  obtain ⟨ok, w', g, _⟩ := link_step henc hsz hr (hist_inv henc hsz hr hi hh).1 op a hp
  exact ⟨ok, w', g⟩

/-- The calls that leave vector `i` with a private copy of its elements: those that ask for room for at least
one element. -/
def Instantiates (v : Nat → List T) : Op T → Nat → Prop
  | .copyLink i, k => k = i ∧ v i ≠ []
  | .reserve i n, k => k = i ∧ 0 < n
  | .append i xs, k => k = i ∧ (v i ≠ [] ∨ xs ≠ [])
  | .resize i n _, k => k = i ∧ 0 < n
  | .insert i _ xs, k => k = i ∧ (v i ≠ [] ∨ xs ≠ [])
  | .erase i _ _, k => k = i ∧ v i ≠ []
  | .assign i xs _, k => k = i ∧ xs ≠ []
  | _, _ => False

theorem room_owned {h h' : Heap α} {o o' : Obj} {n : Nat} {a : Option (Nat → α)} (hh : HOK h) (ho : OOK h o)
    (hpos : 0 < n) (hres : reserve 0 h o n false a = some (true, h', o')) (hlim : n ≤ 2 ^ 31) :
    o'.cap ≠ 0 ∧ n ≤ o'.cap := by
  rcases room n a hh ho hlim with ⟨_, e⟩ | ⟨e0, ec, e⟩ | ⟨h1, o1, id, bs, e, p1, p2, p3, p4, p5, p6, p7, p8⟩
  · rw [e] at hres; cases hres
  · omega
  · rw [e] at hres; cases hres; exact ⟨p2, p5⟩

theorem resize_owned {h h' : Heap α} {o o' : Obj} {n : Nat} {x : T} {a : Option (Nat → α)} (hh : HOK h)
    (ho : OOK h o) (hpos : 0 < n * sz)
    (hres : resize enc sz h o n x a = some (true, h', o')) (hlim : n * sz ≤ 2 ^ 31) : o'.cap ≠ 0 := by
  unfold resize at hres
  split at hres
  · cases hres
  · cases hres
  · rename_i h1 o1 e
    have := (room_owned hh ho hpos e hlim).1
    split at hres
    · cases hres; exact this
    · split at hres
      · cases hres
      · cases hres; exact this

theorem put_cap {w w' : World α} {i : Nat} {r : Option (Bool × Heap α × Obj)} (h : w.put i r = some (true, w'))
    (hr : ∀ h' o', r = some (true, h', o') → o'.cap ≠ 0) : ¬ linked w' i := by
  match r, h, hr with
  | some (b, h', o'), h, hr =>
    have hb : b = true := by
      have := congrArg (Option.map Prod.fst) h
      simpa [World.put] using this
    subst hb
    have hw : w' = ⟨h', fun k => if k = i then o' else w.obj k⟩ := by
      simpa [World.put] using h.symm
    subst hw
    simpa [linked] using hr h' o' rfl

/-- **C86** copy on write: after any history, a completed `copy_link`, `reserve`, `push_back`, `insert`, `erase`,
`resize` or `assign` that involves at least one element leaves the vector with storage of its own
(`is_linked()` is false), so that later writes through it cannot reach the array it was linked to. -/
theorem edits_unlink (henc : ∀ t, (enc t).length = sz) (hsz : 0 < sz) (hr : RotateOK rot)
    {arr : Nat × Nat → Nat → List T} {w0 w w' : World α} {ops : List (Op T × Bool)} {v : Nat → List T}
    (hi : Initial w0) (hh : Hist enc sz rot arr w0 ops w v) {op : Op T} {a : Option (Nat → α)}
    (hp : Pre enc sz arr w op v) (hs : step enc sz rot w op a = some (true, w')) {i : Nat}
    (hin : Instantiates v op i) : ¬ linked w' i := by
  have hinv := (hist_inv henc hsz hr hi hh).1
  have hsize := fun k => view_size henc (hinv.owns.ook k) (hinv.vals k)
  have pos : ∀ {l : List T}, l ≠ [] → 0 < l.length * sz := fun hl => Nat.mul_pos (List.length_pos_iff.2 hl) hsz
  cases op with
  | copyLink k =>
    obtain ⟨rfl, hne⟩ := hin
    have := pos hne
    simp only [Pre] at hp
    exact put_cap hs fun h' o' e => (room_owned hinv.hok (hinv.owns.ook i) (by rw [hsize]; exact this) e (by rw [hsize]; exact hp)).1
  | reserve k n =>
    obtain ⟨rfl, hn⟩ := hin
    exact put_cap hs fun h' o' e => (room_owned hinv.hok (hinv.owns.ook i) (Nat.mul_pos hn hsz) e hp.1).1
  | append k xs =>
    obtain ⟨rfl, hne⟩ := hin
    simp only [Pre] at hp
    have hmul : ((v i).length + xs.length) * sz = (v i).length * sz + xs.length * sz := Nat.add_mul ..
    have hpos : 0 < (v i).length * sz + xs.length * sz := by
      rcases hne with h | h
      · have := pos h; omega
      · have := pos h; omega
    refine put_cap hs fun h' o' e => ?_
    unfold append at e
    split at e
    · cases e
    · cases e
    · rename_i h1 o1 e1
      have := (room_owned hinv.hok (hinv.owns.ook i) (by rw [hsize]; exact hpos) e1 (by rw [hsize]; omega)).1
      split at e
      · cases e
      · cases e; exact this
  | resize k n x =>
    obtain ⟨rfl, hn⟩ := hin
    exact put_cap hs fun h' o' e => resize_owned hinv.hok (hinv.owns.ook i) (Nat.mul_pos hn hsz) e hp
  | insert k ip xs =>
    obtain ⟨rfl, hne⟩ := hin
    obtain ⟨_, hp⟩ := hp
    have hmul : ((v i).length + xs.length) * sz = (v i).length * sz + xs.length * sz := Nat.add_mul ..
    have hpos : 0 < (v i).length * sz + xs.length * sz := by
      rcases hne with h | h
      · have := pos h; omega
      · have := pos h; omega
    refine put_cap hs fun h' o' e => ?_
    have hdiv : (w.obj i).size / sz = (v i).length := by rw [hsize]; exact Nat.mul_div_cancel _ hsz
    unfold insert at e
    rw [hdiv] at e
    obtain ⟨ok, h1, o1, e1, _, e3, e4, e5, e6⟩ := reserve_spec 0 (((v i).length + xs.length) * sz) false a hinv.hok
      (hinv.owns.ook i) (fun _ => hp) (fun _ => by rw [hsize]; omega)
    rw [e1] at e
    cases ok with
    | false => cases e
    | true =>
      have h6 := e6 rfl
      simp only at e
      have key : ∀ ok2 h2 o2, Memblock.insert 0 rot h1 o1 (ip * sz) (xs.length * sz) a = some (ok2, h2, o2) →
          o2.cap = o1.cap := by
        intro ok2 h2 o2 f
        unfold Memblock.insert at f
        split at f
        · unfold Memblock.resize at f
          rw [if_neg (by rw [e5, hsize]; omega)] at f
          simp only at f
          split at f
          · cases f
          · cases f; rfl
        · cases f
      split at e
      · cases e
      · cases e
      · rename_i h2 o2 f
        have := key _ _ _ f
        split at e
        · cases e
        · cases e; omega
  | erase k ep n =>
    obtain ⟨rfl, hne⟩ := hin
    have := pos hne
    refine put_cap hs fun h' o' e => ?_
    unfold erase Memblock.erase at e
    split at e
    · split at e
      · cases e
      · cases e
      · rename_i h1 o1 e1
        have := (room_owned hinv.hok (hinv.owns.ook i) (by rw [hsize]; exact this) e1 (by rw [hsize]; exact hp.2)).1
        split at e
        · cases e
        · cases e; exact this
    · cases e
  | assign k xs d =>
    obtain ⟨rfl, hne⟩ := hin
    refine put_cap hs fun h' o' e => ?_
    unfold assign at e
    split at e
    · cases e
    · cases e
    · rename_i h1 o1 e1
      have := resize_owned hinv.hok (hinv.owns.ook i) (pos hne) e1 hp
      split at e
      · cases e
      · cases e; exact this
  | _ => exact hin.elim

end Ustl.VecLink
