import Verif.Str.Props
/-!
# A string edited with its own characters (C96)

The source is a piece of the very string: it is read after the string was resized. `Holds h o t rest`: the string owns a block that holds the
characters `t`, the terminator, and `rest`, which is spare. `Linked h o p t`: it is linked to foreign memory (a literal, say) that holds `t` and a NUL.
-/
namespace Ustl.Str
open Ustl.Memblock

variable (lit : Nat × Nat) (rot : List Byte → Nat → Nat → Nat → Option (List Byte))

/-- A string that owns its characters. -/
structure Holds (h : Heap Byte) (o : Obj) (id : Nat) (t rest : List Byte) : Prop where
  blk : h.blk id = some ⟨true, t ++ 0 :: rest⟩
  obj : o = ⟨some (id, 0), t.length, t.length + 1 + rest.length⟩

theorem st_at {h : Heap Byte} {id k : Nat} {bs xs : List Byte} (hb : h.blk id = some ⟨true, bs⟩) (hx : xs ≠ []) (hk : k + xs.length ≤ bs.length) :
    st h (some (id, k)) xs = some (h.setBlk id (some ⟨true, bs.take k ++ xs ++ bs.drop (k + xs.length)⟩)) := by
  unfold st
  rw [if_neg hx]
  simp only [hb]
  rw [if_pos hk]

theorem ld_at {h : Heap Byte} {id k n : Nat} {bs : List Byte} (hb : h.blk id = some ⟨true, bs⟩) (hk : k + n ≤ bs.length) :
    ld h (some (id, k)) n = some ((bs.drop k).take n) := by
  unfold ld
  split
  · rename_i h0; rw [h0]; simp
  · simp only [hb]
    rw [if_pos hk]

theorem setBlk_same (h : Heap Byte) (id : Nat) (b : Option (Blk Byte)) : (h.setBlk id b).blk id = b := by simp [Heap.setBlk]

theorem setBlk_self {h : Heap Byte} {id : Nat} {b : Option (Blk Byte)} (hb : h.blk id = b) : h.setBlk id b = h := by
  unfold Heap.setBlk
  congr 1
  funext k
  by_cases hk : k = id
  · rw [if_pos hk, hk, hb]
  · rw [if_neg hk]

theorem setBlk_setBlk (h : Heap Byte) (id : Nat) (b c : Option (Blk Byte)) : (h.setBlk id b).setBlk id c = h.setBlk id c := by
  unfold Heap.setBlk
  congr 1
  funext k
  by_cases hk : k = id <;> simp [hk]

/-- Copying inside the string's block. -/
theorem copyFrom_block {h : Heap Byte} {o : Obj} {id b n : Nat} {bs : List Byte} (k : Obj → Nat) (hp : o.ptr = some (id, 0)) (hb : h.blk id = some ⟨true, bs⟩)
    (h1 : b + n ≤ bs.length) (h2 : k o + n ≤ bs.length) :
    copyFrom (some (true, h, o)) k (some (id, b)) n =
      some (true, h.setBlk id (some ⟨true, bs.take (k o) ++ (bs.drop b).take n ++ bs.drop (k o + n)⟩), o) := by
  have hl : ((bs.drop b).take n).length = n := by rw [List.length_take, List.length_drop]; omega
  simp only [copyFrom, ld_at hb h1, hp, adv, Option.map_some, Nat.zero_add]
  by_cases h0 : (bs.drop b).take n = []
  · have hn : n = 0 := by rw [← hl, h0]; rfl
    subst hn
    unfold st
    rw [if_pos h0]
    have : bs.take (k o) ++ (bs.drop b).take 0 ++ bs.drop (k o + 0) = bs := by simp
    rw [this, setBlk_self hb]
  · rw [st_at hb h0 (by rw [hl]; exact h2), hl]

theorem set_nul (l : List Byte) (n : Nat) (hn : n < l.length) : (l.set n 0).drop n = 0 :: l.drop (n + 1) := by
  rw [List.drop_set, if_neg (by omega), Nat.sub_self, List.drop_eq_getElem_cons hn]
  rfl

/-- `resize (n)` of a string that has the room. -/
theorem resize_room {h : Heap Byte} {o : Obj} {id : Nat} {t rest : List Byte} (r : Holds h o id t rest) (n : Nat) (hn : n ≤ t.length + rest.length)
    (a : Option (Nat → Byte)) :
    resize lit h o n a = some (true, h.setBlk id (some ⟨true, (t ++ 0 :: rest).set n 0⟩), ⟨some (id, 0), n, t.length + 1 + rest.length⟩) := by
  unfold resize
  rw [r.obj, if_neg (by simp)]
  unfold Memblock.resize
  rw [if_neg (by simp; omega)]
  simp only [thenStore, adv, Option.map_some, Nat.zero_add]
  rw [st_at r.blk (by simp) (by simp; omega)]
  congr 4
  rw [List.set_eq_take_append_cons_drop, if_pos (by simp; omega)]
  simp

/-- **C96** `s.assign (s, pos, n)`, also `s = s[k]` and `s = s.c_str() + k`: what the string gets is the piece, except that the character that stood where
the new terminator is to go is already a NUL. -/
theorem assign_self {h : Heap Byte} {o : Obj} {id : Nat} {pre mid post rest : List Byte} (r : Holds h o id (pre ++ mid ++ post) rest)
    (hs : pre.length + mid.length < 2 ^ 64) (a : Option (Nat → Byte)) :
    ∃ h' rest', assignSub lit h o o pre.length mid.length a = some (true, h', ⟨o.ptr, mid.length, o.cap⟩) ∧
      Holds h' ⟨o.ptr, mid.length, o.cap⟩ id (if mid.length < pre.length then mid else mid.set (mid.length - pre.length) 0) rest' := by
  have hb : iat o pre.length = pre.length := by simp [iat, r.obj]
  have he : iatEnd o pre.length mid.length = pre.length + mid.length := by simp [iatEnd, iat, r.obj, Nat.mod_eq_of_lt hs]
  unfold assignSub
  simp only [hb, he]
  rw [if_neg (by omega), Nat.add_sub_cancel_left, resize_room lit r mid.length (by simp; omega) a]
  have hx : (((pre ++ mid ++ post ++ 0 :: rest).set mid.length 0).drop pre.length).take mid.length =
      if mid.length < pre.length then mid else mid.set (mid.length - pre.length) 0 := by
    have h1 : (pre ++ mid ++ post ++ 0 :: rest).drop pre.length = mid ++ (post ++ 0 :: rest) := by simp
    rw [List.drop_set, h1]
    split
    · simp
    · rw [List.take_set, List.take_left]
  have hp : adv o.ptr pre.length = some (id, pre.length) := by simp [adv, r.obj]
  rw [hp, copyFrom_block (fun _ => 0) rfl (setBlk_same h id _) (by simp) (by simp; omega), hx, setBlk_setBlk, List.take_zero, List.nil_append, Nat.zero_add,
    set_nul _ _ (by simp; omega)]
  have hl : (if mid.length < pre.length then mid else mid.set (mid.length - pre.length) 0).length = mid.length := by split <;> simp
  have ho : o.ptr = some (id, 0) ∧ o.cap = (pre ++ mid ++ post).length + 1 + rest.length := by rw [r.obj]; exact ⟨rfl, rfl⟩
  refine ⟨_, (pre ++ mid ++ post ++ 0 :: rest).drop (mid.length + 1), ?_, setBlk_same h id _, ?_⟩
  · rw [ho.1, ho.2]
  · rw [hl, ho.1, ho.2, List.length_drop]
    congr 1
    simp only [List.length_append, List.length_cons]
    omega

/-- **C96** a piece that begins at the beginning, or further from it than it is long, is assigned as it was. Missing: the others (`assign_self_violated`). -/
theorem assign_self_partial {h : Heap Byte} {o : Obj} {id : Nat} {pre mid post rest : List Byte} (r : Holds h o id (pre ++ mid ++ post) rest)
    (hs : pre.length + mid.length < 2 ^ 64) (a : Option (Nat → Byte)) (hp : pre = [] ∨ mid.length < pre.length) :
    ∃ h' rest', assignSub lit h o o pre.length mid.length a = some (true, h', ⟨o.ptr, mid.length, o.cap⟩) ∧
      Holds h' ⟨o.ptr, mid.length, o.cap⟩ id mid rest' := by
  obtain ⟨h', rest', h1, h2⟩ := assign_self lit r hs a
  have : (if mid.length < pre.length then mid else mid.set (mid.length - pre.length) 0) = mid := by
    rcases hp with rfl | hp
    · rw [if_neg (by simp)]
      exact List.set_eq_of_length_le (by simp)
    · rw [if_pos hp]
  rw [this] at h2
  exact ⟨h', rest', h1, h2⟩

/-- **C96** is false of the other pieces: any piece without a NUL that begins after the beginning, but no further than it is long, is changed:
`s.assign (s, 1, n)` gives a string that ends in a NUL character for every `n`. -/
theorem assign_piece_violated {h : Heap Byte} {o : Obj} {id : Nat} {pre mid post rest : List Byte} (r : Holds h o id (pre ++ mid ++ post) rest)
    (hs : pre.length + mid.length < 2 ^ 64) (a : Option (Nat → Byte)) (hp : pre ≠ []) (hm : pre.length ≤ mid.length) (hz : (0 : Byte) ∉ mid) :
    ∃ h' rest' t, assignSub lit h o o pre.length mid.length a = some (true, h', ⟨o.ptr, mid.length, o.cap⟩) ∧
      Holds h' ⟨o.ptr, mid.length, o.cap⟩ id t rest' ∧ t[mid.length - pre.length]? = some 0 ∧ t ≠ mid := by
  obtain ⟨h', rest', h1, h2⟩ := assign_self lit r hs a
  rw [if_neg (by omega)] at h2
  have hp0 : 0 < pre.length := by cases pre with | nil => exact absurd rfl hp | cons _ _ => simp
  have h3 : (mid.set (mid.length - pre.length) 0)[mid.length - pre.length]? = some 0 := by
    rw [List.getElem?_set_self (by omega)]
  refine ⟨h', rest', _, h1, h2, h3, fun he => hz ?_⟩
  rw [he] at h3
  exact List.mem_of_getElem? h3

/-- `"abcdef"` with two spare bytes. -/
def selfHeap : Heap Byte := ⟨fun k => if k = 1 then some ⟨true, [97, 98, 99, 100, 101, 102, 0, 7, 7]⟩ else none, 2⟩
/-- The string that owns it. -/
def selfObj : Obj := ⟨some (1, 0), 6, 9⟩

theorem selfHolds : Holds selfHeap selfObj 1 [97, 98, 99, 100, 101, 102] [7, 7] := ⟨rfl, rfl⟩

example : ∃ h' rest', assignSub (0, 2) selfHeap selfObj selfObj 1 3 none = some (true, h', ⟨some (1, 0), 3, 9⟩) ∧
    Holds h' ⟨some (1, 0), 3, 9⟩ 1 [98, 99, 0] rest' := assign_self (0, 2) (pre := [97]) (mid := [98, 99, 100]) (post := [101, 102]) selfHolds (by decide) none
example : ∃ h' rest', assignSub (0, 2) selfHeap selfObj selfObj 3 2 none = some (true, h', ⟨some (1, 0), 2, 9⟩) ∧
    Holds h' ⟨some (1, 0), 2, 9⟩ 1 [100, 101] rest' :=
  assign_self_partial (0, 2) (pre := [97, 98, 99]) (mid := [100, 101]) (post := [102]) selfHolds (by decide) none (Or.inr (by decide))

/-! ### append -/

/-- **C96** `s.append (s, pos, n)` and `s += s` with room for it: the piece is appended. Missing: without room (`append_piece_violated`). -/
theorem append_self_partial {h : Heap Byte} {o : Obj} {id : Nat} {pre mid post rest : List Byte} (r : Holds h o id (pre ++ mid ++ post) rest)
    (hs : pre.length + mid.length < 2 ^ 64) (a : Option (Nat → Byte)) (hr : mid.length ≤ rest.length) :
    ∃ h' rest' o', appendSub lit h o o pre.length mid.length a = some (true, h', o') ∧ Holds h' o' id (pre ++ mid ++ post ++ mid) rest' ∧ o'.ptr = o.ptr ∧ o'.cap = o.cap := by
  have hb : iat o pre.length = pre.length := by simp [iat, r.obj]
  have he : iatEnd o pre.length mid.length = pre.length + mid.length := by simp [iatEnd, iat, r.obj, Nat.mod_eq_of_lt hs]
  have hsz : o.size = (pre ++ mid ++ post).length := by rw [r.obj]
  have hp : adv o.ptr pre.length = some (id, pre.length) := by simp [adv, r.obj]
  have ho : o.ptr = some (id, 0) ∧ o.cap = (pre ++ mid ++ post).length + 1 + rest.length := by rw [r.obj]; exact ⟨rfl, rfl⟩
  unfold appendSub
  simp only [hb, he]
  rw [if_neg (by omega), Nat.add_sub_cancel_left, hsz, resize_room lit r _ (by omega) a, hp]
  generalize hB : (pre ++ mid ++ post ++ 0 :: rest).set ((pre ++ mid ++ post).length + mid.length) 0 = B
  have hBl : B.length = (pre ++ mid ++ post).length + 1 + rest.length := by rw [← hB]; simp; omega
  rw [copyFrom_block (fun o1 => o1.size - mid.length) rfl (setBlk_same h id _) (by rw [hBl]; simp; omega) (by simp only []; omega), setBlk_setBlk]
  simp only [Nat.add_sub_cancel]
  have hx : (B.drop pre.length).take mid.length = mid := by
    rw [← hB, List.drop_set, if_neg (by simp; omega), List.take_set]
    have : (pre ++ mid ++ post ++ 0 :: rest).drop pre.length = mid ++ (post ++ 0 :: rest) := by simp
    rw [this, List.take_left, List.set_eq_of_length_le (by simp; omega)]
  have ht : B.take (pre ++ mid ++ post).length = pre ++ mid ++ post := by
    rw [← hB, List.take_set, List.take_left, List.set_eq_of_length_le (by omega)]
  have hd : B.drop ((pre ++ mid ++ post).length + mid.length) =
      0 :: (pre ++ mid ++ post ++ 0 :: rest).drop ((pre ++ mid ++ post).length + mid.length + 1) := by
    rw [← hB, set_nul _ _ (by simp; omega)]
  rw [hx, ht, hd]
  refine ⟨_, (pre ++ mid ++ post ++ 0 :: rest).drop ((pre ++ mid ++ post).length + mid.length + 1), _, rfl, ⟨setBlk_same h id _, ?_⟩, ho.1.symm, ho.2.symm⟩
  rw [List.length_drop]
  congr 1
  · simp only [List.length_append]
  · simp only [List.length_append, List.length_cons]; omega

/-- **C96** is false without the room: if the allocator gives a new block, a non-empty piece is read from the old one, which is freed by then;
if it refuses, nothing changes. -/
theorem append_piece_violated {h : Heap Byte} {o : Obj} {id : Nat} {pre mid post rest : List Byte} (r : Holds h o id (pre ++ mid ++ post) rest)
    (hs : pre.length + mid.length < 2 ^ 64) (hid : id < h.next) (hr : rest.length < mid.length) (junk : Nat → Byte) :
    appendSub lit h o o pre.length mid.length (some junk) = none ∧ appendSub lit h o o pre.length mid.length none = some (false, h, o) := by
  have hb : iat o pre.length = pre.length := by simp [iat, r.obj]
  have he : iatEnd o pre.length mid.length = pre.length + mid.length := by simp [iatEnd, iat, r.obj, Nat.mod_eq_of_lt hs]
  have hsz : o.size = (pre ++ mid ++ post).length := by rw [r.obj]
  have hp : adv o.ptr pre.length = some (id, pre.length) := by simp [adv, r.obj]
  have ho : o.ptr = some (id, 0) ∧ o.cap = (pre ++ mid ++ post).length + 1 + rest.length := by rw [r.obj]; exact ⟨rfl, rfl⟩
  have hc : o.cap ≠ 0 := by omega
  have hres : ∀ a : Option (Nat → Byte), reserve 1 h o ((pre ++ mid ++ post).length + mid.length) true a =
      match a with
      | none => some (false, h, o)
      | some junk => some (true, (h.setBlk id none).malloc ((pre ++ mid ++ post).length + mid.length + 1) (pre ++ mid ++ post ++ 0 :: rest) junk,
          ⟨some (h.next, 0), o.size, (pre ++ mid ++ post).length + mid.length + 1⟩) := by
    intro a
    unfold reserve
    simp only []
    rw [if_neg (by omega), if_neg hc, if_pos trivial, ho.1]
    simp only [realloc, r.blk]
    rw [if_neg (by simp), if_neg (by omega)]
    cases a with
    | none => rfl
    | some junk => simp [Heap.setBlk]
  unfold appendSub
  simp only [hb, he]
  rw [if_neg (by omega), if_neg (by omega), Nat.add_sub_cancel_left, hsz]
  unfold resize
  rw [if_neg (by omega)]
  unfold Memblock.resize
  rw [if_pos (by omega), hres]
  simp only []
  refine ⟨?_, ?_⟩
  · have hne : h.next ≠ id := by omega
    simp only [thenStore, adv, Option.map_some, Nat.zero_add]
    generalize hh : (h.setBlk id none).malloc ((pre ++ mid ++ post).length + mid.length + 1) (pre ++ mid ++ post ++ 0 :: rest) junk = h1
    have h1b : h1.blk id = none := by
      rw [← hh]
      simp [Heap.malloc, Heap.setBlk, Ne.symm hne]
    cases hst : st h1 (some (h.next, (pre ++ mid ++ post).length + mid.length)) [0] with
    | none => rfl
    | some h2 =>
      have h2b : h2.blk id = none := by
        unfold st at hst
        rw [if_neg (by simp)] at hst
        simp only [] at hst
        split at hst
        · split at hst
          · injection hst with hst
            rw [← hst]
            simp [Heap.setBlk, Ne.symm hne, h1b]
          · cases hst
        · cases hst
      simp only [copyFrom]
      have : ld h2 (Option.map (fun q : Nat × Nat => (q.1, q.2 + pre.length)) o.ptr) mid.length = none := by
        unfold ld
        rw [if_neg (by omega), ho.1]
        simp [h2b]
      rw [this]
  · rw [if_neg (by omega), if_pos (by omega), hres]
    rfl

example (junk : Nat → Byte) : appendSub (0, 2) selfHeap selfObj selfObj 0 6 (some junk) = none :=
  (append_piece_violated (0, 2) (pre := []) (mid := [97, 98, 99, 100, 101, 102]) (post := []) selfHolds (by decide) (by decide) (by decide) junk).1
example : ∃ h' rest' o', appendSub (0, 2) selfHeap selfObj selfObj 4 2 none = some (true, h', o') ∧
    Holds h' o' 1 [97, 98, 99, 100, 101, 102, 101, 102] rest' ∧ o'.ptr = some (1, 0) ∧ o'.cap = 9 :=
  append_self_partial (0, 2) (pre := [97, 98, 99, 100]) (mid := [101, 102]) (post := []) selfHolds (by decide) none (by decide)

/-! ### insert -/

theorem rotateIn_gap {h : Heap Byte} {id : Nat} (hr : RotateOK rot) {x y g r' : List Byte} (cap : Nat) (hb : h.blk id = some ⟨true, x ++ y ++ (g ++ r')⟩) :
    rotateIn rot h ⟨some (id, 0), (x ++ y).length + g.length, cap⟩ x.length (x ++ y).length =
      some (h.setBlk id (some ⟨true, x ++ g ++ y ++ r'⟩)) := by
  unfold rotateIn
  split
  · rename_i hc
    rw [setBlk_self]
    rw [hb]
    rcases hc with hc | hc
    · have : y = [] := by rw [List.length_append] at hc; exact List.length_eq_zero_iff.1 (by omega)
      subst this
      simp
    · have : g = [] := List.length_eq_zero_iff.1 (by simp only [] at hc; omega)
      subst this
      simp
  · simp only [hb, Nat.zero_add]
    have := hr x y g r'
    rw [show x.length + y.length = (x ++ y).length from by simp] at this
    rw [show x ++ y ++ (g ++ r') = x ++ y ++ g ++ r' from by simp, this]

/-- `memblock::insert` in a string with room. -/
theorem insert_room {h : Heap Byte} {o : Obj} {id : Nat} {x y rest : List Byte} (hr : RotateOK rot) (r : Holds h o id (x ++ y) rest) (n : Nat) (hn : n ≤ rest.length)
    (a : Option (Nat → Byte)) :
    Memblock.insert 1 rot h o x.length n a = some (true, h.setBlk id (some ⟨true, x ++ (0 :: rest).take n ++ y ++ (0 :: rest).drop n⟩),
      ⟨some (id, 0), (x ++ y).length + n, (x ++ y).length + 1 + rest.length⟩) := by
  unfold Memblock.insert Memblock.resize
  rw [r.obj, if_pos (by simp), if_neg (by simp only []; omega)]
  simp only [Nat.add_sub_cancel]
  have hg : ((0 :: rest).take n).length = n := by simp; omega
  have hb : h.blk id = some ⟨true, x ++ y ++ ((0 :: rest).take n ++ (0 :: rest).drop n)⟩ := by rw [List.take_append_drop]; exact r.blk
  have := rotateIn_gap rot hr ((x ++ y).length + 1 + rest.length) hb
  rw [hg] at this
  rw [this]

/-- **C96** `s.insert (ip, s, sp, n)` with room for it: what is inserted are the `n` characters that stand at `sp` after the characters from `ip` on were
moved away. `x` and `y` are what was before and after `ip`. The place is not in the middle of what is read (see `insert_middle_violated` for that). -/
theorem insert_self {h : Heap Byte} {o : Obj} {id : Nat} {x y rest : List Byte} (hr : RotateOK rot) (r : Holds h o id (x ++ y) rest) (sp n : Nat)
    (hs : sp + n ≤ (x ++ y).length) (h64 : sp + n < 2 ^ 64) (hn : n ≤ rest.length) (_ho : x.length ≤ sp ∨ sp + n ≤ x.length) (a : Option (Nat → Byte)) :
    ∃ h' rest' o', insertSub rot h o x.length o sp n a = some (true, h', o') ∧
      Holds h' o' id (x ++ ((x ++ (0 :: rest).take n ++ y).drop sp).take n ++ y) rest' ∧ o'.ptr = o.ptr ∧ o'.cap = o.cap := by
  have hb : iat o sp = sp := by simp [iat, r.obj] at hs ⊢; omega
  have he : iatEnd o sp n = sp + n := by simp [iatEnd, iat, r.obj, Nat.mod_eq_of_lt h64] at hs ⊢; omega
  have hip : iat o x.length = x.length := by simp [iat, r.obj]
  have hp : adv o.ptr sp = some (id, sp) := by simp [adv, r.obj]
  have ho : o.ptr = some (id, 0) ∧ o.cap = (x ++ y).length + 1 + rest.length := by rw [r.obj]; exact ⟨rfl, rfl⟩
  have hg : ((0 :: rest).take n).length = n := by simp; omega
  have hs' : sp + n ≤ x.length + y.length := by simpa using hs
  generalize hgg : (0 :: rest).take n = g at hg
  have hdrop : ((0 :: rest).drop n).length = 1 + rest.length - n := by simp; omega
  have hdd : (0 :: rest : List Byte).drop n ≠ [] := by intro h0; rw [h0] at hdrop; simp at hdrop; omega
  unfold insertSub
  simp only [hb, he, hip]
  rw [if_neg (by omega), Nat.add_sub_cancel_left, insert_room rot hr r n hn a, hgg, hp]
  generalize hrr : (0 :: rest).drop n = r' at hdd hdrop
  rw [copyFrom_block (fun _ => x.length) rfl (setBlk_same h id _) (by simp; omega) (by simp; omega), setBlk_setBlk]
  have h1 : (x ++ g ++ y ++ r').take x.length = x := by simp
  have h2 : (x ++ g ++ y ++ r').drop (x.length + n) = y ++ r' := by
    rw [show x ++ g ++ y ++ r' = (x ++ g) ++ (y ++ r') from by simp]
    exact List.drop_left' (by simp [hg])
  have h3 : ((x ++ g ++ y ++ r').drop sp).take n = ((x ++ g ++ y).drop sp).take n := by
    rw [List.drop_append_of_le_length (by simp; omega), List.take_append_of_le_length (by simp; omega)]
  rw [h1, h2, h3]
  generalize hi : ((x ++ g ++ y).drop sp).take n = ins
  have hil : ins.length = n := by rw [← hi]; simp; omega
  obtain ⟨c, r'', rfl⟩ : ∃ c r'', r' = c :: r'' := by cases r' with | nil => exact absurd rfl hdd | cons c r'' => exact ⟨c, r'', rfl⟩
  simp only [thenStore, adv, Option.map_some, Nat.zero_add]
  rw [st_at (setBlk_same h id _) (by simp) (by simp [hil]; omega), setBlk_setBlk]
  have h4 : (x ++ ins ++ (y ++ c :: r'')).take ((x ++ y).length + n) = x ++ ins ++ y := by
    rw [show x ++ ins ++ (y ++ c :: r'') = (x ++ ins ++ y) ++ c :: r'' from by simp]
    exact List.take_left' (by simp [hil]; omega)
  have h5 : (x ++ ins ++ (y ++ c :: r'')).drop ((x ++ y).length + n + [(0 : Byte)].length) = r'' := by
    rw [show x ++ ins ++ (y ++ c :: r'') = (x ++ ins ++ y ++ [c]) ++ r'' from by simp]
    exact List.drop_left' (by simp [hil]; omega)
  rw [h4, h5]
  refine ⟨_, r'', _, rfl, ⟨?_, ?_⟩, ho.1.symm, ho.2.symm⟩
  · rw [setBlk_same]
    simp
  · simp only [List.length_cons] at hdrop
    congr 1
    · simp [hil]; omega
    · simp [hil]; omega

/-- **C96** a piece from before the place is inserted as it was. Missing: pieces from after the place (`insert_piece_violated`), pieces the place is in the middle of (`insert_middle_violated`), and strings without room
(`insert_full_violated`). -/
theorem insert_self_partial {h : Heap Byte} {o : Obj} {id : Nat} {pre mid post y rest : List Byte} (hr : RotateOK rot) (r : Holds h o id (pre ++ mid ++ post ++ y) rest)
    (h64 : pre.length + mid.length < 2 ^ 64) (hn : mid.length ≤ rest.length) (a : Option (Nat → Byte)) :
    ∃ h' rest' o', insertSub rot h o (pre.length + mid.length + post.length) o pre.length mid.length a = some (true, h', o') ∧
      Holds h' o' id (pre ++ mid ++ post ++ mid ++ y) rest' ∧ o'.ptr = o.ptr ∧ o'.cap = o.cap := by
  obtain ⟨h', rest', o', h1, h2, h3⟩ := insert_self rot (x := pre ++ mid ++ post) hr r pre.length mid.length (by simp) h64 hn (.inr (by simp)) a
  rw [show (pre ++ mid ++ post).length = pre.length + mid.length + post.length from by simp; omega] at h1
  have : ((pre ++ mid ++ post ++ (0 :: rest).take mid.length ++ y).drop pre.length).take mid.length = mid := by
    rw [show pre ++ mid ++ post ++ (0 :: rest).take mid.length ++ y = pre ++ (mid ++ (post ++ (0 :: rest).take mid.length ++ y)) from by simp, List.drop_left, List.take_left]
  rw [this] at h2
  exact ⟨h', rest', o', h1, h2, h3⟩

/-- **C96** is false of pieces from after the place: inserting `mid` inserts what stands before `mid` instead. -/
theorem insert_piece_violated {h : Heap Byte} {o : Obj} {id : Nat} {x u w mid post rest : List Byte} (hr : RotateOK rot) (r : Holds h o id (x ++ (u ++ w ++ mid ++ post)) rest)
    (hw : w.length = mid.length) (hne : w ≠ mid) (h64 : x.length + u.length + w.length + mid.length < 2 ^ 64) (hn : mid.length ≤ rest.length) (a : Option (Nat → Byte)) :
    ∃ h' rest' o', insertSub rot h o x.length o (x.length + u.length + w.length) mid.length a = some (true, h', o') ∧
      Holds h' o' id (x ++ w ++ (u ++ w ++ mid ++ post)) rest' ∧ x ++ w ++ (u ++ w ++ mid ++ post) ≠ x ++ mid ++ (u ++ w ++ mid ++ post) := by
  obtain ⟨h', rest', o', h1, h2, h3⟩ := insert_self rot hr r (x.length + u.length + w.length) mid.length (by simp; omega) h64 hn (.inl (by omega)) a
  have hg : ((0 :: rest).take mid.length).length = mid.length := by simp; omega
  have : ((x ++ (0 :: rest).take mid.length ++ (u ++ w ++ mid ++ post)).drop (x.length + u.length + w.length)).take mid.length = w := by
    have e : x ++ (0 :: rest).take mid.length ++ (u ++ w ++ mid ++ post) = (x ++ (0 :: rest).take mid.length ++ u) ++ (w ++ (mid ++ post)) := by simp
    rw [e, List.drop_left' (by simp only [List.length_append, hg]; omega), List.take_left' hw]
  rw [this] at h2
  refine ⟨h', rest', o', h1, h2, fun h => hne ?_⟩
  have h := List.append_cancel_right h
  exact List.append_cancel_left h

example (hr : RotateOK rot) : ∃ h' rest' o', insertSub rot selfHeap selfObj 4 selfObj 1 2 none = some (true, h', o') ∧
    Holds h' o' 1 [97, 98, 99, 100, 98, 99, 101, 102] rest' ∧ o'.ptr = some (1, 0) ∧ o'.cap = 9 :=
  insert_self_partial rot (pre := [97]) (mid := [98, 99]) (post := [100]) (y := [101, 102]) hr selfHolds (by decide) (by decide) none
example (hr : RotateOK rot) : ∃ h' rest' o', insertSub rot selfHeap selfObj 0 selfObj 3 2 none = some (true, h', o') ∧
    Holds h' o' 1 [98, 99, 97, 98, 99, 100, 101, 102] rest' := by
  obtain ⟨h', rest', o', h1, h2, -⟩ :=
  insert_piece_violated rot (x := []) (u := [97]) (w := [98, 99]) (mid := [100, 101]) (post := [102]) hr selfHolds rfl (by decide) (by decide) (by decide) none
  exact ⟨h', rest', o', h1, h2⟩

/-- **C96** is false without room: a non-empty piece is read from the freed block. -/
theorem insert_full_violated {h : Heap Byte} {o : Obj} {id : Nat} {t rest : List Byte} (r : Holds h o id t rest) (hid : id < h.next) (ip sp n : Nat) (hip : ip ≤ t.length)
    (hs : sp + n ≤ t.length) (h64 : sp + n < 2 ^ 64) (hn : rest.length < n) (junk : Nat → Byte) : insertSub rot h o ip o sp n (some junk) = none := by
  have hb : iat o sp = sp := by simp [iat, r.obj]; omega
  have he : iatEnd o sp n = sp + n := by simp [iatEnd, iat, r.obj, Nat.mod_eq_of_lt h64]; omega
  have hipp : iat o ip = ip := by simp [iat, r.obj]; omega
  have hp : adv o.ptr sp = some (id, sp) := by simp [adv, r.obj]
  have ho : o.ptr = some (id, 0) ∧ o.cap = t.length + 1 + rest.length ∧ o.size = t.length := by rw [r.obj]; exact ⟨rfl, rfl, rfl⟩
  have hne : h.next ≠ id := by omega
  unfold insertSub
  simp only [hb, he, hipp]
  rw [if_neg (by omega), Nat.add_sub_cancel_left]
  have key : ∀ h1 o1, Memblock.insert 1 rot h o ip n (some junk) = some (true, h1, o1) → h1.blk id = none := by
    intro h1 o1 hh
    unfold Memblock.insert Memblock.resize reserve at hh
    simp only [] at hh
    rw [if_pos (by omega), if_pos (by omega), if_neg (by omega), if_neg (by omega), ho.1] at hh
    generalize nextPow2 (o.size + n + 1) = n' at hh
    simp only [realloc, r.blk, Bool.false_eq_true, if_false] at hh
    rw [if_neg (by simp)] at hh
    by_cases h0 : n' = 0
    · rw [if_pos h0] at hh
      simp at hh
    · rw [if_neg h0] at hh
      simp only [reduceCtorEq, false_and, if_false] at hh
      have hm : ((h.setBlk id none).malloc n' (t ++ 0 :: rest) junk).blk id = none := by simp [Heap.malloc, Heap.setBlk, Ne.symm hne]
      generalize (h.setBlk id none).malloc n' (t ++ 0 :: rest) junk = h2 at hh hm
      split at hh
      · cases hh
      · rename_i h3 hrot
        simp only [Option.some.injEq, Prod.mk.injEq, true_and] at hh
        rw [← hh.1]
        unfold rotateIn at hrot
        split at hrot
        · injection hrot with hrot
          rw [← hrot]
          exact hm
        · simp only [] at hrot
          split at hrot
          · split at hrot
            · cases hrot
            · injection hrot with hrot
              rw [← hrot]
              simp [Heap.setBlk, Ne.symm hne, hm]
          · cases hrot
  have key2 : ∀ h1 o1, Memblock.insert 1 rot h o ip n (some junk) ≠ some (false, h1, o1) := by
    intro h1 o1 hh
    unfold Memblock.insert Memblock.resize reserve at hh
    simp only [] at hh
    rw [if_pos (by omega), if_pos (by omega), if_neg (by omega), if_neg (by omega), ho.1] at hh
    have hpos : nextPow2 (o.size + n + 1) ≠ 0 := by
      unfold nextPow2
      simp only []
      split
      · decide
      · exact Nat.pos_iff_ne_zero.1 (Nat.two_pow_pos _)
    generalize nextPow2 (o.size + n + 1) = n' at hh hpos
    simp only [realloc, r.blk, Bool.false_eq_true, if_false] at hh
    rw [if_neg (by simp), if_neg hpos] at hh
    simp only [reduceCtorEq, false_and, if_false] at hh
    split at hh <;> simp at hh
  cases hi : Memblock.insert 1 rot h o ip n (some junk) with
  | none => rfl
  | some q =>
    obtain ⟨ok, h1, o1⟩ := q
    cases ok with
    | false => exact absurd hi (key2 h1 o1)
    | true =>
      have hld : ld h1 (adv o.ptr sp) n = none := by
        rw [hp]
        unfold ld
        rw [if_neg (by omega)]
        simp only [key h1 o1 hi]
      simp only [copyFrom, hld, thenStore]

example (junk : Nat → Byte) : insertSub rot selfHeap selfObj 6 selfObj 0 3 (some junk) = none :=
  insert_full_violated rot selfHolds (by decide) 6 0 3 (by decide) (by decide) (by decide) (by decide) junk

/-! ### replace -/

/-- **C96** `s.replace (rp, n, s, sp, n)`: a piece replaced by a piece of the same length. The place does not begin inside the source, where the copying loop
would read what it wrote. Missing: pieces of another length (`replace_self`, `replace_before_partial`, `replace_after_violated`). -/
theorem replace_self_partial {h : Heap Byte} {o : Obj} {id : Nat} {t rest : List Byte} (r : Holds h o id t rest) (rp sp n : Nat) (h1 : rp + n ≤ t.length)
    (h2 : sp + n ≤ t.length) (h64 : sp + n < 2 ^ 64) (_ho : rp ≤ sp ∨ sp + n ≤ rp) (a : Option (Nat → Byte)) :
    ∃ h', replaceSub rot h o rp n o sp n a = some (true, h', o) ∧ Holds h' o id (t.take rp ++ (t.drop sp).take n ++ t.drop (rp + n)) rest := by
  have hb : iat o sp = sp := by simp [iat, r.obj]; omega
  have he : iatEnd o sp n = sp + n := by simp [iatEnd, iat, r.obj, Nat.mod_eq_of_lt h64]; omega
  have hip : iat o rp = rp := by simp [iat, r.obj]; omega
  have hip2 : iat o (rp + n) = rp + n := by simp [iat, r.obj]; omega
  have hp : adv o.ptr sp = some (id, sp) := by simp [adv, r.obj]
  have ho : o.ptr = some (id, 0) ∧ o.size = t.length := by rw [r.obj]; exact ⟨rfl, rfl⟩
  unfold replaceSub
  simp only [hb, he, hip, hip2]
  rw [if_neg (by omega), Nat.add_sub_cancel_left, Nat.add_sub_cancel_left, if_neg (Nat.lt_irrefl _), if_neg (Nat.lt_irrefl _), hp,
    copyFrom_block (fun _ => rp) ho.1 r.blk (by simp; omega) (by simp; omega)]
  have e1 : (t ++ 0 :: rest).take rp = t.take rp := List.take_append_of_le_length (by omega)
  have e2 : ((t ++ 0 :: rest).drop sp).take n = (t.drop sp).take n := by
    rw [List.drop_append_of_le_length (by omega), List.take_append_of_le_length (by simp; omega)]
  have e3 : (t ++ 0 :: rest).drop (rp + n) = t.drop (rp + n) ++ 0 :: rest := List.drop_append_of_le_length (by omega)
  simp only [e1, e2, e3]
  generalize hm : t.take rp ++ (t.drop sp).take n = m
  have hml : m.length = rp + n := by rw [← hm]; simp; omega
  simp only [thenStore, ho.1, adv, Option.map_some, Nat.zero_add]
  rw [st_at (setBlk_same h id _) (by simp) (by simp [hml, ho.2]; omega), setBlk_setBlk]
  have e4 : (m ++ (t.drop (rp + n) ++ 0 :: rest)).take o.size = m ++ t.drop (rp + n) := by
    rw [← List.append_assoc]
    exact List.take_left' (by simp [hml, ho.2]; omega)
  have e5 : (m ++ (t.drop (rp + n) ++ 0 :: rest)).drop (o.size + [(0 : Byte)].length) = rest := by
    rw [show m ++ (t.drop (rp + n) ++ 0 :: rest) = (m ++ t.drop (rp + n) ++ [0]) ++ rest from by simp]
    exact List.drop_left' (by simp [hml, ho.2]; omega)
  rw [e4, e5]
  refine ⟨_, rfl, ?_, ?_⟩
  · rw [setBlk_same]
    simp
  · have : (m ++ t.drop (rp + n)).length = t.length := by simp [hml]; omega
    rw [this]
    exact r.obj

example : ∃ h', replaceSub rot selfHeap selfObj 0 2 selfObj 4 2 none = some (true, h', selfObj) ∧ Holds h' selfObj 1 [101, 102, 99, 100, 101, 102] [7, 7] :=
  replace_self_partial rot selfHolds 0 4 2 (by decide) (by decide) (by decide) (Or.inl (by decide)) none

end Ustl.Str
