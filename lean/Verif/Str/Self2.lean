import Verif.Str.Self
/-!
# A string edited with its own characters: replace with another length, insert in the middle of the piece (C96)
-/
namespace Ustl.Str
open Ustl.Memblock

variable (rot : List Byte → Nat → Nat → Nat → Option (List Byte))

/-- `memblock::erase` of `d` in a string that owns its characters: they end up behind the others. -/
theorem erase_own {h : Heap Byte} {o : Obj} {id : Nat} {x d y rest : List Byte} (hr : RotateOK rot) (r : Holds h o id (x ++ d ++ y) rest) (a : Option (Nat → Byte)) :
    Memblock.erase 1 rot h o x.length d.length a = some (true, h.setBlk id (some ⟨true, x ++ y ++ d ++ (0 :: rest)⟩),
      ⟨some (id, 0), x.length + y.length, (x ++ d ++ y).length + 1 + rest.length⟩) := by
  have hb : h.blk id = some ⟨true, x ++ d ++ (y ++ (0 :: rest))⟩ := by rw [r.blk]; simp
  have hg := rotateIn_gap rot hr (x := x) (y := d) (g := y) (r' := 0 :: rest) ((x ++ d ++ y).length + 1 + rest.length) hb
  unfold Memblock.erase reserve
  rw [r.obj]
  simp only []
  rw [if_pos (by simp), if_pos (by omega)]
  simp only []
  rw [show (x ++ d).length + y.length = (x ++ d ++ y).length by simp only [List.length_append]] at hg
  rw [show x.length + d.length = (x ++ d).length by simp, hg]
  simp only [Option.some.injEq, Prod.mk.injEq, true_and, Obj.mk.injEq]
  simp
  omega

/-- The piece is copied to its place, and the text terminated. -/
theorem finish {h : Heap Byte} {o : Obj} {id sp n at' : Nat} {m u y z : List Byte} (hb : h.blk id = some ⟨true, m⟩) (ho : o.ptr = some (id, 0)) (hc : o.cap = m.length)
    (hs : sp + n ≤ m.length) (hm : m = u ++ y ++ z) (hu : u.length = at' + n) (hz : o.size = (u ++ y).length) (hlt : o.size < m.length) :
    ∃ h' rest', thenStore (copyFrom (some (true, h, o)) (fun _ => at') (some (id, sp)) n) (fun o1 => o1.size) [0] = some (true, h', o) ∧
      Holds h' o id (u.take at' ++ (m.drop sp).take n ++ y) rest' := by
  have hzl : 0 < z.length := by rw [hm] at hlt; simp only [List.length_append] at hlt hz; omega
  obtain ⟨c, z', rfl⟩ : ∃ c z', z = c :: z' := by cases z with | nil => simp at hzl | cons c z' => exact ⟨c, z', rfl⟩
  have hml : m.length = u.length + y.length + 1 + z'.length := by rw [hm]; simp; omega
  rw [copyFrom_block (fun _ => at') ho hb hs (by omega)]
  have e1 : m.take at' = u.take at' := by
    rw [hm, List.append_assoc, List.take_append_of_le_length (by omega)]
  have e2 : m.drop (at' + n) = y ++ c :: z' := by
    rw [hm, List.append_assoc]; exact List.drop_left' hu
  generalize hi : (m.drop sp).take n = ins
  have hil : ins.length = n := by rw [← hi]; simp; omega
  rw [e1, e2]
  generalize hv : u.take at' ++ ins = v
  have hvl : v.length = at' + n := by rw [← hv]; simp; omega
  simp only [List.length_append] at hz
  simp only [thenStore, ho, adv, Option.map_some, Nat.zero_add]
  rw [st_at (setBlk_same h id _) (by simp) (by simp [hvl]; omega), setBlk_setBlk]
  have e3 : (v ++ (y ++ c :: z')).take o.size = v ++ y := by
    rw [← List.append_assoc]; exact List.take_left' (by simp [hvl]; omega)
  have e4 : (v ++ (y ++ c :: z')).drop (o.size + [(0 : Byte)].length) = z' := by
    rw [show v ++ (y ++ c :: z') = (v ++ y ++ [c]) ++ z' by simp]
    exact List.drop_left' (by simp [hvl]; omega)
  rw [e3, e4]
  refine ⟨_, z', rfl, ⟨?_, ?_⟩⟩
  · rw [setBlk_same]; simp
  · obtain ⟨p, s, c'⟩ := o
    simp only at ho hc hz
    subst ho hc hz
    rw [Obj.mk.injEq]
    simp only [List.length_append, hvl]
    exact ⟨trivial, by omega, by omega⟩

/-- What stands in the block when `d` is to be replaced by `n` characters and the rest of the text was moved for it: what is too much of `d` was moved behind the text, or
the first characters of the spare memory before `d`. -/
def movedText (x d y rest : List Byte) (n : Nat) : List Byte :=
  if n < d.length then x ++ d.drop (d.length - n) ++ y ++ d.take (d.length - n) ++ 0 :: rest
  else x ++ (0 :: rest).take (n - d.length) ++ d ++ y ++ (0 :: rest).drop (n - d.length)

/-- **C96** `s.replace (rp, len, s, sp, n)` with room for it: `d` is replaced by the `n` characters that stand at `sp` after the text was moved, if the piece that is read
does not begin before the place it is written to and end inside. -/
theorem replace_self {h : Heap Byte} {o : Obj} {id : Nat} {x d y rest : List Byte} (hr : RotateOK rot) (r : Holds h o id (x ++ d ++ y) rest) (sp n : Nat)
    (hs : sp + n ≤ (x ++ d ++ y).length) (h64 : sp + n < 2 ^ 64) (hn : n ≤ d.length + rest.length) (_ho : x.length ≤ sp ∨ sp + n ≤ x.length) (a : Option (Nat → Byte)) :
    ∃ h' rest' o', replaceSub rot h o x.length d.length o sp n a = some (true, h', o') ∧
      Holds h' o' id (x ++ ((movedText x d y rest n).drop sp).take n ++ y) rest' ∧ o'.ptr = o.ptr ∧ o'.cap = o.cap := by
  have hb : iat o sp = sp := by simp [iat, r.obj] at hs ⊢; omega
  have he : iatEnd o sp n = sp + n := by simp [iatEnd, iat, r.obj, Nat.mod_eq_of_lt h64] at hs ⊢; omega
  have hip : iat o x.length = x.length := by simp [iat, r.obj]
  have hip2 : iat o (x.length + d.length) = x.length + d.length := by simp [iat, r.obj, ← Nat.add_assoc]
  have hp : adv o.ptr sp = some (id, sp) := by simp [adv, r.obj]
  have ho : o.ptr = some (id, 0) ∧ o.cap = (x ++ d ++ y).length + 1 + rest.length := by rw [r.obj]; exact ⟨rfl, rfl⟩
  have hs' : sp + n ≤ x.length + d.length + y.length := by simpa [Nat.add_assoc] using hs
  unfold replaceSub
  simp only [hb, he, hip, hip2]
  rw [if_neg (by omega), Nat.add_sub_cancel_left, Nat.add_sub_cancel_left, hp]
  by_cases hlt : n < d.length
  · rw [if_pos hlt]
    have hk : (d.take (d.length - n)).length = d.length - n := by simp
    have hd : (d.drop (d.length - n)).length = n := by simp; omega
    have r' : Holds h o id (x ++ d.take (d.length - n) ++ (d.drop (d.length - n) ++ y)) rest := by
      have : x ++ d.take (d.length - n) ++ (d.drop (d.length - n) ++ y) = x ++ d ++ y := by
        rw [List.append_assoc, ← List.append_assoc (d.take _), List.take_append_drop, List.append_assoc]
      rw [this]; exact r
    have hmt : movedText x d y rest n = x ++ d.drop (d.length - n) ++ y ++ d.take (d.length - n) ++ 0 :: rest := by
      unfold movedText; rw [if_pos hlt]
    have he := erase_own rot hr r' a
    rw [hk] at he
    rw [he, hmt]
    generalize d.drop (d.length - n) = d2 at *
    generalize d.take (d.length - n) = d1 at *
    obtain ⟨h', rest', h1, h2⟩ := finish (h := h.setBlk id (some ⟨true, x ++ (d2 ++ y) ++ d1 ++ 0 :: rest⟩))
      (o := ⟨some (id, 0), x.length + (d2 ++ y).length, (x ++ d1 ++ (d2 ++ y)).length + 1 + rest.length⟩) (sp := sp) (n := n) (at' := x.length) (u := x ++ d2) (y := y) (z := d1 ++ 0 :: rest)
      (setBlk_same h id _) rfl (by simp; omega) (by simp; omega) (by simp) (by simp [hd]) (by simp) (by simp; omega)
    refine ⟨h', rest', _, h1, ?_, ho.1.symm, ?_⟩
    · rw [List.take_left] at h2
      rw [show x ++ d2 ++ y ++ d1 ++ 0 :: rest = x ++ (d2 ++ y) ++ d1 ++ 0 :: rest by simp]
      exact h2
    · rw [ho.2]; simp [hk, hd]; omega
  · rw [if_neg hlt]
    have hmt : movedText x d y rest n = x ++ (0 :: rest).take (n - d.length) ++ d ++ y ++ (0 :: rest).drop (n - d.length) := by
      unfold movedText; rw [if_neg hlt]
    rw [hmt]
    by_cases hgt : d.length < n
    · rw [if_pos hgt]
      have r' : Holds h o id (x ++ (d ++ y)) rest := by rw [← List.append_assoc]; exact r
      have hg : ((0 :: rest).take (n - d.length)).length = n - d.length := by simp; omega
      have hdl : ((0 :: rest).drop (n - d.length)).length = 1 + rest.length - (n - d.length) := by simp; omega
      rw [insert_room rot hr r' (n - d.length) (by omega) a]
      generalize (0 :: rest).take (n - d.length) = g at *
      generalize (0 :: rest).drop (n - d.length) = r2 at *
      obtain ⟨h', rest', h1, h2⟩ := finish (h := h.setBlk id (some ⟨true, x ++ g ++ (d ++ y) ++ r2⟩))
        (o := ⟨some (id, 0), (x ++ (d ++ y)).length + (n - d.length), (x ++ (d ++ y)).length + 1 + rest.length⟩) (sp := sp) (n := n) (at' := x.length) (u := x ++ g ++ d) (y := y) (z := r2)
        (setBlk_same h id _) rfl (by simp [hg, hdl]; omega) (by simp [hg, hdl]; omega) (by simp) (by simp [hg]; omega) (by simp [hg]; omega) (by simp [hg, hdl]; omega)
      refine ⟨h', rest', _, h1, ?_, ho.1.symm, ?_⟩
      · rw [show (x ++ g ++ d).take x.length = x by rw [List.append_assoc, List.take_left]] at h2
        rw [show x ++ g ++ d ++ y ++ r2 = x ++ g ++ (d ++ y) ++ r2 by simp]
        exact h2
      · rw [ho.2]; simp
    · rw [if_neg hgt]
      have hnd : n = d.length := by omega
      obtain ⟨h', rest', h1, h2⟩ := finish (h := h) (o := o) (sp := sp) (n := n) (at' := x.length) (u := x ++ d) (y := y) (z := 0 :: rest) r.blk ho.1
        (by rw [ho.2]; simp; omega) (by simp; omega) rfl (by simp [hnd]) (by rw [r.obj]) (by rw [r.obj]; simp)
      refine ⟨h', rest', o, h1, ?_, rfl, rfl⟩
      rw [List.take_left] at h2
      rw [show n - d.length = 0 by omega]
      simpa using h2

/-- **C96** a piece from before the place replaces it as it was, whatever its length. Missing: pieces from after the place (`replace_after_violated`). -/
theorem replace_before_partial {h : Heap Byte} {o : Obj} {id : Nat} {pre mid post d y rest : List Byte} (hr : RotateOK rot) (r : Holds h o id (pre ++ mid ++ post ++ d ++ y) rest)
    (h64 : pre.length + mid.length < 2 ^ 64) (hn : mid.length ≤ d.length + rest.length) (a : Option (Nat → Byte)) :
    ∃ h' rest' o', replaceSub rot h o (pre.length + mid.length + post.length) d.length o pre.length mid.length a = some (true, h', o') ∧
      Holds h' o' id (pre ++ mid ++ post ++ mid ++ y) rest' ∧ o'.ptr = o.ptr ∧ o'.cap = o.cap := by
  obtain ⟨h', rest', o', h1, h2, h3⟩ := replace_self rot (x := pre ++ mid ++ post) hr r pre.length mid.length (by simp) h64 hn (.inr (by simp)) a
  rw [show (pre ++ mid ++ post).length = pre.length + mid.length + post.length by simp; omega] at h1
  have : ((movedText (pre ++ mid ++ post) d y rest mid.length).drop pre.length).take mid.length = mid := by
    unfold movedText
    split <;> (rw [show ∀ A B C D : List Byte, pre ++ mid ++ post ++ A ++ B ++ C ++ D = pre ++ (mid ++ (post ++ A ++ B ++ C ++ D)) by intros; simp, List.drop_left, List.take_left])
  rw [this] at h2
  exact ⟨h', rest', o', h1, h2, h3⟩

/-- **C96** is false of pieces from after the place: if the place is longer by `k`, what is read is `k` characters after the piece; if it is shorter by `k`, `k` characters before. `j` is
how far the piece is behind the place. -/
theorem replace_after_violated {h : Heap Byte} {o : Obj} {id : Nat} {x d y rest : List Byte} (hr : RotateOK rot) (r : Holds h o id (x ++ d ++ y) rest) (j n : Nat)
    (hs : j + n ≤ y.length) (h64 : x.length + d.length + j + n < 2 ^ 64) (hn : n ≤ d.length + rest.length) (a : Option (Nat → Byte)) :
    ∃ h' rest' o' got, replaceSub rot h o x.length d.length o (x.length + d.length + j) n a = some (true, h', o') ∧ Holds h' o' id (x ++ got ++ y) rest' ∧
      (∀ k, n + k = d.length → j + k + n ≤ y.length → got = (y.drop (j + k)).take n) ∧
      (∀ k, d.length + k = n → k ≤ d.length + j → got = ((d ++ y).drop (d.length + j - k)).take n) ∧
      (got ≠ (y.drop j).take n → x ++ got ++ y ≠ x ++ (y.drop j).take n ++ y) := by
  obtain ⟨h', rest', o', h1, h2, h3⟩ := replace_self rot hr r (x.length + d.length + j) n (by simp; omega) h64 hn (.inl (by omega)) a
  refine ⟨h', rest', o', _, h1, h2, ?_, ?_, fun hne he => hne (List.append_cancel_left (List.append_cancel_right he))⟩
  · intro k hk hj
    unfold movedText
    by_cases h0 : k = 0
    · subst h0
      rw [if_neg (by omega), show n - d.length = 0 by omega]
      simp only [List.take_zero, List.append_nil, List.drop_zero, Nat.add_zero]
      rw [show x ++ d ++ y ++ 0 :: rest = (x ++ d) ++ (y ++ 0 :: rest) by simp, show x.length + d.length + j = (x ++ d).length + j by simp, List.drop_append,
        List.drop_of_length_le (by omega), Nat.add_sub_cancel_left, List.nil_append, List.drop_append_of_le_length (by omega), List.take_append_of_le_length (by simp; omega)]
    · rw [if_pos (by omega), show d.length - n = k by omega]
      have hd : (d.drop k).length = n := by simp; omega
      generalize d.drop k = d2 at hd ⊢
      rw [show x ++ d2 ++ y ++ d.take k ++ 0 :: rest = (x ++ d2) ++ (y ++ (d.take k ++ 0 :: rest)) by simp, List.drop_append, List.drop_of_length_le (by simp; omega),
        List.nil_append, show x.length + d.length + j - (x ++ d2).length = j + k by simp; omega, List.drop_append_of_le_length (by omega), List.take_append_of_le_length (by simp; omega)]
  · intro k hk hj
    unfold movedText
    rw [if_neg (by omega), show n - d.length = k by omega]
    have hg : ((0 :: rest).take k).length = k := by simp; omega
    generalize (0 :: rest).take k = g at hg ⊢
    generalize (0 :: rest).drop k = z
    rw [show x ++ g ++ d ++ y ++ z = (x ++ g) ++ (d ++ y ++ z) by simp, List.drop_append, List.drop_of_length_le (by simp; omega),
      List.nil_append, show x.length + d.length + j - (x ++ g).length = d.length + j - k by simp; omega, List.drop_append_of_le_length (by simp; omega),
      List.take_append_of_le_length (by simp; omega)]

/-- Two characters replaced by one, and one by two, of `abcdef`. -/
example (hr : RotateOK rot) : ∃ h' rest' o', replaceSub rot selfHeap selfObj 3 2 selfObj 0 1 none = some (true, h', o') ∧ Holds h' o' 1 [97, 98, 99, 97, 102] rest' := by
  obtain ⟨h', rest', o', h1, h2, -⟩ := replace_before_partial rot (pre := []) (mid := [97]) (post := [98, 99]) (d := [100, 101]) (y := [102]) hr selfHolds (by decide) (by decide) none
  exact ⟨h', rest', o', h1, h2⟩
example (hr : RotateOK rot) : ∃ h' rest' o', replaceSub rot selfHeap selfObj 3 1 selfObj 0 2 none = some (true, h', o') ∧ Holds h' o' 1 [97, 98, 99, 97, 98, 101, 102] rest' := by
  obtain ⟨h', rest', o', h1, h2, -⟩ := replace_before_partial rot (pre := []) (mid := [97, 98]) (post := [99]) (d := [100]) (y := [101, 102]) hr selfHolds (by decide) (by decide) none
  exact ⟨h', rest', o', h1, h2⟩
/-- `ab` replaced by `e` of `abcdef`: by `f`. -/
example (hr : RotateOK rot) : ∃ h' rest' o', replaceSub rot selfHeap selfObj 0 2 selfObj 4 1 none = some (true, h', o') ∧ Holds h' o' 1 [102, 99, 100, 101, 102] rest' := by
  obtain ⟨h', rest', o', got, h1, h2, h3, -⟩ := replace_after_violated rot (x := []) (d := [97, 98]) (y := [99, 100, 101, 102]) hr selfHolds 2 1 (by decide) (by decide) (by decide) none
  have := h3 1 rfl (by decide)
  rw [show ([99, 100, 101, 102].drop (2 + 1)).take 1 = ([102] : List Byte) from rfl] at this
  rw [this] at h2
  exact ⟨h', rest', o', h1, h2⟩

/-! ### insert, the place in the middle of the piece -/

/-- `copy_n`, byte by byte, inside a block. Models ualgobase.h:93-99. -/
def copyLoop (l : List Byte) (s d : Nat) : Nat → Option (List Byte)
  | 0 => some l
  | n + 1 => match l[s]? with
    | none => none
    | some c => if d < l.length then copyLoop (l.set d c) (s + 1) (d + 1) n else none

/-- `insert (ip, s, sp, n)` with the very string as `s`, for any overlap: the characters are copied one by one, each may have been written before. Models ustring.h:161,
ustring.cc:186-195 with one repetition, ualgobase.h:93-99. Build without the unrolled and the MMX copies, which copy in larger steps. -/
def insertOwn (h : Heap Byte) (o : Obj) (ip sp n : Nat) (a : Option (Nat → Byte)) : Res :=
  match Memblock.insert 1 rot h o ip n a with
  | none => none
  | some (false, h1, o1) => some (false, h1, o1)
  | some (true, h1, o1) => match o1.ptr with
    | some (id, 0) => match h1.blk id with
      | some b => match copyLoop b.bytes sp ip n with
        | some l => thenStore (some (true, h1.setBlk id (some ⟨b.heap, l⟩), o1)) (fun o1 => o1.size) [0]
        | none => none
      | none => none
    | _ => none

theorem copyLoop_period (P : Nat) (hP : 0 < P) : ∀ (n : Nat) (l : List Byte) (s : Nat), s + P + n ≤ l.length →
    ∃ got, copyLoop l s (s + P) n = some (l.take (s + P) ++ got ++ l.drop (s + P + n)) ∧ got.length = n ∧ ∀ i < n, got[i]? = l[s + i % P]?
  | 0, l, s, _ => ⟨[], by simp [copyLoop], rfl, by simp⟩
  | n + 1, l, s, h => by
    have hs : s < l.length := by omega
    obtain ⟨got, h1, h2, h3⟩ := copyLoop_period P hP n (l.set (s + P) l[s]) (s + 1) (by simp; omega)
    refine ⟨l[s] :: got, ?_, by simp [h2], ?_⟩
    · unfold copyLoop
      simp only [List.getElem?_eq_getElem hs]
      rw [if_pos (by omega), show s + P + 1 = s + 1 + P by omega, h1]
      rw [show s + 1 + P = s + P + 1 by omega, List.take_set, List.drop_set, if_pos (by omega), show s + P + (n + 1) = s + P + 1 + n by omega]
      rw [List.set_eq_take_append_cons_drop, if_pos (by simp; omega), List.take_take, Nat.min_eq_left (by omega)]
      simp
    · intro i hi
      cases i with
      | zero => simp [Nat.zero_mod, hs]
      | succ i =>
        rw [List.getElem?_cons_succ, h3 i (by omega), List.getElem?_set]
        have hm := Nat.mod_lt i hP
        by_cases hc : i % P + 1 = P
        · have : (i + 1) % P = 0 := by rw [Nat.add_mod, ← Nat.mod_add_mod]; simp [hc]
          rw [if_pos (by omega), if_pos (by omega), this]
          simp [hs]
        · have : (i + 1) % P = i % P + 1 := by
            rw [← Nat.mod_add_mod, Nat.mod_eq_of_lt (by omega)]
          rw [if_neg (by omega), this]
          congr 1; omega

/-- **C96** is false of a piece with the place in the middle: what is inserted is the part `p` before the place, again and again, and never the part `q` after it. -/
theorem insert_middle_violated {h : Heap Byte} {o : Obj} {id : Nat} {pre p q w rest : List Byte} (hr : RotateOK rot) (r : Holds h o id (pre ++ p ++ (q ++ w)) rest) (hp : p ≠ [])
    (hn : p.length + q.length ≤ rest.length) (a : Option (Nat → Byte)) :
    ∃ h' rest' o' got, insertOwn rot h o (pre.length + p.length) pre.length (p.length + q.length) a = some (true, h', o') ∧ Holds h' o' id (pre ++ p ++ got ++ (q ++ w)) rest' ∧
      got.length = p.length + q.length ∧ (∀ i < got.length, got[i]? = p[i % p.length]?) ∧ (q.head? ≠ none → q.head? ≠ p.head? → got ≠ p ++ q) := by
  have hP : 0 < p.length := List.length_pos_iff.2 hp
  have hi := insert_room rot hr r (p.length + q.length) hn a
  rw [List.length_append] at hi
  have hg : ((0 :: rest).take (p.length + q.length)).length = p.length + q.length := by simp; omega
  have hz : ((0 :: rest).drop (p.length + q.length)).length = 1 + rest.length - (p.length + q.length) := by simp; omega
  generalize (0 :: rest).take (p.length + q.length) = g at *
  generalize (0 :: rest).drop (p.length + q.length) = z at *
  obtain ⟨c, z', rfl⟩ : ∃ c z', z = c :: z' := by cases z with | nil => simp at hz; omega | cons c z' => exact ⟨c, z', rfl⟩
  obtain ⟨got, h1, h2, h3⟩ := copyLoop_period p.length hP (p.length + q.length) (pre ++ p ++ g ++ (q ++ w) ++ c :: z') pre.length (by simp [hg]; omega)
  have e1 : (pre ++ p ++ g ++ (q ++ w) ++ c :: z').take (pre.length + p.length) = pre ++ p := by
    rw [show pre ++ p ++ g ++ (q ++ w) ++ c :: z' = (pre ++ p) ++ (g ++ (q ++ w) ++ c :: z') by simp]
    exact List.take_left' (by simp)
  have e2 : (pre ++ p ++ g ++ (q ++ w) ++ c :: z').drop (pre.length + p.length + (p.length + q.length)) = q ++ w ++ c :: z' := by
    rw [show pre ++ p ++ g ++ (q ++ w) ++ c :: z' = (pre ++ p ++ g) ++ (q ++ w ++ c :: z') by simp]
    exact List.drop_left' (by simp [hg]; omega)
  rw [e1, e2] at h1
  have h4 : ∀ i < got.length, got[i]? = p[i % p.length]? := by
    intro i hi'
    rw [h3 i (by omega)]
    have := Nat.mod_lt i hP
    rw [show pre ++ p ++ g ++ (q ++ w) ++ c :: z' = pre ++ (p ++ (g ++ (q ++ w) ++ c :: z')) by simp, List.getElem?_append_right (by omega), Nat.add_sub_cancel_left,
      List.getElem?_append_left (by omega)]
  have hst := st_at (h := h.setBlk id (some ⟨true, pre ++ p ++ got ++ (q ++ w ++ c :: z')⟩)) (id := id) (k := (pre ++ p ++ (q ++ w)).length + (p.length + q.length)) (xs := [0])
    (setBlk_same h id _) (by simp) (by simp [h2]; omega)
  have e3 : (pre ++ p ++ got ++ (q ++ w ++ c :: z')).take ((pre ++ p ++ (q ++ w)).length + (p.length + q.length)) = pre ++ p ++ got ++ (q ++ w) := by
    rw [show pre ++ p ++ got ++ (q ++ w ++ c :: z') = (pre ++ p ++ got ++ (q ++ w)) ++ c :: z' by simp]
    exact List.take_left' (by simp [h2]; omega)
  have e4 : (pre ++ p ++ got ++ (q ++ w ++ c :: z')).drop ((pre ++ p ++ (q ++ w)).length + (p.length + q.length) + [(0 : Byte)].length) = z' := by
    rw [show pre ++ p ++ got ++ (q ++ w ++ c :: z') = (pre ++ p ++ got ++ (q ++ w) ++ [c]) ++ z' by simp]
    exact List.drop_left' (by simp [h2]; omega)
  rw [e3, e4, setBlk_setBlk] at hst
  refine ⟨h.setBlk id (some ⟨true, pre ++ p ++ got ++ (q ++ w) ++ [0] ++ z'⟩), z', ⟨some (id, 0), (pre ++ p ++ (q ++ w)).length + (p.length + q.length), (pre ++ p ++ (q ++ w)).length + 1 + rest.length⟩, got, ?_,
    ⟨by rw [setBlk_same]; simp, ?_⟩, h2, h4, ?_⟩
  · unfold insertOwn
    rw [hi]
    simp only [setBlk_same, h1, thenStore, adv, Option.map_some, Nat.zero_add, setBlk_setBlk]
    rw [hst]
  · simp only [List.length_cons] at hz
    rw [Obj.mk.injEq]
    simp only [List.length_append]
    exact ⟨trivial, by omega, by omega⟩
  · intro hq hne he
    cases q with
    | nil => simp at hq
    | cons b q' =>
      have := h4 p.length (by rw [h2]; simp)
      rw [he, List.getElem?_append_right (Nat.le_refl _), Nat.sub_self, Nat.mod_self] at this
      exact hne (by rw [List.head?_eq_getElem?, List.head?_eq_getElem?]; exact this)

/-- `bc` of `abcdef` inserted between `b` and `c` gives `abbbcdef`. -/
example (hr : RotateOK rot) : ∃ h' rest' o', insertOwn rot selfHeap selfObj 2 1 2 none = some (true, h', o') ∧ Holds h' o' 1 [97, 98, 98, 98, 99, 100, 101, 102] rest' := by
  obtain ⟨h', rest', o', got, h1, h2, h3, h4, -⟩ := insert_middle_violated rot (pre := [97]) (p := [98]) (q := [99]) (w := [100, 101, 102]) hr selfHolds (by decide) (by decide) none
  match got, h3, h4, h2 with
  | [c, d], _, h4, h2 =>
    have e1 := h4 0 (by simp)
    have e2 := h4 1 (by simp)
    simp at e1 e2
    subst e1 e2
    exact ⟨h', rest', o', h1, h2⟩

end Ustl.Str
