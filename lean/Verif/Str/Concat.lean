import Verif.Str.Props
/-!
# C24: `operator+`, `copyto`
-/
namespace Ustl.Str
open Ustl.Memblock

section
variable (lit : Nat × Nat)

/-- Leaving the scope of a local string because of `bad_alloc`: it is destroyed. -/
def dropLocal (h : Heap Byte) (o : Obj) : Res :=
  match deallocate h o with
  | none => none
  | some (h', o') => some (false, h', o')

/-- `string::operator+ (const string& s)`: a copy of this, then `+=`. Models ustring.h:282-287, 137, ustring.cc:83-88. -/
def concat (h : Heap Byte) (o s : Obj) (a1 a2 : Option (Nat → Byte)) : Res :=
  match ctorCopy h o a1 with
  | none => none
  | some (false, h1, r) => some (false, h1, r)
  | some (true, h1, r) =>
    match appendSub lit h1 r s 0 s.size a2 with
    | none => none
    | some (false, h2, r2) => dropLocal h2 r2
    | some (true, h2, r2) => some (true, h2, r2)

/-- Append and leave if it throws. -/
def appendOrDrop (h : Heap Byte) (o s : Obj) (a : Option (Nat → Byte)) : Res :=
  match appendSub lit h o s 0 s.size a with
  | none => none
  | some (false, h', o') => dropLocal h' o'
  | some (true, h', o') => some (true, h', o')

/-- `operator+ (const char* cs, const string& ss)`: `string r; r.reserve (strlen(cs) + ss.size()); r += cs; r += ss;`.
`cs` is given as the text before the NUL and where it is; `r += cs` is `append (cs, strlen (cs))`. Models ustring.h:310, 139,
ustring.cc:75-88. -/
def concatPtr (h : Heap Byte) (cs : Nat × Nat) (n : Nat) (s : Obj) (a1 a2 a3 : Option (Nat → Byte)) : Res :=
  match Memblock.reserve 1 h (ctor lit) (n + s.size) false a1 with
  | none => none
  | some (false, h1, r) => dropLocal h1 r
  | some (true, h1, r) =>
    match appendOrDrop lit h1 r (ctorPtr cs n) a2 with
    | none => none
    | some (false, h2, r2) => some (false, h2, r2)
    | some (true, h2, r2) => appendOrDrop lit h2 r2 s a3

end

/-- `copyto (p, n, pos)`: the bytes stored from `p` on; it returns one less than their number. Models ustring.h:123. -/
def copyTo (h : Heap Byte) (o : Obj) (n pos : Nat) : Option (List Byte) :=
  match copyOut h o ((n + 2 ^ 64 - 1) % 2 ^ 64) pos with
  | none => none
  | some xs => some (xs ++ [0])

variable {lit : Nat × Nat}

/-! ## Proofs -/

/-- A new object's coming to be leaves the strings there are alone. -/
theorem SRep.beside {h h' : Heap Byte} {o o' : Obj} {s : List Byte} (r : SRep h o s) (hh : HOK h)
    (e : Eff h Obj.empty h' o') : SRep h' o s := by
  have k : ∀ id b, h.blk id = some b → h'.blk id = some b := by
    intro id b hb
    rw [e.keep id (hh.lt hb) (.inl rfl), hb]
  refine ⟨⟨fun hc => ?_, fun hc => ?_⟩, r.size, ld_congr r.read fun q b _ hb => k _ _ hb⟩
  · obtain ⟨id, b, h1, h2, h3⟩ := r.ook.owned hc
    exact ⟨id, b, h1, k id b h2, h3⟩
  · rcases r.ook.linked hc with h1 | ⟨p, h1, h2⟩
    · exact .inl h1
    · exact .inr ⟨p, h1, h2.keep fun b hb _ => k _ _ hb⟩

theorem dropLocal_s {h0 h : Heap Byte} {o : Obj} (e : Eff h0 Obj.empty h o) :
    ∃ h', dropLocal h o = some (false, h', Obj.empty) ∧ Eff h0 Obj.empty h' Obj.empty := by
  obtain ⟨h', e1, e2, _⟩ := deallocate_spec e.hok e.ook
  exact ⟨h', by simp only [dropLocal, e1], e.trans e2⟩

/-- Reading `s` is still possible after something was done to another, new object. -/
theorem read_beside {h0 h : Heap Byte} {r s : Obj} {t : List Byte} (hh : HOK h0) (rs : SRep h0 s t) (e : Eff h0 Obj.empty h r)
    (hsz : t.length < 2 ^ 64) :
    ld h (adv s.ptr (iat s 0)) ((t.drop 0).take s.size).length = some ((t.drop 0).take s.size) := by
  have r1 := rs.beside hh e
  have := read_range (pos := 0) (n := s.size) r1.size (by rw [r1.size]; omega) r1.chars
  rwa [(range_eq (pos := 0) (n := s.size) r1.size (by rw [r1.size]; omega)).2.2.1] at this

theorem appendOrDrop_s {h0 h : Heap Byte} {r s : Obj} {u t : List Byte} (a : Option (Nat → Byte)) (hh : HOK h0) (rs : SRep h0 s t)
    (e : Eff h0 Obj.empty h r) (rr : SRep h r u) (hl : HasLit lit h) (hsz : t.length < 2 ^ 64) :
    (∃ h' o', appendOrDrop lit h r s a = some (true, h', o') ∧ Eff h0 Obj.empty h' o' ∧ SRep h' o' (u ++ t)) ∨
    (a = none ∧ ∃ h', appendOrDrop lit h r s a = some (false, h', Obj.empty) ∧ Eff h0 Obj.empty h' Obj.empty) := by
  have hall : (t.drop 0).take s.size = t := by rw [rs.size]; simp
  have e1 := appendSub_eq (lit := lit) (h := h) (o := r) (a := a) (pos := 0) (n := s.size) rs.size (by rw [rs.size]; omega) (by
    intro h1 o1 hr
    have d := resize_s (lit := lit) (r.size + ((t.drop 0).take s.size).length) a e.hok rr.ook hl
    exact read_beside hh rs (e.trans (d.eff hr)) hsz)
  rw [hall] at e1
  unfold appendOrDrop
  rw [e1]
  rcases append_s (lit := lit) t a e.hok rr hl with ⟨d1, d2⟩ | ⟨h', o', d1, d2, d3⟩
  · right
    rw [d2]
    exact ⟨d1, dropLocal_s e⟩
  · left
    rw [d1]
    exact ⟨h', o', rfl, e.trans d2, d3⟩

/-- **C24** `s + t` is a new string with the characters of `s` and then those of `t`, whatever storage the two have (linked, owned, the
same string twice); both still hold what they held. Or the allocator refused, `bad_alloc` was thrown, and nothing is lost. -/
theorem concat_spec {h : Heap Byte} {o s : Obj} {u t : List Byte} (a1 a2 : Option (Nat → Byte)) (hh : HOK h) (hl : HasLit lit h)
    (ro : SRep h o u) (rs : SRep h s t) (hsz : t.length < 2 ^ 64) :
    (∃ h' o', concat lit h o s a1 a2 = some (true, h', o') ∧ SRep h' o' (u ++ t) ∧ SRep h' o u ∧ SRep h' s t ∧ Eff h Obj.empty h' o') ∨
    ((a1 = none ∨ a2 = none) ∧ ∃ h', concat lit h o s a1 a2 = some (false, h', Obj.empty) ∧ Eff h Obj.empty h' Obj.empty) := by
  unfold concat
  rcases ctorCopy_s a1 hh ro with ⟨d1, d2⟩ | ⟨h1, r, d1, d2, d3⟩
  · right
    rw [d2]
    exact ⟨.inl d1, h, rfl, Eff.refl hh (empty_ook h)⟩
  · rw [d1]
    have hl1 : HasLit lit h1 := hl.keep fun _ _ h2 h3 => d2.toEff0.foreign hh (empty_ook h) h2 h3
    rcases appendOrDrop_s a2 hh rs d2 d3 hl1 hsz with ⟨h2, o2, g1, g2, g3⟩ | ⟨g1, h2, g2, g3⟩
    · left
      exact ⟨h2, o2, g1, g3, ro.beside hh g2, rs.beside hh g2, g2⟩
    · right
      exact ⟨.inr g1, h2, g2, g3⟩

/-- **C24** `cs + t` for a C string `cs`: the same. (The `reserve` bounds the sum of the lengths by `2^31`, where its rounding wraps:
`Ustl.Memblock`.) -/
theorem concatPtr_spec {h : Heap Byte} {cs : Nat × Nat} {n : Nat} {s : Obj} {u t : List Byte} (a1 a2 a3 : Option (Nat → Byte)) (hh : HOK h)
    (hl : HasLit lit h) (ro : SRep h (ctorPtr cs n) u) (rs : SRep h s t) (hsz : u.length + t.length + 1 ≤ 2 ^ 31) :
    (∃ h' o', concatPtr lit h cs n s a1 a2 a3 = some (true, h', o') ∧ SRep h' o' (u ++ t) ∧ SRep h' s t ∧ Eff h Obj.empty h' o') ∨
    ((a1 = none ∨ a2 = none ∨ a3 = none) ∧ ∃ h', concatPtr lit h cs n s a1 a2 a3 = some (false, h', Obj.empty) ∧
      Eff h Obj.empty h' Obj.empty) := by
  have hn : n = u.length := ro.size
  have r0 : SRep h (ctor lit) [] := by
    have := CString.srep hl
    have e : foreign h lit 0 = [] := by unfold foreign; split <;> simp
    rwa [e] at this
  have e0 : Eff h Obj.empty h (ctor lit) := by
    have := Eff.refl hh (empty_ook h)
    refine ⟨⟨hh, r0.ook, this.keep, this.next, fun hc => absurd rfl hc, this.nofor⟩, fun id b h1 h2 => ?_⟩
    exact .inr ⟨⟨b, h1, h2⟩, fun h => h.1 rfl⟩
  unfold concatPtr
  rcases reserve_s (n + s.size) a1 hh r0 (by rw [hn, rs.size]; exact hsz) (fun _ => Nat.zero_le _) with ⟨d1, d2⟩ | ⟨h1, r, d1, d2, d3⟩
  · right
    rw [d2]
    obtain ⟨h', g1, g2⟩ := dropLocal_s e0
    exact ⟨.inl d1, h', g1, g2⟩
  · rw [d1]
    simp only
    have hl1 : HasLit lit h1 := hl.keep fun _ _ h2 h3 => (e0.trans d2).toEff0.foreign hh (empty_ook h) h2 h3
    rcases appendOrDrop_s a2 hh ro (e0.trans d2) d3 hl1 (by omega) with ⟨h2, o2, g1, g2, g3⟩ | ⟨g1, h2, g2, g3⟩
    · rw [g1]
      simp only
      have hl2 : HasLit lit h2 := hl.keep fun _ _ h2 h3 => g2.toEff0.foreign hh (empty_ook h) h2 h3
      rcases appendOrDrop_s a3 hh rs g2 g3 hl2 (by omega) with ⟨h3, o3, k1, k2, k3⟩ | ⟨k1, h3, k2, k3⟩
      · left
        exact ⟨h3, o3, k1, k3, rs.beside hh k2, k2⟩
      · right
        exact ⟨.inr (.inr k1), h3, k2, k3⟩
    · right
      rw [g2]
      exact ⟨.inr (.inl g1), h2, rfl, g3⟩

/-- **C24 (partial)** `copyto` stores the first characters from `pos` on and a terminator, never more than the `n` bytes there is room for.
Missing: `n = 0` (`copyto_violated`). -/
theorem copyto_partial {h : Heap Byte} {o : Obj} {s : List Byte} (r : SRep h o s) {n pos : Nat} (hn : 0 < n) (hn2 : n < 2 ^ 64)
    (hp : pos ≤ s.length) : copyTo h o n pos = some ((s.drop pos).take (n - 1) ++ [0]) ∧
      ((s.drop pos).take (n - 1) ++ [0]).length ≤ n := by
  have e : (n + 2 ^ 64 - 1) % 2 ^ 64 = n - 1 := by omega
  have hi : iat o pos = pos := by unfold iat; rw [r.size]; omega
  constructor
  · have key : copyOut h o (n - 1) pos = some ((s.drop pos).take (n - 1)) := by
      unfold copyOut
      rw [if_neg (by rw [r.size]; omega), hi, ld_sub r.chars (by rw [r.size]; omega), r.size]
      have : (s.drop pos).take (min (n - 1) (s.length - pos)) = (s.drop pos).take (n - 1) := by
        rw [List.take_eq_take_iff]
        simp only [List.length_drop]
        omega
      rw [this]
    unfold copyTo
    rw [e, key]
  · simp only [List.length_append, List.length_take, List.length_singleton]; omega

/-- **C24 violated** `copyto (p, 0)` stores the whole string and a terminator: `n - 1` wraps. -/
theorem copyto_violated {h : Heap Byte} {o : Obj} {s : List Byte} (r : SRep h o s) (hs : s.length < 2 ^ 64) :
    copyTo h o 0 0 = some (s ++ [0]) := by
  unfold copyTo copyOut
  have hi : iat o 0 = 0 := by unfold iat; omega
  rw [if_neg (by omega), hi, ld_sub r.chars (by rw [r.size]; omega), r.size]
  have : min ((0 + 2 ^ 64 - 1) % 2 ^ 64) (s.length - 0) = s.length := by omega
  rw [this]
  simp

/-- `concat_spec` and `concatPtr_spec` on the linked `"ab"`, with itself. -/
example : ∃ h' o', concat (0, 2) w0.heap linkedAb linkedAb (some fun _ => 7) (some fun _ => 7) = some (true, h', o') ∧
    SRep h' o' [97, 98, 97, 98] := by
  have hi := w0_initial
  have r : SRep w0.heap linkedAb [97, 98] := CString.srep (h := w0.heap) (p := (0, 0)) (n := 2) ⟨_, rfl, rfl, rfl⟩
  rcases concat_spec (some fun _ => 7) (some fun _ => 7) (init_ws hi).hok hi.2 r r (by simp) with ⟨h', o', g1, g2, _⟩ | ⟨g1, _⟩
  · exact ⟨h', o', g1, g2⟩
  · rcases g1 with g1 | g1 <;> cases g1

/-- The same for `concatPtr_spec`. -/
example : ∃ h' o', concatPtr (0, 2) w0.heap (0, 0) 2 linkedAb (some fun _ => 7) (some fun _ => 7) (some fun _ => 7) = some (true, h', o') ∧
    SRep h' o' [97, 98, 97, 98] := by
  have hi := w0_initial
  have r : SRep w0.heap linkedAb [97, 98] := CString.srep (h := w0.heap) (p := (0, 0)) (n := 2) ⟨_, rfl, rfl, rfl⟩
  rcases concatPtr_spec (some fun _ => 7) (some fun _ => 7) (some fun _ => 7) (init_ws hi).hok hi.2 r r (by simp) with ⟨h', o', g1, g2, _⟩ | ⟨g1, _⟩
  · exact ⟨h', o', g1, g2⟩
  · rcases g1 with g1 | g1 | g1 <;> cases g1

/-- `copyto_partial` on it: room for two bytes. -/
example : copyTo w0.heap linkedAb 2 0 = some [97, 0] := rfl

end Ustl.Str
