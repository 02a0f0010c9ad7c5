import Verif.Raw.Lemmas
/-!
# vector when element operations throw (uvector.h) (C77)

A vector is its storage (capacity many slots) and the number of slots counted as elements. `copyOk k` (`dfltOk k`)
says whether call number `k` returns when it is to a copy, move or emplacing constructor (to the default constructor
or to assignment). `grow` is the allocator: `none` when it fails, `some e` when it gives room for `e` elements more
than needed. Elements are moved bitwise when the storage moves, so slots keep their contents. The ranges are in one half
of the address space (C76), the elements are not POD (constructors of POD types do not throw), and values passed in are
not elements of the vector itself (C22 has those).
-/
namespace Ustl.Raw
variable {α : Type _}

/-- A vector: its storage and `size()`. -/
structure Vec (α : Type _) where
  st : St α
  size : Nat

/-- The element operations' and the allocator's behaviour. -/
structure Env where
  copyOk : Nat → Bool := fun _ => true
  dfltOk : Nat → Bool := fun _ => true
  grow : Nat → Option Nat := fun _ => some 0

/-- `_data.reserve (need)`: room for `need` slots, or `bad_alloc` with nothing changed. Models uvector.h:133-137 and the
calls of `_data.reserve`, uvector.h:143, 154, 168; the growth policy is C20's. -/
def reserveV (e : Env) (need : Nat) (v : Vec α) : Res (Vec α) :=
  if need ≤ v.st.slots.length then .ret v
  else match e.grow v.st.calls with
    | none => .threw v
    | some x => .ret { v with st := { v.st with
        slots := v.st.slots ++ List.replicate (need - v.st.slots.length + x) .raw } }

/-- `uninitialized_copy`, `uninitialized_copy_n`, `uninitialized_fill_n`, `construct_at` with values from outside the
vector: construct `xs` in the slots from `d`. Models umemory.h:440-478 (see C76). -/
def build (ok : Nat → Bool) : Nat → List α → St α → Res (St α)
  | _, [], s => .ret s
  | d, x :: xs, s => (constructAt ok d x s).andThen (build ok (d + 1) xs) id

/-- `append_hole (xs.size())` and construction in the hole: `push_back`, `emplace_back`, the constructors. The size
counts the hole before there is anything in it. Models uvector.h:139-147, 193-222, 320-324, 337-342. -/
def appendX (e : Env) (xs : List α) (v : Vec α) : Res (Vec α) :=
  (reserveV e (v.size + xs.length) v).andThen (fun v1 =>
    (build e.copyOk v1.size xs v1.st).andThen (fun s => .ret ⟨s, v1.size + xs.length⟩)
      (fun s => ⟨s, v1.size + xs.length⟩)) id

/-- `insert_hole (ip, n)`: the tail is rotated past the unused slots. Models uvector.h:257-263. -/
def openHole (ip n : Nat) (v : Vec α) : Vec α :=
  ⟨{ v.st with slots := v.st.slots.take ip ++ (v.st.slots.drop v.size).take n ++
      (v.st.slots.drop ip).take (v.size - ip) ++ v.st.slots.drop (v.size + n) }, v.size + n⟩

/-- `insert (ip, v)`, `insert (ip, n, v)`, `insert (ip, i1, i2)`, `emplace (ip, ...)`.
Models uvector.h:275-300, 329-334. -/
def insertX (e : Env) (ip : Nat) (xs : List α) (v : Vec α) : Res (Vec α) :=
  (reserveV e (v.size + xs.length) v).andThen (fun v1 =>
    let v2 := openHole ip xs.length v1
    (build e.copyOk ip xs v2.st).andThen (fun s => .ret ⟨s, v2.size⟩) (fun s => ⟨s, v2.size⟩)) id

/-- `resize (n)` with `ok = dfltOk` and `x` the default element, `resize (n, x)` with `ok = copyOk`. The size changes
last. Models uvector.h:150-175. -/
def resizeX (e : Env) (ok : Nat → Bool) (n : Nat) (x : α) (v : Vec α) : Res (Vec α) :=
  (reserveV e n v).andThen (fun v1 =>
    (if n < v1.size then iter destroyAt (v1.size - n) n v1.st
      else build ok v1.size (List.replicate (n - v1.size) x) v1.st).andThen
      (fun s => .ret ⟨s, n⟩) (fun s => ⟨s, v1.size⟩)) id

/-- Assignment to the object in a slot. -/
def assignAt (ok : Nat → Bool) (i : Nat) (x : α) (s : St α) : Res (St α) :=
  match s.slots[i]? with
  | some (.live _) =>
    if ok s.calls then .ret { s with slots := s.slots.set i (.live x), calls := s.calls + 1 }
    else .threw { s with calls := s.calls + 1 }
  | _ => .ub

/-- Assigning `xs` to the objects from slot `d`: `copy`, `fill`. Models ualgobase.h:77-83, 132-137 for class types. -/
def assignAll (ok : Nat → Bool) : Nat → List α → St α → Res (St α)
  | _, [], s => .ret s
  | d, x :: xs, s => (assignAt ok d x s).andThen (assignAll ok (d + 1) xs) id

/-- `assign (i1, i2)`, `assign (n, v)`, `operator=`: `resize` and then assignment. Models uvector.h:232-254. -/
def assignX (e : Env) (xs : List α) (dflt : α) (v : Vec α) : Res (Vec α) :=
  (resizeX e e.dfltOk xs.length dflt v).andThen (fun v1 =>
    (assignAll e.dfltOk 0 xs v1.st).andThen (fun s => .ret ⟨s, v1.size⟩) (fun s => ⟨s, v1.size⟩)) id

/-- `erase (ep, n)`: destroy, then rotate the gap to the end. Models uvector.h:303-317. -/
def eraseX (ep n : Nat) (v : Vec α) : Res (Vec α) :=
  (iter destroyAt n ep v.st).andThen (fun s =>
    .ret ⟨{ s with slots := s.slots.take ep ++ (s.slots.drop (ep + n)).take (v.size - (ep + n)) ++
      (s.slots.drop ep).take n ++ s.slots.drop v.size }, v.size - n⟩) (fun s => ⟨s, v.size⟩)

/-- `destroy_all ()`. Models uvector.h:126-127. -/
def destroyAllX (v : Vec α) : Res (St α) := iter destroyAt v.size 0 v.st

/-- The operations of a vector whose element operations may throw. -/
inductive Op (α : Type _) where
  | append (xs : List α)
  | insert (ip : Nat) (xs : List α)
  | resize (n : Nat)
  | resizeV (n : Nat) (x : α)
  | assign (xs : List α)
  | erase (ep n : Nat)
  | clear
  | reserve (n : Nat)

/-- One operation. `pop_back ()` is `erase` of the last element. Models uvector.h:133-137, 150-175, 232-317, 82-84. -/
def step (e : Env) (dflt : α) (v : Vec α) : Op α → Res (Vec α)
  | .append xs => appendX e xs v
  | .insert ip xs => insertX e ip xs v
  | .resize n => resizeX e e.dfltOk n dflt v
  | .resizeV n x => resizeX e e.copyOk n x v
  | .assign xs => assignX e xs dflt v
  | .erase ep n => eraseX ep n v
  | .clear => (destroyAllX v).andThen (fun s => .ret ⟨s, 0⟩) (fun s => ⟨s, v.size⟩)
  | .reserve n => reserveV e n v

/-- What the operation does to the sequence. -/
def Op.apply (dflt : α) (xs : List α) : Op α → List α
  | .append ys => xs ++ ys
  | .insert ip ys => xs.take ip ++ ys ++ xs.drop ip
  | .resize n => xs.take n ++ List.replicate (n - xs.length) dflt
  | .resizeV n x => xs.take n ++ List.replicate (n - xs.length) x
  | .assign ys => ys
  | .erase ep n => xs.take ep ++ xs.drop (ep + n)
  | .clear => []
  | .reserve _ => xs

/-- What the operation asks of its arguments, for a vector of `size` elements. -/
def Op.Pre (size : Nat) : Op α → Prop
  | .insert ip _ => ip ≤ size
  | .erase ep n => ep + n ≤ size
  | _ => True

/-- The operations that construct in a hole already counted as elements. -/
def Op.holes : Op α → Bool
  | .append _ => true
  | .insert _ _ => true
  | _ => false

/-- The vector's elements are `xs`: every slot counted as an element holds an object. -/
def Usable (v : Vec α) (xs : List α) : Prop := v.size = xs.length ∧ ∃ t, v.st.slots = xs.map .live ++ t

/-- No object is left in the slots not counted as elements: true unless an exception left some there. -/
def Clean (v : Vec α) : Prop := ∀ m ∈ v.st.slots.drop v.size, m = .raw

/-! ## Lemmas -/

theorem constructAt_mid (ok : Nat → Bool) (pre post : List (Slot α)) (m : Slot α) (x : α) (s : St α)
    (h : s.slots = pre ++ m :: post) :
    ∃ s', constructAt ok pre.length x s = (if ok s.calls then .ret s' else .threw { s with calls := s.calls + 1 }) ∧
      s'.slots = pre ++ .live x :: post ∧ s'.calls = s.calls + 1 ∧ (m = .raw → s'.lost = s.lost) := by
  refine ⟨{ slots := s.slots.set pre.length (.live x), calls := s.calls + 1, lost := s.lost + (if m.isLive then 1 else 0) },
    ?_, ?_, rfl, fun hm => by subst hm; rfl⟩
  · have hg : s.slots[pre.length]? = some m := by rw [h]; simp
    unfold constructAt; rw [hg]
  · show s.slots.set pre.length (.live x) = _
    rw [h, List.set_append_right _ _ (Nat.le_refl _)]; simp

/-- Construction over `xs.length` slots between `pre` and `post`. -/
theorem build_any (ok : Nat → Bool) (xs : List α) : ∀ (pre mid post : List (Slot α)) (s : St α),
    s.slots = pre ++ mid ++ post → mid.length = xs.length →
    (∃ s', build ok pre.length xs s = .ret s' ∧ s'.slots = pre ++ xs.map .live ++ post ∧ s'.calls = s.calls + xs.length ∧
      ((∀ m ∈ mid, m = .raw) → s'.lost = s.lost)) ∨
    (∃ s' k, build ok pre.length xs s = .threw s' ∧ k < xs.length ∧ s'.calls = s.calls + (k + 1) ∧ ok (s.calls + k) = false ∧
      s'.slots = pre ++ ((xs.take k).map .live ++ mid.drop k) ++ post) := by
  induction xs with
  | nil =>
    intro pre mid post s h hm
    obtain rfl := List.eq_nil_of_length_eq_zero hm
    exact Or.inl ⟨s, rfl, by simpa using h, rfl, fun _ => rfl⟩
  | cons x xs ih =>
    intro pre mid post s h hm
    cases mid with
    | nil => cases hm
    | cons m mid =>
      obtain ⟨s1, h1, h2, h3, h4⟩ := constructAt_mid ok pre (mid ++ post) m x s (by simpa using h)
      rw [build, h1]
      by_cases hok : ok s.calls = true
      · rw [if_pos hok]
        simp only [Res.andThen]
        have := ih (pre ++ [.live x]) mid post s1 (by simpa using h2) (by simpa using hm)
        rw [show (pre ++ [Slot.live x]).length = pre.length + 1 by simp] at this
        rcases this with ⟨s', i1, i2, i3, i6⟩ | ⟨s', k, i1, i2, i3, i4, i5⟩
        · exact Or.inl ⟨s', i1, by simpa using i2, by rw [i3, h3]; simp; omega, fun hm => by
            rw [i6 fun q hq => hm q (List.mem_cons_of_mem _ hq), h4 (hm m List.mem_cons_self)]⟩
        · refine Or.inr ⟨s', k + 1, i1, by simpa using i2, by rw [i3, h3]; omega, ?_, by simpa using i5⟩
          rw [h3] at i4; rw [← i4]; congr 1; omega
      · rw [if_neg hok]
        exact Or.inr ⟨_, 0, rfl, by simp, rfl, by simpa using hok, by simpa using h⟩

theorem destroy_mid (n : Nat) : ∀ (pre mid post : List (Slot α)) (s : St α),
    s.slots = pre ++ mid ++ post → mid.length = n → (∀ m ∈ mid, m.isLive = true) →
    ∃ s', iter destroyAt n pre.length s = .ret s' ∧ s'.slots = pre ++ List.replicate n .raw ++ post ∧
      s'.calls = s.calls ∧ s'.lost = s.lost := by
  induction n with
  | zero =>
    intro pre mid post s h hm _
    obtain rfl := List.eq_nil_of_length_eq_zero hm
    exact ⟨s, rfl, by simpa using h, rfl, rfl⟩
  | succ n ih =>
    intro pre mid post s h hm hl
    cases mid with
    | nil => cases hm
    | cons m mid =>
      have hg : s.slots[pre.length]? = some m := by rw [h]; simp
      have hs : s.slots.set pre.length .raw = pre ++ [.raw] ++ mid ++ post := by
        rw [h, List.append_assoc, List.set_append_right _ _ (Nat.le_refl _)]; simp
      cases m with
      | raw => exact absurd (hl _ List.mem_cons_self) (by simp [Slot.isLive])
      | live x =>
        have hd : destroyAt pre.length s = .ret { s with slots := s.slots.set pre.length .raw } := by
          unfold destroyAt; rw [hg]
        obtain ⟨s', i1, i2, i3⟩ := ih (pre ++ [.raw]) mid post { s with slots := s.slots.set pre.length .raw } hs
          (by simpa using hm) (fun m hm => hl m (List.mem_cons_of_mem _ hm))
        rw [show (pre ++ [(Slot.raw : Slot α)]).length = pre.length + 1 by simp] at i1
        refine ⟨s', by rw [iter, hd]; exact i1, ?_, i3⟩
        rw [i2, List.replicate_succ]; simp

theorem live_map (xs : List α) : ∀ m ∈ xs.map Slot.live, m.isLive = true := by
  intro m hm
  obtain ⟨x, _, rfl⟩ := List.mem_map.1 hm
  rfl

/-- Destroying a range with an empty slot in it is undefined. -/
theorem destroy_raw (n : Nat) : ∀ (a k : Nat) (s : St α), a ≤ k → k < a + n → s.slots[k]? = some .raw →
    iter destroyAt n a s = .ub := by
  induction n with
  | zero => intro a k s h1 h2; omega
  | succ n ih =>
    intro a k s h1 h2 h3
    rw [iter]
    by_cases hk : k = a
    · subst hk
      have : destroyAt k s = .ub := by unfold destroyAt; rw [h3]
      rw [this]; rfl
    · cases hd : destroyAt a s with
      | ub => rfl
      | threw t =>
        unfold destroyAt at hd
        split at hd <;> cases hd
      | ret t =>
        have ht : t.slots[k]? = some .raw := by
          unfold destroyAt at hd
          split at hd
          · cases hd
            show (s.slots.set a .raw)[k]? = _
            rw [List.getElem?_set_ne (by omega)]; exact h3
          · cases hd
        exact ih (a + 1) k t (by omega) (by omega) ht

theorem assign_any (ok : Nat → Bool) (ys : List α) : ∀ (pre : List (Slot α)) (zs : List α) (post : List (Slot α)) (s : St α),
    s.slots = pre ++ zs.map .live ++ post → zs.length = ys.length →
    (∃ s', assignAll ok pre.length ys s = .ret s' ∧ s'.slots = pre ++ ys.map .live ++ post ∧ s'.lost = s.lost) ∨
    (∃ s' k, assignAll ok pre.length ys s = .threw s' ∧ k < ys.length ∧
      s'.slots = pre ++ (ys.take k ++ zs.drop k).map .live ++ post ∧ s'.lost = s.lost) := by
  induction ys with
  | nil =>
    intro pre zs post s h hm
    obtain rfl := List.eq_nil_of_length_eq_zero hm
    exact Or.inl ⟨s, rfl, by simpa using h, rfl⟩
  | cons y ys ih =>
    intro pre zs post s h hm
    cases zs with
    | nil => cases hm
    | cons z zs =>
      have hg : s.slots[pre.length]? = some (.live z) := by rw [h]; simp
      have hs : s.slots.set pre.length (.live y) = pre ++ [.live y] ++ zs.map .live ++ post := by
        rw [h, List.append_assoc, List.set_append_right _ _ (Nat.le_refl _)]; simp
      rw [assignAll]
      have ha : assignAt ok pre.length y s = if ok s.calls then
          .ret { s with slots := s.slots.set pre.length (.live y), calls := s.calls + 1 }
          else .threw { s with calls := s.calls + 1 } := by unfold assignAt; rw [hg]
      rw [ha]
      by_cases hok : ok s.calls = true
      · rw [if_pos hok]
        simp only [Res.andThen]
        have := ih (pre ++ [.live y]) zs post
          { s with slots := s.slots.set pre.length (.live y), calls := s.calls + 1 } hs (by simpa using hm)
        rw [show (pre ++ [Slot.live y]).length = pre.length + 1 by simp] at this
        rcases this with ⟨s', i1, i2, i4⟩ | ⟨s', k, i1, i2, i3, i4⟩
        · exact Or.inl ⟨s', i1, by simpa using i2, i4⟩
        · exact Or.inr ⟨s', k + 1, i1, by simpa using i2, by simpa using i3, i4⟩
      · rw [if_neg hok]
        exact Or.inr ⟨_, 0, rfl, by simp, by simpa using h, rfl⟩

theorem clean_iff {v : Vec α} {xs : List α} {t : List (Slot α)} (h : v.st.slots = xs.map .live ++ t)
    (hs : v.size = xs.length) : Clean v ↔ ∀ m ∈ t, m = .raw := by
  unfold Clean
  rw [h, hs, List.drop_left' (by simp)]

/-- The objects of `v'` are its elements and no others, none was overwritten, if that was so before. -/
def Keeps (v v' : Vec α) : Prop := Clean v → Clean v' ∧ v'.st.lost = v.st.lost

theorem reserve_any (e : Env) (need : Nat) (v : Vec α) (xs : List α) (h : Usable v xs) :
    (∃ v', reserveV e need v = .ret v' ∧ Usable v' xs ∧ need ≤ v'.st.slots.length ∧ v'.st.calls = v.st.calls ∧
      Keeps v v') ∨
    reserveV e need v = .threw v := by
  unfold reserveV
  by_cases hn : need ≤ v.st.slots.length
  · rw [if_pos hn]; exact Or.inl ⟨v, rfl, h, hn, rfl, fun hc => ⟨hc, rfl⟩⟩
  · rw [if_neg hn]
    cases e.grow v.st.calls with
    | none => exact Or.inr rfl
    | some x =>
      obtain ⟨h1, t, h2⟩ := h
      have hsl : v.st.slots ++ List.replicate (need - v.st.slots.length + x) Slot.raw =
          xs.map .live ++ (t ++ List.replicate (need - v.st.slots.length + x) .raw) := by rw [h2, List.append_assoc]
      refine Or.inl ⟨_, rfl, ⟨h1, _, hsl⟩, ?_, rfl, fun hc => ⟨?_, rfl⟩⟩
      · show need ≤ (v.st.slots ++ _).length
        rw [List.length_append, List.length_replicate]; omega
      · have hc := (clean_iff h2 h1).1 hc
        refine (clean_iff (v := { v with st := { v.st with
          slots := v.st.slots ++ List.replicate (need - v.st.slots.length + x) .raw } }) hsl h1).2 fun m hm => ?_
        rcases List.mem_append.1 hm with hm | hm
        · exact hc m hm
        · exact (List.mem_replicate.1 hm).2

theorem usable_split {v : Vec α} {xs : List α} (h : Usable v xs) {n : Nat} (hn : v.size + n ≤ v.st.slots.length) :
    ∃ mid post, v.st.slots = xs.map .live ++ mid ++ post ∧ mid.length = n ∧
      (Clean v → (∀ m ∈ mid, m = .raw) ∧ ∀ m ∈ post, m = .raw) := by
  obtain ⟨h1, t, h2⟩ := h
  refine ⟨t.take n, t.drop n, by rw [List.append_assoc, List.take_append_drop]; exact h2, ?_, fun hc => ?_⟩
  · have : v.st.slots.length = xs.length + t.length := by rw [h2]; simp
    rw [List.length_take]; omega
  · have hc := (clean_iff h2 h1).1 hc
    exact ⟨fun m hm => hc m (List.mem_of_mem_take hm), fun m hm => hc m (List.mem_of_mem_drop hm)⟩

/-- Resizing, for both constructors. -/
theorem resize_any (e : Env) (ok : Nat → Bool) (n : Nat) (x : α) (v : Vec α) (xs : List α) (h : Usable v xs) :
    (∃ v', resizeX e ok n x v = .ret v' ∧ Usable v' (xs.take n ++ List.replicate (n - xs.length) x) ∧ Keeps v v') ∨
    (∃ v', resizeX e ok n x v = .threw v' ∧ Usable v' xs) := by
  unfold resizeX
  rcases reserve_any e n v xs h with ⟨v1, r1, r2, r3, r4, r5⟩ | r1
  · rw [r1]
    simp only [Res.andThen]
    have hs := r2.1
    by_cases hn : n < v1.size
    · rw [if_pos hn]
      obtain ⟨_, t, ht⟩ := r2
      obtain ⟨s', d1, d2, d3, d4⟩ := destroy_mid (v1.size - n) ((xs.take n).map .live) ((xs.drop n).map .live) t v1.st
        (by rw [ht, ← List.map_append, List.take_append_drop]) (by simp; omega) (live_map _)
      rw [show ((xs.take n).map Slot.live).length = n by simp; omega] at d1
      rw [d1]
      have hsz : n = (xs.take n ++ List.replicate (n - xs.length) x).length := by simp; omega
      have hsl : (⟨s', n⟩ : Vec α).st.slots = (xs.take n ++ List.replicate (n - xs.length) x).map .live ++
          (List.replicate (v1.size - n) .raw ++ t) := by
        show s'.slots = _
        rw [d2, show n - xs.length = 0 by omega]; simp
      refine Or.inl ⟨_, rfl, ⟨hsz, _, hsl⟩, fun hc => ?_⟩
      obtain ⟨c1, c2⟩ := r5 hc
      refine ⟨(clean_iff hsl hsz).2 fun m hm => ?_, d4.trans c2⟩
      rcases List.mem_append.1 hm with hm | hm
      · exact (List.mem_replicate.1 hm).2
      · exact (clean_iff ht hs).1 c1 m hm
    · rw [if_neg hn]
      obtain ⟨mid, post, hm, hl, hcl⟩ := usable_split r2 (n := n - v1.size) (by omega)
      have hb := build_any ok (List.replicate (n - v1.size) x) (xs.map .live) mid post v1.st hm (by simpa using hl)
      rw [show (xs.map Slot.live).length = v1.size by simp; omega] at hb
      rcases hb with ⟨s', b1, b2, b3, b4⟩ | ⟨s', k, b1, b2, b3, _, b5⟩
      · rw [b1]
        have hsz : n = (xs.take n ++ List.replicate (n - xs.length) x).length := by simp; omega
        have hsl : (⟨s', n⟩ : Vec α).st.slots = (xs.take n ++ List.replicate (n - xs.length) x).map .live ++ post := by
          show s'.slots = _
          rw [b2, List.take_of_length_le (by omega), List.map_append, hs]
        refine Or.inl ⟨_, rfl, ⟨hsz, _, hsl⟩, fun hc => ?_⟩
        obtain ⟨c1, c2⟩ := r5 hc
        exact ⟨(clean_iff hsl hsz).2 (hcl c1).2, (b4 (hcl c1).1).trans c2⟩
      · rw [b1]
        exact Or.inr ⟨_, rfl, hs, _, by show s'.slots = _; rw [b5, List.append_assoc]⟩
  · rw [r1]; exact Or.inr ⟨v, rfl, h⟩

end Ustl.Raw
