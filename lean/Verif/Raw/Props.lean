import Verif.Raw.Lemmas
/-!
# Raw storage: properties (C76)

`EmptyAt s a n`, `HoldsAt s a n f`: the `n` slots from `a` are empty, hold `f 0`, `f 1`, ... `Now s s' a n g`:
from `s` to `s'` the slots `a .. a + n` became `g a`, ..., no other slot changed and no object was lost.
-/
namespace Ustl.Raw
variable {α : Type _}

/-- The `n` slots from `a` are inside the region and hold no object. -/
def EmptyAt (s : St α) (a n : Nat) : Prop := ∀ j < n, s.slots[a + j]? = some .raw
/-- The `n` slots from `a` hold `f 0`, `f 1`, ... -/
def HoldsAt (s : St α) (a n : Nat) (f : Nat → α) : Prop := ∀ j < n, s.slots[a + j]? = some (.live (f j))
/-- Slots `a .. a + n` are now as `g` says, the others as before, and no object was overwritten. -/
def Now (s s' : St α) (a n : Nat) (g : Nat → Slot α) : Prop :=
  s'.lost = s.lost ∧ ∀ i, s'.slots[i]? = if a ≤ i ∧ i < a + n then some (g (i - a)) else s.slots[i]?
/-- The next `n` constructor calls return. -/
def Returns (ok : Nat → Bool) (s : St α) (n : Nat) : Prop := ∀ j < n, ok (s.calls + j) = true

theorem fill_ret (ok : Nat → Bool) (v : α) (a n : Nat) (s : St α) (hok : Returns ok s n) (he : EmptyAt s a n) :
    ∃ s', iter (fun i => constructAt ok i v) n a s = .ret s' ∧ s'.calls = s.calls + n ∧
      Now s s' a n (fun _ => .live v) := by
  obtain ⟨s', h1, h2, h3, h4⟩ := iter_construct ok (fun _ => v) n a 0 s hok (by simpa [EmptyAt] using he)
  refine ⟨s', ?_, h2, h3, by simpa using h4⟩
  rw [← h1, iter_shift (fun i => constructAt ok i v)]; rfl

/-- **C76.** `uninitialized_default_construct` and `uninitialized_value_construct` of a class type construct every
slot of the range once, and nothing else, for a range inside one half of the address space (on a 64-bit machine
every range a program can have, with 32 bits those not crossing the middle). -/
theorem raw_default_construct_partial (w sz base : Nat) (hw : 0 < w) (hs : 0 < sz) (hz : sz ≤ 2 ^ (w - 1))
    (ok : Nat → Bool) (dflt : α) (i n fuel : Nat) (s : St α) (hf : n < fuel)
    (ho : OneHalf w sz base (base + (i + n) * sz)) (hok : Returns ok s n) (he : EmptyAt s i n) :
    ∃ s', defaultConstruct w sz base ok dflt fuel (base + i * sz) (base + (i + n) * sz) s = some (.ret s') ∧
      valueConstruct w sz base ok dflt fuel (base + i * sz) (base + (i + n) * sz) s = some (.ret s') ∧
      Now s s' i n (fun _ => .live dflt) := by
  obtain ⟨s', h1, _, h3⟩ := fill_ret ok dflt i n s hok he
  have h := ptrLoop_iter w sz base hw hs (fun i => constructAt ok i dflt) i n fuel s hf ho hz
  rw [h1] at h
  exact ⟨s', h, h, h3⟩

example : ∃ s', defaultConstruct 64 8 0x1000 (fun _ => true) (7 : Nat) 4 (0x1000 + 1 * 8) (0x1000 + (1 + 2) * 8)
    { slots := [.live 1, .raw, .raw, .raw] } = some (.ret s') ∧ s'.slots = [.live 1, .live 7, .live 7, .raw] :=
  ⟨_, rfl, rfl⟩
example : OneHalf 64 8 0x1000 (0x1000 + (1 + 2) * 8) := Or.inl (by decide)

/-- **C76.** The `_n` forms are the range forms: `first + n` is the end of the `n` slots. -/
theorem raw_n_forms (w sz base i n : Nat) (h : base + (i + n) * sz < 2 ^ w) :
    plus w sz (base + i * sz) n = base + (i + n) * sz := by
  unfold plus
  rw [show base + i * sz + n * sz = base + (i + n) * sz by rw [Nat.add_mul]; omega, Nat.mod_eq_of_lt h]

example : plus 64 8 (0x1000 + 1 * 8) 2 = 0x1000 + (1 + 2) * 8 := by decide

/-- **C76.** For a POD type the range is zeroed, and nothing outside it is touched; an inverted range is left alone. -/
theorem raw_pod_construct (zero : α) (first last : Nat) (s : St α)
    (h : (first ≤ last ∧ last ≤ s.slots.length) ∨ last < first ∧ first ≤ s.slots.length) :
    ∃ s', podConstruct zero first last s = .ret s' ∧ s'.slots.length = s.slots.length ∧
      Now s s' first (last - first) (fun _ => .live zero) := by
  refine ⟨_, if_pos (by omega), ?_, rfl, fun i => ?_⟩
  · simp only [List.length_append, List.length_take, List.length_replicate, List.length_drop]; omega
  · simp only [List.getElem?_append, List.length_append, List.length_take, List.length_replicate,
      List.getElem?_take, List.getElem?_replicate, List.getElem?_drop]
    by_cases h1 : i < first
    · rw [if_pos (by omega), if_pos (by omega), if_pos h1, if_neg (by omega)]
    · by_cases h2 : i < last
      · rw [if_pos (by omega), if_neg (by omega), if_pos (by omega), if_pos (by omega)]
      · rw [if_neg (by omega), if_neg (by omega)]
        congr 1; omega

example : ∃ s', podConstruct (0 : Nat) 1 3 { slots := [.live 5, .raw, .live 6, .raw] } = .ret s' ∧
    s'.slots = [.live 5, .live 0, .live 0, .raw] := ⟨_, rfl, rfl⟩

/-- **C76.** `destroy (first, last)` runs the destructor of every object of the range once and of no other one; for a
POD type it does nothing. -/
theorem raw_destroy_partial (w sz base : Nat) (hw : 0 < w) (hs : 0 < sz) (hz : sz ≤ 2 ^ (w - 1)) (i n fuel : Nat)
    (s : St α) (f : Nat → α) (hf : n < fuel) (ho : OneHalf w sz base (base + (i + n) * sz)) (hh : HoldsAt s i n f) :
    (∃ s', destroyRange w sz base false fuel (base + i * sz) (base + (i + n) * sz) s = some (.ret s') ∧
      Now s s' i n (fun _ => .raw)) ∧
    destroyRange w sz base true fuel (base + i * sz) (base + (i + n) * sz) s = some (.ret s) := by
  obtain ⟨s', h1, _, h3, h4⟩ := iter_destroy n i s (fun j hj => ⟨f j, hh j hj⟩)
  refine ⟨⟨s', ?_, h3, h4⟩, if_pos rfl⟩
  have h := ptrLoop_iter w sz base hw hs destroyAt i n fuel s hf ho hz
  rw [h1] at h
  unfold destroyRange
  rw [if_neg (by decide)]; exact h

example : ∃ s', destroyRange 64 8 0x1000 false 4 (0x1000 + 1 * 8) (0x1000 + (1 + 2) * 8)
    { slots := [.live 1, .live 2, .live 3, .live (4 : Nat)] } = some (.ret s') ∧
    s'.slots = [.live 1, .raw, .raw, .live 4] := ⟨_, rfl, rfl⟩

/-- **C76.** An empty range is left alone wherever it is in the lower half, the null pointer included. -/
theorem raw_empty (w sz base : Nat) (hw : 0 < w) (hs : 0 < sz) (hz : sz ≤ 2 ^ (w - 1)) (hb : base < 2 ^ (w - 1))
    (body : Nat → St α → Res (St α)) (fuel : Nat) (hf : 0 < fuel) (s : St α) :
    ptrLoop w sz base body fuel base base s = some (.ret s) := by
  have h := ptrLoop_iter w sz base hw hs body 0 0 fuel s hf (Or.inl (by simpa using hb)) hz
  simpa [iter] using h

example : ptrLoop 64 24 0 (fun _ _ => .ub) 1 0 0 ({ slots := [] } : St Nat) = some (.ret { slots := [] }) := rfl

/-- **C76 fails** for a range that crosses the middle of the address space (2 GB with 32-bit pointers): addresses are
compared as signed numbers, so the loop ends at once and no slot is constructed (or destroyed). -/
theorem raw_half_violated (w sz base n : Nat) (body : Nat → St α → Res (St α)) (fuel : Nat)
    (hf : 0 < fuel) (s : St α) (hb : base < 2 ^ (w - 1)) (h1 : 2 ^ (w - 1) + sz ≤ base + n * sz)
    (h2 : base + n * sz < 2 ^ w) : ptrLoop w sz base body fuel base (base + n * sz) s = some (.ret s) := by
  obtain ⟨fuel, rfl⟩ : ∃ f, fuel = f + 1 := ⟨fuel - 1, by omega⟩
  unfold ptrLoop
  have hm : (base + n * sz + 2 ^ w - sz) % 2 ^ w = base + n * sz - sz := by
    rw [show base + n * sz + 2 ^ w - sz = (base + n * sz - sz) + 2 ^ w by omega, Nat.add_mod_right,
      Nat.mod_eq_of_lt (by omega)]
  rw [hm]
  refine sLoop_stop _ _ _ _ _ _ _ _ ?_
  have hpi : ((2 : Int) ^ w) = ((2 ^ w : Nat) : Int) := by push_cast; rfl
  rw [signed_high (by omega), signed_low hb, hpi]
  omega

example : defaultConstruct 32 4 0x7ffffff8 (fun _ => true) (7 : Nat) 9 0x7ffffff8 (0x7ffffff8 + 4 * 4)
    { slots := [.raw, .raw, .raw, .raw] } = some (.ret { slots := [.raw, .raw, .raw, .raw] }) := rfl

/-- **C76 fails** for the empty range in the middle of the address space: the body runs outside the range. -/
theorem raw_half_empty_violated (w sz : Nat) (hw : 0 < w) (hs : 0 < sz) (hz : sz ≤ 2 ^ (w - 1))
    (body : Nat → St α → Res (St α)) (fuel : Nat) (s : St α) (hb : body 0 s = .ub) :
    ptrLoop w sz (2 ^ (w - 1)) body (fuel + 1) (2 ^ (w - 1)) (2 ^ (w - 1)) s = some .ub := by
  have hp := half w hw
  unfold ptrLoop
  have hm : (2 ^ (w - 1) + 2 ^ w - sz) % 2 ^ w = 2 ^ (w - 1) - sz := by
    rw [show 2 ^ (w - 1) + 2 ^ w - sz = (2 ^ (w - 1) - sz) + 2 ^ w by omega, Nat.add_mod_right,
      Nat.mod_eq_of_lt (by omega)]
  have hpi : ((2 : Int) ^ w) = ((2 ^ w : Nat) : Int) := by push_cast; rfl
  have hc : signed w (2 ^ (w - 1)) ≤ signed w (2 ^ (w - 1) - sz) := by
    rw [signed_high (Nat.le_refl _), signed_low (by omega), hpi]
    have : ((2 ^ (w - 1) : Nat) : Int) ≤ ((2 ^ w : Nat) : Int) := by omega
    omega
  rw [hm, sLoop, if_pos hc, if_pos ⟨Nat.le_refl _, by simp⟩]
  simp [hb]

example : destroyRange 32 4 0x80000000 false 9 0x80000000 0x80000000 ({ slots := [] } : St Nat) = some .ub := rfl

/-- **C76.** `uninitialized_fill` and `uninitialized_fill_n` put a copy of the value in every slot of the range, once,
and touch nothing else; the counting form for every `size_t`, the largest included. -/
theorem raw_fill (w : Nat) (ok : Nat → Bool) (v : α) (a n fuel : Nat) (s : St α) (hn : n < 2 ^ w) (hf : n < fuel)
    (hok : Returns ok s n) (he : EmptyAt s a n) :
    ∃ s', uninitFill ok v a (a + n) s = .ret s' ∧ uninitFillN w ok v a n fuel s = some (.ret s') ∧
      s'.calls = s.calls + n ∧ Now s s' a n (fun _ => .live v) := by
  obtain ⟨s', h1, h2, h3⟩ := fill_ret ok v a n s hok he
  refine ⟨s', ?_, ?_, h2, h3⟩
  · unfold uninitFill; rw [upLoop_iter, h1]
  · unfold uninitFillN
    rw [cntLoop_all w _ n 0 fuel s hf hn, iter_shift (fun i => constructAt ok i v), ← h1]; rfl

example : ∃ s', uninitFillN 64 (fun _ => true) (7 : Nat) 1 2 3 { slots := [.live 1, .raw, .raw, .raw] } =
    some (.ret s') ∧ s'.slots = [.live 1, .live 7, .live 7, .raw] := ⟨_, rfl, rfl⟩

/-- **C76.** `uninitialized_copy`, `uninitialized_move` and their counting forms construct every slot of the
destination from the object at the same place of the source, and return the end of the destination. The source objects
stay as they are (copying: `mv = id`) or as the move constructor leaves them; nothing else changes. -/
theorem raw_copy (w : Nat) (ok : Nat → Bool) (mv : α → α) (a d n fuel : Nat) (f : Nat → α) (s : St α)
    (hn : n < 2 ^ w) (hf : n < fuel) (hok : Returns ok s n) (hh : HoldsAt s a n f) (he : EmptyAt s d n) :
    ∃ s', uninitCopy ok mv a (a + n) d s = .ret (s', d + n) ∧ uninitCopyN w ok mv a n d fuel s = some (.ret s') ∧
      s'.lost = s.lost ∧ HoldsAt s' d n f ∧ HoldsAt s' a n (fun j => mv (f j)) ∧
      ∀ i, ¬ (d ≤ i ∧ i < d + n) → ¬ (a ≤ i ∧ i < a + n) → s'.slots[i]? = s.slots[i]? := by
  obtain ⟨s', h1, _, h3, h4⟩ := iter_copy ok mv f n a d 0 s hok (by simpa [HoldsAt] using hh)
    (by simpa [EmptyAt] using he)
  refine ⟨s', uninitCopy_ret ok mv a d n 0 s s' h1, ?_, h3, fun j hj => ?_, fun j hj => ?_, fun i hi1 hi2 => ?_⟩
  · unfold uninitCopyN
    rw [cntLoop_all w _ n 0 fuel s hf hn, h1]
  · rw [h4, if_pos (by omega), Nat.add_sub_cancel_left]
  · rw [h4, if_neg, if_pos (by omega), Nat.add_sub_cancel_left]
    intro hc
    have e1 := hh j hj
    have e2 := he (a + j - d) (by omega)
    rw [show d + (a + j - d) = a + j by omega, e1] at e2; cases e2
  · rw [h4, if_neg (by omega), if_neg (by omega)]

example : ∃ s', uninitCopy (fun _ => true) (fun _ => 0) 0 2 3 { slots := [.live 5, .live (6 : Nat), .raw, .raw, .raw] }
    = .ret (s', 5) ∧ s'.slots = [.live 0, .live 0, .raw, .live 5, .live 6] := 
  ⟨_, by simp [uninitCopy, copyOne, look, constructAt, Res.andThen, Slot.isLive]; rfl, rfl⟩

/-- The call after `k` that return throws. -/
def ThrowsAfter (ok : Nat → Bool) (s : St α) (k : Nat) : Prop :=
  (∀ j < k, ok (s.calls + j) = true) ∧ ok (s.calls + k) = false

/-- **C76.** When the constructor of element `k` throws, the `k` elements before it stay constructed and the other slots
empty, in all the filling algorithms. -/
theorem raw_fill_throw (w : Nat) (ok : Nat → Bool) (v : α) (a n k fuel : Nat) (s : St α) (hn : n < 2 ^ w)
    (hf : n < fuel) (hk : k < n) (ht : ThrowsAfter ok s k) (he : EmptyAt s a n) :
    ∃ s', uninitFill ok v a (a + n) s = .threw s' ∧ uninitFillN w ok v a n fuel s = some (.threw s') ∧
      Now s s' a k (fun _ => .live v) := by
  obtain ⟨s', h1, h2, h3⟩ := fill_ret ok v a k s ht.1 (fun j hj => he j (by omega))
  have hth : iter (fun i => constructAt ok i v) n a s = .threw { s' with calls := s'.calls + 1 } := by
    obtain ⟨m, rfl⟩ : ∃ m, n = k + (m + 1) := ⟨n - k - 1, by omega⟩
    rw [iter_split _ k (m + 1) a s s' h1, iter]
    have hr : s'.slots[a + k]? = some .raw := by
      rw [h3.2, if_neg (by omega)]; exact he k (by omega)
    have hc : constructAt ok (a + k) v s' = .threw { s' with calls := s'.calls + 1 } := by
      unfold constructAt; rw [hr]; dsimp only
      rw [if_neg (by rw [h2, ht.2]; decide)]
    rw [hc]; rfl
  refine ⟨{ s' with calls := s'.calls + 1 }, ?_, ?_, h3⟩
  · unfold uninitFill; rw [upLoop_iter, hth]
  · unfold uninitFillN
    rw [cntLoop_all w _ n 0 fuel s hf hn, iter_shift (fun i => constructAt ok i v), ← hth]; rfl

example : ThrowsAfter (fun c => c == 0) ({ slots := [.raw, .raw, .raw] } : St Nat) 1 ∧
    EmptyAt ({ slots := [.raw, .raw, .raw] } : St Nat) 1 2 := by
  refine ⟨⟨by simp, rfl⟩, fun j hj => ?_⟩
  rcases (by omega : j = 0 ∨ j = 1) with rfl | rfl <;> rfl

/-- **C76.** The same for the copying and moving algorithms. -/
theorem raw_copy_throw (w : Nat) (ok : Nat → Bool) (mv : α → α) (a d n k fuel : Nat) (f : Nat → α) (s : St α)
    (hn : n < 2 ^ w) (hf : n < fuel) (hk : k < n) (ht : ThrowsAfter ok s k) (hh : HoldsAt s a n f)
    (he : EmptyAt s d n) :
    ∃ s' r, uninitCopy ok mv a (a + n) d s = .threw (s', r) ∧ uninitCopyN w ok mv a n d fuel s = some (.threw s') ∧
      s'.lost = s.lost ∧ HoldsAt s' d k f ∧ EmptyAt s' (d + k) (n - k) := by
  obtain ⟨s', h1, h2, h3, h4⟩ := iter_copy ok mv f k a d 0 s ht.1
    (fun j hj => by simpa [HoldsAt] using hh j (by omega)) (fun j hj => by simpa using he j (by omega))
  have hne : ∀ i j, i < n → j < n → a + i ≠ d + j := by
    intro i j hi hj e
    have e1 := hh i hi
    have e2 := he j hj
    rw [e, e2] at e1; cases e1
  have hr : ∀ j, j < n → k ≤ j → s'.slots[d + j]? = some .raw := by
    intro j hj hkj
    rw [h4, if_neg (by omega), if_neg]
    · exact he j hj
    · intro hc
      have := hne (d + j - a) j (by omega) hj; omega
  have hth : iter (fun i => copyOne ok mv (a + i) (d + i)) n 0 s = .threw { s' with calls := s'.calls + 1 } := by
    obtain ⟨m, rfl⟩ : ∃ m, n = k + (m + 1) := ⟨n - k - 1, by omega⟩
    rw [iter_split _ k (m + 1) 0 s s' h1, iter, Nat.zero_add]
    have hs : s'.slots[a + k]? = some (.live (f k)) := by
      have := hne k
      rw [h4, if_neg, if_neg (by omega)]
      · exact hh k (by omega)
      · intro hc
        have := hne k (a + k - d) (by omega) (by omega); omega
    have hc : constructAt ok (d + k) (f k) s' = .threw { s' with calls := s'.calls + 1 } := by
      unfold constructAt; rw [hr k (by omega) (Nat.le_refl _)]; dsimp only
      rw [if_neg (by rw [h2, ht.2]; decide)]
    have hc2 : copyOne ok mv (a + k) (d + k) s' = .threw { s' with calls := s'.calls + 1 } := by
      unfold copyOne; rw [look_live hs]; dsimp only; rw [hc]; rfl
    rw [hc2]; rfl
  obtain ⟨r, hr2⟩ := uninitCopy_threw ok mv a d n 0 s _ hth
  refine ⟨{ s' with calls := s'.calls + 1 }, r, by simpa using hr2, ?_, h3, fun j hj => ?_, fun j hj => ?_⟩
  · unfold uninitCopyN
    rw [cntLoop_all w _ n 0 fuel s hf hn, hth]
  · show s'.slots[d + j]? = _
    rw [h4, if_pos (by omega), Nat.add_sub_cancel_left]
  · show s'.slots[d + k + j]? = _
    have := hr (k + j) (by omega) (by omega)
    rw [Nat.add_assoc]; exact this

example : ∃ s', uninitCopyN 64 (fun c => c == 0) id 0 2 2 3 { slots := [.live 5, .live (6 : Nat), .raw, .raw] } =
    some (.threw s') ∧ s'.slots = [.live 5, .live 6, .live 5, .raw] := ⟨_, rfl, rfl⟩

/-- **C76 fails** for exceptions: of the objects already made none is destroyed (C++ requires it), whatever the value
and the place. -/
theorem raw_throw_violated (v : α) (a n : Nat) (s : St α) (hn : 1 < n) (he : EmptyAt s a n) :
    ∃ (ok : Nat → Bool) (s' : St α), uninitFill ok v a (a + n) s = .threw s' ∧ s'.slots[a]? = some (.live v) := by
  obtain ⟨s', h1, _, h3⟩ := raw_fill_throw (n + 1) (fun c => c == s.calls) v a n 1 (n + 1) s
    (Nat.lt_of_lt_of_le (Nat.lt_succ_self n) (Nat.le_of_lt Nat.lt_two_pow_self)) (by omega) hn
    ⟨fun j hj => by obtain rfl : j = 0 := by omega
                    simp, by simp⟩ he
  exact ⟨_, s', h1, by rw [h3.2, if_pos (by omega)]⟩

example : ∃ s', uninitFill (fun c => c == 0) (7 : Nat) 1 3 { slots := [.raw, .raw, .raw] } = .threw s' ∧
    s'.slots = [.raw, .live 7, .raw] := 
  ⟨_, by simp [uninitFill, upLoop, constructAt, Res.andThen, Slot.isLive]; rfl, rfl⟩

/-- **C76.** A temporary buffer has the size asked for, or size 0 when there is no memory. -/
theorem raw_temporary (w : Nat) (p : Option Nat) (n : Nat) (hn : n < 2 ^ (w - 1)) :
    makeTemporaryBuffer w p n = (p, if p = none then 0 else (n : Int)) := by
  unfold makeTemporaryBuffer
  cases p with
  | none =>
    have : (0 : Nat) < 2 ^ (w - 1) := Nat.pos_of_ne_zero (by simp)
    simp [signed]
  | some q => simp [signed_low hn]

example : makeTemporaryBuffer 64 (some 16) 5 = (some 16, 5) ∧ makeTemporaryBuffer 64 none 5 = (none, 0) := by decide

end Ustl.Raw
