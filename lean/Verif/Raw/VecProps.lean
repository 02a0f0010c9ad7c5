import Verif.Raw.Vec
import Verif.Raw.Props
/-! # vector when element operations throw: properties (C77) -/
namespace Ustl.Raw
variable {α : Type _}

/-- Appending, whatever throws. -/
theorem append_any (e : Env) (ys : List α) (v : Vec α) (xs : List α) (h : Usable v xs) :
    (∃ v', appendX e ys v = .ret v' ∧ Usable v' (xs ++ ys) ∧ Keeps v v') ∨
    (∃ v', appendX e ys v = .threw v' ∧ v'.st.calls = v.st.calls ∧ Usable v' xs) ∨
    (∃ v' k mid post, appendX e ys v = .threw v' ∧ k < ys.length ∧ v'.size = xs.length + ys.length ∧
      v'.st.calls = v.st.calls + (k + 1) ∧ e.copyOk (v.st.calls + k) = false ∧ mid.length = ys.length - k ∧
      v'.st.slots = xs.map .live ++ ((ys.take k).map .live ++ mid) ++ post ∧
      (Clean v → mid = List.replicate (ys.length - k) .raw)) := by
  unfold appendX
  rcases reserve_any e (v.size + ys.length) v xs h with ⟨v1, r1, r2, r3, r4, r5⟩ | r1
  · rw [r1]
    simp only [Res.andThen]
    have hs := r2.1
    have hsz : v.size = xs.length := h.1
    obtain ⟨mid, post, hm, hl, hcl⟩ := usable_split r2 (n := ys.length) (by omega)
    have hb := build_any e.copyOk ys (xs.map .live) mid post v1.st hm hl
    rw [show (xs.map Slot.live).length = v1.size by simp; omega] at hb
    rcases hb with ⟨s', b1, b2, b3, b4⟩ | ⟨s', k, b1, b2, b3, b4, b5⟩
    · rw [b1]
      have hsz2 : v1.size + ys.length = (xs ++ ys).length := by simp; omega
      have hsl : (⟨s', v1.size + ys.length⟩ : Vec α).st.slots = (xs ++ ys).map .live ++ post := by
        show s'.slots = _
        rw [b2, List.map_append]
      refine Or.inl ⟨_, rfl, ⟨hsz2, post, hsl⟩, fun hc => ?_⟩
      obtain ⟨c1, c2⟩ := r5 hc
      exact ⟨(clean_iff hsl hsz2).2 (hcl c1).2, (b4 (hcl c1).1).trans c2⟩
    · rw [b1]
      refine Or.inr (Or.inr ⟨_, k, mid.drop k, post, rfl, b2, by simp; omega, by show s'.calls = _; rw [b3, r4],
        by rw [← r4]; exact b4, by simp [hl], b5, fun hc => ?_⟩)
      exact List.eq_replicate_iff.2 ⟨by simp [hl], fun m hm' => (hcl (r5 hc).1).1 m (List.mem_of_mem_drop hm')⟩
  · rw [r1]; exact Or.inr (Or.inl ⟨v, rfl, rfl, h⟩)

/-- Inserting, whatever throws. -/
theorem insert_any (e : Env) (ip : Nat) (ys : List α) (v : Vec α) (xs : List α) (h : Usable v xs) (hip : ip ≤ xs.length) :
    (∃ v', insertX e ip ys v = .ret v' ∧ Usable v' (xs.take ip ++ ys ++ xs.drop ip) ∧ Keeps v v') ∨
    (∃ v', insertX e ip ys v = .threw v' ∧ v'.st.calls = v.st.calls ∧ Usable v' xs) ∨
    (∃ v', insertX e ip ys v = .threw v' ∧ v'.st.calls ≠ v.st.calls ∧
      ∃ k, k < ys.length ∧ e.copyOk (v.st.calls + k) = false) := by
  unfold insertX
  rcases reserve_any e (v.size + ys.length) v xs h with ⟨v1, r1, r2, r3, r4, r5⟩ | r1
  · rw [r1]
    simp only [Res.andThen]
    have hs := r2.1
    have hsz : v.size = xs.length := h.1
    obtain ⟨mid, post, hm, hl, hcl⟩ := usable_split r2 (n := ys.length) (by omega)
    have ho : (openHole ip ys.length v1).st.slots =
        (xs.take ip).map .live ++ mid ++ ((xs.drop ip).map .live ++ post) := by
      show v1.st.slots.take ip ++ (v1.st.slots.drop v1.size).take ys.length ++
        (v1.st.slots.drop ip).take (v1.size - ip) ++ v1.st.slots.drop (v1.size + ys.length) = _
      have h1 : v1.st.slots.take ip = (xs.take ip).map .live := by
        rw [hm, List.append_assoc, List.take_append_of_le_length (by simpa using hip), ← List.map_take]
      have h2 : v1.st.slots.drop v1.size = mid ++ post := by
        rw [hm, List.append_assoc, hs, show xs.length = (xs.map Slot.live).length by simp, List.drop_left]
      have h3 : v1.st.slots.drop ip = (xs.drop ip).map .live ++ (mid ++ post) := by
        rw [hm, List.append_assoc, List.drop_append_of_le_length (by simpa using hip), ← List.map_drop]
      have h4 : v1.st.slots.drop (v1.size + ys.length) = post := by
        rw [← List.drop_drop, h2, ← hl, List.drop_left]
      rw [h1, h2, h3, h4, ← hl, List.take_left, show v1.size - ip = ((xs.drop ip).map Slot.live).length by simp; omega,
        List.take_left]
      simp
    have hb := build_any e.copyOk ys ((xs.take ip).map .live) mid _ (openHole ip ys.length v1).st ho hl
    rw [show ((xs.take ip).map Slot.live).length = ip by simp; omega] at hb
    rcases hb with ⟨s', b1, b2, b3, b4⟩ | ⟨s', k, b1, b2, b3, b4, b5⟩
    · rw [b1]
      have hsz2 : v1.size + ys.length = (xs.take ip ++ ys ++ xs.drop ip).length := by simp; omega
      have hsl : (⟨s', v1.size + ys.length⟩ : Vec α).st.slots = (xs.take ip ++ ys ++ xs.drop ip).map .live ++ post := by
        show s'.slots = _
        rw [b2]; simp
      refine Or.inl ⟨_, rfl, ⟨hsz2, post, hsl⟩, fun hc => ?_⟩
      obtain ⟨c1, c2⟩ := r5 hc
      exact ⟨(clean_iff hsl hsz2).2 (hcl c1).2, (b4 (hcl c1).1).trans c2⟩
    · rw [b1]
      have hc : (openHole ip ys.length v1).st.calls = v.st.calls := r4
      refine Or.inr (Or.inr ⟨_, rfl, ?_, k, b2, by rw [← hc]; exact b4⟩)
      show s'.calls ≠ _
      rw [b3, hc]; omega
  · rw [r1]; exact Or.inr (Or.inl ⟨v, rfl, rfl, h⟩)

theorem erase_any (ep n : Nat) (v : Vec α) (xs : List α) (h : Usable v xs) (hp : ep + n ≤ xs.length) :
    ∃ v', eraseX ep n v = .ret v' ∧ Usable v' (xs.take ep ++ xs.drop (ep + n)) ∧ Keeps v v' := by
  obtain ⟨hs, t, ht⟩ := h
  have e1 : xs.map Slot.live = (xs.take ep).map .live ++ ((xs.drop ep).take n).map .live ++ (xs.drop (ep + n)).map .live := by
    rw [← List.map_append, ← List.map_append, List.append_assoc, ← List.drop_drop, List.take_append_drop,
      List.take_append_drop]
  have hA : ((xs.take ep).map Slot.live).length = ep := by simp; omega
  obtain ⟨s', d1, d2, d3, d4⟩ := destroy_mid n ((xs.take ep).map .live) (((xs.drop ep).take n).map .live)
    ((xs.drop (ep + n)).map .live ++ t) v.st (by rw [ht, e1]; simp) (by simp; omega) (live_map _)
  rw [hA] at d1
  unfold eraseX
  rw [d1]
  have hsz2 : v.size - n = (xs.take ep ++ xs.drop (ep + n)).length := by simp; omega
  have hsl : s'.slots.take ep ++ (s'.slots.drop (ep + n)).take (v.size - (ep + n)) ++ (s'.slots.drop ep).take n ++
      s'.slots.drop v.size = (xs.take ep ++ xs.drop (ep + n)).map .live ++ (List.replicate n .raw ++ t) := by
    show s'.slots.take ep ++ (s'.slots.drop (ep + n)).take (v.size - (ep + n)) ++ (s'.slots.drop ep).take n ++
      s'.slots.drop v.size = _
    have h1 : s'.slots.take ep = (xs.take ep).map .live := by
      rw [d2, List.append_assoc, List.take_left' hA]
    have h2 : s'.slots.drop ep = List.replicate n .raw ++ ((xs.drop (ep + n)).map .live ++ t) := by
      rw [d2, List.append_assoc, List.drop_left' hA]
    have h3 : s'.slots.drop (ep + n) = (xs.drop (ep + n)).map .live ++ t := by
      rw [← List.drop_drop, h2, List.drop_left' (by simp)]
    have h4 : s'.slots.drop v.size = t := by
      rw [show v.size = (ep + n) + ((xs.drop (ep + n)).map Slot.live).length by simp; omega, ← List.drop_drop, h3,
        List.drop_left]
    rw [h1, h3, h2, h4, show v.size - (ep + n) = ((xs.drop (ep + n)).map Slot.live).length by simp; omega, List.take_left]
    have h5 : (List.replicate n (Slot.raw : Slot α) ++ ((xs.drop (ep + n)).map Slot.live ++ t)).take n =
        List.replicate n Slot.raw := List.take_left' (by simp)
    rw [h5]; simp
  refine ⟨_, rfl, ⟨hsz2, _, hsl⟩, fun hc => ⟨(clean_iff (v := ⟨{ s' with slots := _ }, v.size - n⟩) hsl hsz2).2
    fun m hm => ?_, d4⟩⟩
  rcases List.mem_append.1 hm with hm | hm
  · exact (List.mem_replicate.1 hm).2
  · exact (clean_iff ht hs).1 hc m hm

theorem destroyAll_any (v : Vec α) (xs : List α) (h : Usable v xs) :
    ∃ s', destroyAllX v = .ret s' ∧ ∃ t, v.st.slots = xs.map .live ++ t ∧
      s'.slots = List.replicate xs.length .raw ++ t ∧ s'.lost = v.st.lost := by
  obtain ⟨hs, t, ht⟩ := h
  obtain ⟨s', d1, d2, d3, d4⟩ := destroy_mid v.size [] (xs.map .live) t v.st (by simpa using ht) (by simp; omega) (live_map _)
  exact ⟨s', d1, t, ht, by rw [d2, hs]; simp, d4⟩

theorem assign_step (e : Env) (ys : List α) (dflt : α) (v : Vec α) (xs : List α) (h : Usable v xs) :
    (∃ v', assignX e ys dflt v = .ret v' ∧ Usable v' ys ∧ Keeps v v') ∨
    (∃ v' zs, assignX e ys dflt v = .threw v' ∧ Usable v' zs) := by
  unfold assignX
  rcases resize_any e e.dfltOk ys.length dflt v xs h with ⟨v1, r1, r2, r5⟩ | ⟨v1, r1, r2⟩
  · rw [r1]
    simp only [Res.andThen]
    generalize hz : xs.take ys.length ++ List.replicate (ys.length - xs.length) dflt = zs at r2
    have hzl : zs.length = ys.length := by rw [← hz]; simp; omega
    obtain ⟨hs, t, ht⟩ := r2
    rcases assign_any e.dfltOk ys [] zs t v1.st (by simpa using ht) hzl with ⟨s', a1, a2, a4⟩ | ⟨s', k, a1, a2, a3, a4⟩
    · rw [List.length_nil] at a1
      rw [a1]
      have hsz2 : v1.size = ys.length := by omega
      have hsl : (⟨s', v1.size⟩ : Vec α).st.slots = ys.map .live ++ t := by simpa using a2
      refine Or.inl ⟨_, rfl, ⟨hsz2, t, hsl⟩, fun hc => ?_⟩
      obtain ⟨c1, c2⟩ := r5 hc
      exact ⟨(clean_iff hsl hsz2).2 ((clean_iff ht hs).1 c1), a4.trans c2⟩
    · rw [List.length_nil] at a1
      rw [a1]
      refine Or.inr ⟨_, ys.take k ++ zs.drop k, rfl, ?_, t, by simpa using a3⟩
      show v1.size = _
      simp; omega
  · rw [r1]; exact Or.inr ⟨v1, xs, rfl, r2⟩

/-- **C77.** Every operation of a vector either does what it should, or an exception leaves it, and then the vector
still holds objects in all the slots it counts: its old elements, or a mixture in the case of assignment. An operation
that returns leaves no other objects behind and overwrites none (`Keeps`). Not covered:
a constructor that throws inside `push_back`, `emplace_back`, `emplace`, `insert` (`vec_push_violated`). -/
theorem vec_throw_partial (e : Env) (dflt : α) (op : Op α) (v : Vec α) (xs : List α) (h : Usable v xs) (hp : op.Pre xs.length) :
    (∃ v', step e dflt v op = .ret v' ∧ Usable v' (op.apply dflt xs) ∧ Keeps v v') ∨
    (∃ v', step e dflt v op = .threw v' ∧ (op.holes = false ∨ v'.st.calls = v.st.calls →
      ∃ ys, Usable v' ys ∧ ((∀ zs, op ≠ .assign zs) → ys = xs))) := by
  cases op with
  | append ys =>
    rcases append_any e ys v xs h with h1 | ⟨v', h1, _, h3⟩ | ⟨v', k, _, _, h1, _, _, h4, _⟩
    · exact Or.inl h1
    · exact Or.inr ⟨v', h1, fun _ => ⟨xs, h3, fun _ => rfl⟩⟩
    · refine Or.inr ⟨v', h1, fun hh => ?_⟩
      rcases hh with hh | hh
      · cases hh
      · omega
  | insert ip ys =>
    rcases insert_any e ip ys v xs h hp with h1 | ⟨v', h1, _, h3⟩ | ⟨v', h1, h2, _⟩
    · exact Or.inl h1
    · exact Or.inr ⟨v', h1, fun _ => ⟨xs, h3, fun _ => rfl⟩⟩
    · refine Or.inr ⟨v', h1, fun hh => ?_⟩
      rcases hh with hh | hh
      · cases hh
      · exact absurd hh h2
  | resize n =>
    rcases resize_any e e.dfltOk n dflt v xs h with h1 | ⟨v', h1, h2⟩
    · exact Or.inl h1
    · exact Or.inr ⟨v', h1, fun _ => ⟨xs, h2, fun _ => rfl⟩⟩
  | resizeV n x =>
    rcases resize_any e e.copyOk n x v xs h with h1 | ⟨v', h1, h2⟩
    · exact Or.inl h1
    · exact Or.inr ⟨v', h1, fun _ => ⟨xs, h2, fun _ => rfl⟩⟩
  | assign ys =>
    rcases assign_step e ys dflt v xs h with h1 | ⟨v', zs, h1, h2⟩
    · exact Or.inl h1
    · exact Or.inr ⟨v', h1, fun _ => ⟨zs, h2, fun hh => absurd rfl (hh ys)⟩⟩
  | erase ep n => exact Or.inl (erase_any ep n v xs h hp)
  | clear =>
    obtain ⟨s', d1, t, dt, d2, d3⟩ := destroyAll_any v xs h
    have hsl : (⟨s', 0⟩ : Vec α).st.slots = ([] : List α).map .live ++ (List.replicate xs.length .raw ++ t) := d2
    refine Or.inl ⟨⟨s', 0⟩, by simp only [step, d1, Res.andThen], ⟨rfl, _, hsl⟩, fun hc => ⟨(clean_iff hsl rfl).2
      fun m hm => ?_, d3⟩⟩
    rcases List.mem_append.1 hm with hm | hm
    · exact (List.mem_replicate.1 hm).2
    · exact (clean_iff dt h.1).1 hc m hm
  | reserve n =>
    rcases reserve_any e n v xs h with ⟨v1, r1, r2, _, _, r5⟩ | r1
    · exact Or.inl ⟨v1, r1, r2, r5⟩
    · exact Or.inr ⟨v, r1, fun _ => ⟨xs, h, fun _ => rfl⟩⟩

/-- A vector of 2 elements with room for 3. -/
def two : Vec Nat := ⟨{ slots := [.live 1, .live 2, .raw] }, 2⟩
example : Usable two [1, 2] := ⟨rfl, [.raw], rfl⟩
/-- The third default constructor call throws. -/
example : ∃ v', step { dfltOk := fun c => c != 2 } 0 two (.resize 6) = .threw v' ∧ v'.size = 2 ∧
    v'.st.slots = [.live 1, .live 2, .live 0, .live 0, .raw, .raw] := ⟨_, rfl, rfl, rfl⟩
/-- Assignment of the second element throws. -/
example : ∃ v', step { dfltOk := fun c => c != 1 } 0 two (.assign [7, 8]) = .threw v' ∧ Usable v' [7, 2] :=
  ⟨_, rfl, rfl, [.raw], rfl⟩

/-- A build throws only if some constructor call does. -/
theorem holes_no_throw (e : Env) (dflt : α) (op : Op α) (v : Vec α) (xs : List α) (h : Usable v xs) (hp : op.Pre xs.length)
    (hc : ∀ k, e.copyOk k = true) (v' : Vec α) (ht : step e dflt v op = .threw v') :
    ∃ ys, Usable v' ys ∧ ((∀ zs, op ≠ .assign zs) → ys = xs) := by
  rcases vec_throw_partial e dflt op v xs h hp with ⟨w, h1, _⟩ | ⟨w, h1, h2⟩
  · rw [h1] at ht; cases ht
  · rw [h1] at ht; cases ht
    apply h2
    cases op with
    | append ys =>
      right
      have ht' : appendX e ys v = .threw v' := h1
      rcases append_any e ys v xs h with ⟨_, g1, _⟩ | ⟨_, g1, g2, _⟩ | ⟨_, k, _, _, g1, _, _, _, g5, _⟩
      · rw [g1] at ht'; cases ht'
      · rw [g1] at ht'; cases ht'; exact g2
      · rw [hc] at g5; cases g5
    | insert ip ys =>
      right
      have ht' : insertX e ip ys v = .threw v' := h1
      rcases insert_any e ip ys v xs h hp with ⟨_, g1, _⟩ | ⟨_, g1, g2, _⟩ | ⟨_, g1, _, k, _, g5⟩
      · rw [g1] at ht'; cases ht'
      · rw [g1] at ht'; cases ht'; exact g2
      · rw [hc] at g5; cases g5
    | _ => left; rfl

/-- The vectors a program can have: an empty one, then any operations with proper arguments, each returning or
throwing an exception that the program catches. The copy and move constructors do not throw; the default constructor,
assignment and the allocator may fail at any time, differently each time. -/
inductive Reach (dflt : α) : Vec α → Prop where
  | start : Reach dflt ⟨{ slots := [] }, 0⟩
  | step {v v' : Vec α} (e : Env) (op : Op α) (hv : Reach dflt v) (hc : ∀ k, e.copyOk k = true) (hp : op.Pre v.size)
      (h : step e dflt v op = .ret v' ∨ step e dflt v op = .threw v') : Reach dflt v'

/-- **C77.** For elements whose copy and move constructors do not throw: after any history of operations, with any of
the other element operations and allocations failing on the way, every slot counted as an element holds an object, no
further operation has undefined behaviour, and the destructor destroys every element once. -/
theorem vec_history (dflt : α) (v : Vec α) (h : Reach dflt v) :
    ∃ (xs : List α) (t : List (Slot α)), v.size = xs.length ∧ v.st.slots = xs.map .live ++ t ∧
      (∀ (e : Env) (op : Op α), op.Pre v.size → step e dflt v op ≠ .ub) ∧
      ∃ s', destroyAllX v = .ret s' ∧ s'.slots = List.replicate xs.length .raw ++ t := by
  have hu : ∃ xs, Usable v xs := by
    induction h with
    | start => exact ⟨[], rfl, [], rfl⟩
    | @step v v' e op _ hc hp hs ih =>
      obtain ⟨xs, hx⟩ := ih
      rw [hx.1] at hp
      rcases hs with hs | hs
      · rcases vec_throw_partial e dflt op v xs hx hp with ⟨_, g, g2⟩ | ⟨_, g, _⟩
        · rw [g] at hs; cases hs; exact ⟨_, g2.1⟩
        · rw [g] at hs; cases hs
      · obtain ⟨ys, hy, _⟩ := holes_no_throw e dflt op v xs hx hp hc v' hs
        exact ⟨ys, hy⟩
  obtain ⟨xs, hx⟩ := hu
  obtain ⟨s', d1, t, d2, d3, _⟩ := destroyAll_any v xs hx
  refine ⟨xs, t, hx.1, d2, fun e op hp hu => ?_, s', d1, d3⟩
  rw [hx.1] at hp
  rcases vec_throw_partial e dflt op v xs hx hp with ⟨_, g, _⟩ | ⟨_, g, _⟩ <;> rw [g] at hu <;> cases hu

example : ∃ v : Vec Nat, Reach 0 v ∧ v.size = 2 ∧ v.st.slots = [.live 7, .live 2, .live 0, .raw, .raw, .raw] := by
  refine ⟨_, .step { dfltOk := fun c => c != 5 } (.assign [7, 8]) (.step { dfltOk := fun c => c != 3 } (.resize 6)
    (.step {} (.append [1, 2]) .start (fun _ => rfl) trivial (Or.inl rfl)) (fun _ => rfl) trivial (Or.inr rfl))
    (fun _ => rfl) trivial (Or.inr rfl), rfl, rfl⟩

/-- Histories in which nothing throws. -/
inductive Quiet (dflt : α) : Vec α → Prop where
  | start : Quiet dflt ⟨{ slots := [] }, 0⟩
  | step {v v' : Vec α} (e : Env) (op : Op α) (hv : Quiet dflt v) (hp : op.Pre v.size)
      (h : Raw.step e dflt v op = .ret v') : Quiet dflt v'

/-- **C77, C22.** After any history without exceptions the objects in the vector's storage are exactly its elements and
none was lost on the way, so that the destructor leaves no object behind. -/
theorem vec_no_leak (dflt : α) (v : Vec α) (h : Quiet dflt v) :
    v.st.lost = 0 ∧ ∃ s', destroyAllX v = .ret s' ∧ ∀ m ∈ s'.slots, m = .raw := by
  have hu : ∃ xs, Usable v xs ∧ Clean v ∧ v.st.lost = 0 := by
    induction h with
    | start => exact ⟨[], ⟨rfl, [], rfl⟩, fun m hm => (by cases hm), rfl⟩
    | @step v v' e op _ hp hs ih =>
      obtain ⟨xs, hx, hc, hl⟩ := ih
      rw [hx.1] at hp
      rcases vec_throw_partial e dflt op v xs hx hp with ⟨_, g, g2, g3⟩ | ⟨_, g, _⟩
      · rw [g] at hs; cases hs; exact ⟨_, g2, (g3 hc).1, by rw [(g3 hc).2, hl]⟩
      · rw [g] at hs; cases hs
  obtain ⟨xs, hx, hc, hl⟩ := hu
  obtain ⟨s', d1, t, d2, d3, _⟩ := destroyAll_any v xs hx
  refine ⟨hl, s', d1, fun m hm => ?_⟩
  rw [d3] at hm
  rcases List.mem_append.1 hm with hm | hm
  · exact (List.mem_replicate.1 hm).2
  · exact (clean_iff d2 hx.1).1 hc m hm

example : ∃ v : Vec Nat, Quiet 0 v ∧ v.size = 2 ∧ v.st.slots = [.live 9, .live 2, .raw] := by
  refine ⟨_, .step {} (.erase 1 1) (.step {} (.insert 0 [9]) (.step {} (.append [1, 2]) .start trivial rfl) ?_ rfl) ?_ rfl,
    rfl, rfl⟩
  · show 0 ≤ 2
    decide
  · show 1 + 1 ≤ 3
    decide

/-- **C77 fails** for `push_back` and `emplace_back`: when the constructor throws, the new slot is already counted and
holds nothing, so the destructor of the vector has undefined behaviour. -/
theorem vec_push_violated (e : Env) (dflt x : α) (v : Vec α) (xs : List α) (h : Usable v xs) (hcl : Clean v)
    (ht : e.copyOk v.st.calls = false) (hg : ∀ k, e.grow k ≠ none) :
    ∃ v', step e dflt v (.append [x]) = .threw v' ∧ v'.size = xs.length + 1 ∧ destroyAllX v' = .ub := by
  rcases append_any e [x] v xs h with ⟨v', h1, _⟩ | ⟨v', h1, h2, _⟩ | ⟨v', k, mid, post, h1, h2, h3, _, _, _, h7, h8⟩
  · exfalso
    unfold appendX at h1
    rcases reserve_any e (v.size + [x].length) v xs h with ⟨v1, r1, r2, r3, r4, r5⟩ | r1
    · rw [r1] at h1
      simp only [Res.andThen, build] at h1
      have hs := r2.1
      obtain ⟨mid, post, hm, hl, _⟩ := usable_split r2 (n := 1) (by have := h.1; simp at r3; omega)
      obtain ⟨m, rfl⟩ : ∃ m, mid = [m] := by
        cases mid with
        | nil => cases hl
        | cons m l => cases l with
          | nil => exact ⟨m, rfl⟩
          | cons _ _ => simp at hl
      obtain ⟨s1, c1, _⟩ := constructAt_mid e.copyOk (xs.map .live) post m x v1.st (by simpa using hm)
      rw [show (xs.map Slot.live).length = v1.size by simp; omega, r4, if_neg (by rw [ht]; decide)] at c1
      rw [c1] at h1
      cases h1
    · unfold reserveV at r1
      split at r1
      · cases r1
      · split at r1
        · exact hg _ (by assumption)
        · cases r1
  · exfalso
    unfold appendX at h1
    rcases reserve_any e (v.size + [x].length) v xs h with ⟨v1, r1, r2, r3, r4, r5⟩ | r1
    · rw [r1] at h1
      simp only [Res.andThen, build] at h1
      have hs := r2.1
      obtain ⟨mid, post, hm, hl, _⟩ := usable_split r2 (n := 1) (by have := h.1; simp at r3; omega)
      obtain ⟨m, rfl⟩ : ∃ m, mid = [m] := by
        cases mid with
        | nil => cases hl
        | cons m l => cases l with
          | nil => exact ⟨m, rfl⟩
          | cons _ _ => simp at hl
      obtain ⟨s1, c1, _⟩ := constructAt_mid e.copyOk (xs.map .live) post m x v1.st (by simpa using hm)
      rw [show (xs.map Slot.live).length = v1.size by simp; omega, if_neg (by rw [r4, ht]; decide)] at c1
      rw [c1] at h1
      cases h1
      rw [← r4] at h2
      exact absurd h2 (by show v1.st.calls + 1 ≠ _; omega)
    · unfold reserveV at r1
      split at r1
      · cases r1
      · split at r1
        · exact hg _ (by assumption)
        · cases r1
  · refine ⟨v', h1, h3, ?_⟩
    have hk : k = 0 := by simp at h2; omega
    subst hk
    rw [h8 hcl] at h7
    refine destroy_raw _ 0 xs.length v'.st (by omega) (by rw [h3]; simp) ?_
    rw [h7]
    simp

example : ∃ v', step { copyOk := fun _ => false } 0 two (.append [5]) = .threw v' ∧ v'.size = 3 ∧
    destroyAllX v' = .ub := ⟨_, rfl, rfl, rfl⟩

/-- **C77 fails** for `insert`, `emplace`: the same inside the sequence. -/
theorem vec_insert_violated : ∃ v' : Vec Nat, step { copyOk := fun c => c != 1 } 0 two (.insert 0 [5, 6]) = .threw v' ∧
    v'.size = 4 ∧ v'.st.slots = [.live 5, .raw, .live 1, .live 2] ∧ destroyAllX v' = .ub := ⟨_, rfl, rfl, rfl, rfl⟩

/-- **C77 fails** for `resize`: the elements made before the exception are never destroyed. -/
theorem vec_resize_leak_violated : ∃ (v' : Vec Nat) (s' : St Nat),
    step { dfltOk := fun c => c != 2 } 0 two (.resize 6) = .threw v' ∧ destroyAllX v' = .ret s' ∧
    s'.slots = [.raw, .raw, .live 0, .live 0, .raw, .raw] := ⟨_, _, rfl, rfl, rfl⟩

end Ustl.Raw
