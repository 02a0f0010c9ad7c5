import Verif.Memblock.Lemmas
import Verif.Permute.Props
import Verif.Bytes.Props
/-!
# C18, C19, C20, C21

`Spec.lean` holds the specification: byte strings (`Spec`), the contract (`Pre`), histories (`Hist`),
their byte-string meaning (`SpecHist`) and ownership (`Owns`).
-/
namespace Ustl.Memblock
variable {α : Type _}

/-- The visible byte strings of all objects. -/
def World.views (w : World α) : Nat → List α := fun i => view w.heap (w.obj i)

theorem Owns.ook {w : World α} (ho : Owns w) (i : Nat) : OOK w.heap (w.obj i) := ⟨ho.owned i, ho.linked i⟩

/-- Lifting a single-object effect to the world. -/
theorem lift {w : World α} {i : Nat} {h' : Heap α} {o' : Obj} (hh : HOK w.heap) (ho : Owns w)
    (e : Eff0 w.heap (w.obj i) h' o') :
    let w' : World α := ⟨h', fun k => if k = i then o' else w.obj k⟩
    HOK w'.heap ∧ Owns w' ∧ (∀ k, k ≠ i → w'.views k = w.views k) ∧ w'.views i = view h' o' ∧
    (∀ id b, w.heap.blk id = some b → b.heap = false → w'.heap.blk id = some b) := by
  intro w'
  have hfor : ∀ id b, w.heap.blk id = some b → b.heap = false → w'.heap.blk id = some b :=
    fun id b h1 h2 => e.foreign hh (ho.ook i) h1 h2
  have hoth : ∀ k, k ≠ i → (w.obj k).cap ≠ 0 → ∀ id, (w.obj k).ptr = some (id, 0) → id < w.heap.next →
      h'.blk id = w.heap.blk id := by
    intro k hk hc id hp hlt
    apply e.keep id hlt
    by_cases hci : (w.obj i).cap = 0
    · exact Or.inl hci
    · right; rw [← hp]; exact ho.unique i k (Ne.symm hk) hci hc
  refine ⟨e.hok, ⟨?_, ?_, ?_⟩, ?_, ?_, hfor⟩
  · intro k hc
    by_cases hk : k = i
    · subst hk; simp only [w', if_pos] at hc ⊢; exact e.ook.owned hc
    · simp only [w', if_neg hk] at hc ⊢
      obtain ⟨id, b, h1, h2, h3⟩ := ho.owned k hc
      exact ⟨id, b, h1, by rw [hoth k hk hc id h1 (hh.lt h2)]; exact h2, h3⟩
  · intro k hc
    by_cases hk : k = i
    · subst hk; simp only [w', if_pos] at hc ⊢; exact e.ook.linked hc
    · simp only [w', if_neg hk] at hc ⊢
      rcases ho.linked k hc with h1 | ⟨p, h1, h2⟩
      · exact Or.inl h1
      · exact Or.inr ⟨p, h1, h2.keep (fun b h3 h4 => hfor _ b h3 h4)⟩
  · have key : ∀ k, k ≠ i → o'.cap ≠ 0 → (w.obj k).cap ≠ 0 → o'.ptr ≠ (w.obj k).ptr := by
      intro k hk hc1 hc2
      rcases e.own hc1 with ⟨h1, h2⟩ | ⟨id, h1, h2⟩
      · rw [h2]; exact ho.unique i k (Ne.symm hk) h1 hc2
      · rw [h2]
        obtain ⟨id', b, h3, h4, _⟩ := ho.owned k hc2
        rw [h3]
        intro h5
        cases h5
        have := hh.lt h4
        omega
    intro k l hkl hc1 hc2
    by_cases hk : k = i
    · subst hk
      simp only [w', if_pos, if_neg (Ne.symm hkl)] at hc1 hc2 ⊢
      exact key l (Ne.symm hkl) hc1 hc2
    · by_cases hl : l = i
      · subst hl
        simp only [w', if_pos, if_neg hk] at hc1 hc2 ⊢
        exact Ne.symm (key k hk hc2 hc1)
      · simp only [w', if_neg hk, if_neg hl] at hc1 hc2 ⊢
        exact ho.unique k l hkl hc1 hc2
  · intro k hk
    simp only [World.views, w', if_neg hk]
    apply view_congr
    intro p hp
    by_cases hc : (w.obj k).cap = 0
    · rcases ho.linked k hc with ⟨h1, _⟩ | ⟨p', h1, b, h2, h3, _⟩
      · rw [hp] at h1; cases h1
      · rw [hp] at h1; cases h1
        rw [h2]; exact hfor _ b h2 h3
    · obtain ⟨id, b, h1, h2, _⟩ := ho.owned k hc
      rw [hp] at h1; cases h1
      exact hoth k hk hc id hp (hh.lt h2)
  · simp [World.views, w']

/-- What every step guarantees. -/
def StepOK (w : World α) (op : Op α) (r : Option (Bool × World α)) : Prop :=
  ∃ ok w', r = some (ok, w') ∧ HOK w'.heap ∧ Owns w' ∧
    (∀ id b, w.heap.blk id = some b → b.heap = false → w'.heap.blk id = some b) ∧
    (∀ id b, w'.heap.blk id = some b → b.heap = false → w.heap.blk id = some b) ∧
    (ok = false → w'.views = w.views) ∧ (ok = true → Spec (foreign w.heap) op w.views w'.views)

theorem stepOK_of {w : World α} {op : Op α} {i : Nat} {r : Option (Bool × Heap α × Obj)} (hh : HOK w.heap)
    (ho : Owns w)
    (hr : ∃ ok h' o', r = some (ok, h', o') ∧ (ok = false → h' = w.heap ∧ o' = w.obj i) ∧
      Eff0 w.heap (w.obj i) h' o' ∧ (ok = true → ∀ v', Only w.views v' i (view h' o') →
        Spec (foreign w.heap) op w.views v')) : StepOK w op (w.put i r) := by
  obtain ⟨ok, h', o', h1, h2, h3, h4⟩ := hr
  obtain ⟨g1, g2, g3, g4, g5⟩ := lift hh ho h3
  refine ⟨ok, ⟨h', fun k => if k = i then o' else w.obj k⟩, by rw [h1]; rfl, g1, g2, g5, h3.nofor, ?_, ?_⟩
  · intro hf
    obtain ⟨h5, h6⟩ := h2 hf
    funext k
    by_cases hk : k = i
    · rw [hk, g4, h5, h6]; rfl
    · exact g3 k hk
  · intro hok; exact h4 hok _ ⟨g4, g3⟩

theorem only_same {v v' : Nat → List α} {i : Nat} (h : Only v v' i (v i)) : v' = v := by
  funext k
  by_cases hk : k = i
  · rw [hk]; exact h.1
  · exact h.2 k hk

/-- **C18, C19** every operation, called within its contract in a well-formed state: no undefined
behaviour (in particular no double free, no freeing of or writing to foreign memory, no access outside a
block), ownership is preserved, foreign memory is unchanged, the visible bytes change as specified, and not at
all when the operation throws `bad_alloc`. -/
theorem step_ok (mf : Nat) {rot : List α → Nat → Nat → Nat → Option (List α)} (hr : RotateOK rot)
    (w : World α) (op : Op α) (a : Option (Nat → α)) (hh : HOK w.heap) (ho : Owns w) (hp : Pre mf w op) :
    StepOK w op (step mf rot w op a) := by
  cases op with
  | reserve i n e =>
    apply stepOK_of hh ho
    obtain ⟨ok, h', o', e1, e2, e3, e4, e5, e6⟩ := reserve_spec mf n e a hh (ho.ook i) hp.1 hp.2
    refine ⟨ok, h', o', e1, fun h => ⟨(e2 h).1, (e2 h).2.1⟩, e3.toEff0, fun _ v' hv => only_same (i := i) ?_⟩
    rw [e4] at hv; exact hv
  | resize i n e =>
    apply stepOK_of hh ho
    obtain ⟨ok, h', o', e1, e2, e3, e4⟩ := resize_spec mf n e a hh (ho.ook i) hp
    exact ⟨ok, h', o', e1, fun h => ⟨(e2 h).1, (e2 h).2.1⟩, e3.toEff0, fun h v' hv => ⟨_, (e4 h).1, hv⟩⟩
  | clear i =>
    apply stepOK_of hh ho
    obtain ⟨ok, h', o', e1, e2, e3, e4⟩ := resize_spec mf 0 true a hh (ho.ook i) (by simp)
    refine ⟨ok, h', o', e1, fun h => ⟨(e2 h).1, (e2 h).2.1⟩, e3.toEff0, fun h v' hv => ?_⟩
    have := (e4 h).1.1
    rw [List.length_eq_zero_iff] at this
    rw [this] at hv; exact hv
  | assignForeign i p n =>
    apply stepOK_of hh ho
    have hlen : (foreign w.heap p n).length = n := by
      obtain ⟨b, h1, h2, h3⟩ := hp
      simp [foreign, h1]; omega
    obtain ⟨ok, h', o', e1, e2, e3, e4⟩ := assign_spec mf (o := w.obj i) (some p) (foreign w.heap p n) a hh (ho.ook i) (by
      intro h1 o1 _ e _
      rw [hlen]
      have hp1 : PaddedForeign h1 p n := PaddedForeign.keep hp (fun b h3 h4 => e.foreign hh (ho.ook i) h3 h4)
      rw [ld_foreign hp1]
      obtain ⟨b, h3, h4, h5⟩ := hp
      simp [foreign, h3, e.foreign hh (ho.ook i) h3 h4])
    rw [hlen] at e1
    refine ⟨ok, h', o', e1, fun h => ⟨(e2 h).1, (e2 h).2.1⟩, e3.toEff0, fun h v' hv => ?_⟩
    rw [e4 h] at hv; exact hv
  | assignObj i j =>
    apply stepOK_of hh ho
    have hlen := view_length (ho.ook j)
    obtain ⟨ok, h', o', e1, e2, e3, e4⟩ := assign_spec mf (o := w.obj i) (w.obj j).ptr (view w.heap (w.obj j)) a hh (ho.ook i) (by
      intro h1 o1 _ e hsame
      have hl := lift hh ho e.toEff0
      by_cases hij : i = j
      · subst hij
        by_cases hc : (w.obj i).cap = 0
        · rcases ho.linked i hc with ⟨h2, h3⟩ | ⟨p, h2, hpad⟩
          · rw [hlen, h3]
            simp only [ld, if_pos]
            have : view w.heap (w.obj i) = [] := List.length_eq_zero_iff.1 (by rw [hlen, h3])
            rw [this]
          · rw [hlen, h2, ld_foreign (PaddedForeign.keep hpad (fun b h3 h4 => e.foreign hh (ho.ook i) h3 h4))]
            obtain ⟨b, h3, h4, h5⟩ := hpad
            simp [foreign, view, h2, h3, e.foreign hh (ho.ook i) h3 h4]
        · have hcap : (w.obj i).size + mf ≤ (w.obj i).cap := by
            obtain ⟨_, _, _, _, _, _, h3⟩ := ho.owned i hc
            have := hp rfl
            omega
          obtain ⟨h2, _, _⟩ := hsame ⟨hc, by rw [hlen]; exact hcap⟩
          rw [h2, hlen]; exact ld_view (ho.ook i)
      · have hji : j ≠ i := Ne.symm hij
        have hv := hl.2.2.1 j hji
        have hook := hl.2.1.ook j
        simp only [World.views, if_neg hji] at hv hook
        rw [hlen, ld_view hook, hv])
    rw [hlen] at e1
    refine ⟨ok, h', o', e1, fun h => ⟨(e2 h).1, (e2 h).2.1⟩, e3.toEff0, fun h v' hv => ?_⟩
    rw [e4 h] at hv; exact hv
  | insert i ip n =>
    apply stepOK_of hh ho
    obtain ⟨ok, h', o', e1, e2, e3, e4⟩ := insert_spec mf hr ip n a hh (ho.ook i) hp.1 hp.2
    refine ⟨ok, h', o', e1, fun h => ⟨(e2 h).1, (e2 h).2.1⟩, e3.toEff0, fun h v' hv => ?_⟩
    obtain ⟨hole, g1, g2⟩ := e4 h
    rw [g2] at hv; exact ⟨hole, g1, hv⟩
  | erase i ep n =>
    apply stepOK_of hh ho
    obtain ⟨ok, h', o', e1, e2, e3, e4⟩ := erase_spec mf hr ep n a hh (ho.ook i) hp.1 hp.2
    refine ⟨ok, h', o', e1, fun h => ⟨(e2 h).1, (e2 h).2.1⟩, e3.toEff0, fun h v' hv => ?_⟩
    rw [e4 h] at hv; exact hv
  | linkForeign i p n =>
    show StepOK w _ (w.put i (some (true, w.heap, link (w.obj i) p n)))
    apply stepOK_of hh ho
    refine ⟨true, _, _, rfl, by simp, ⟨hh, ⟨fun h => absurd rfl h, fun _ => Or.inr ⟨p, rfl, hp⟩⟩,
      fun _ _ _ => rfl, Nat.le_refl _, fun h => absurd rfl h, fun _ _ h _ => h⟩, fun _ v' hv => ?_⟩
    have : view w.heap (link (w.obj i) p n) = foreign w.heap p n := by
      obtain ⟨b, h1, _⟩ := hp
      simp [view, link, foreign, h1]
    rw [this] at hv; exact hv
  | unlink i =>
    show StepOK w _ (w.put i (some (true, w.heap, unlink (w.obj i))))
    apply stepOK_of hh ho
    exact ⟨true, _, _, rfl, by simp, ⟨hh, ⟨fun h => absurd rfl h, fun _ => Or.inl ⟨rfl, rfl⟩⟩,
      fun _ _ _ => rfl, Nat.le_refl _, fun h => absurd rfl h, fun _ _ h _ => h⟩, fun _ v' hv => hv⟩
  | manage i bytes =>
    apply stepOK_of hh ho
    obtain ⟨hc, hne⟩ := hp
    have hl : bytes.length ≠ 0 := by simpa using hne
    have hbk : (Heap.mk (fun k => if k = w.heap.next then some ⟨true, bytes⟩ else w.heap.blk k)
        (w.heap.next + 1)).blk w.heap.next = some ⟨true, bytes⟩ := if_pos rfl
    have e := eff_fresh (o := w.obj i) (sz := bytes.length) (cap := bytes.length) hh rfl hbk rfl (Nat.le_refl _) hl
      (fun id h _ => if_neg h) (fun id h => by
        have h1 : id ≠ w.heap.next := by omega
        simp [h1, hh id (by omega)]) (fun id _ h => absurd hc h)
    refine ⟨true, _, ⟨some (w.heap.next, 0), bytes.length, bytes.length⟩, by simp [manage, hc], by simp, e.toEff0,
      fun _ v' hv => ?_⟩
    rw [view_owned rfl hbk] at hv
    simp only [List.take_length] at hv
    exact hv
  | copyLink i =>
    apply stepOK_of hh ho
    obtain ⟨ok, h', o', e1, e2, e3, e4, e5, e6⟩ := reserve_spec mf (w.obj i).size false a hh (ho.ook i) (fun _ => hp) (by simp)
    refine ⟨ok, h', o', e1, fun h => ⟨(e2 h).1, (e2 h).2.1⟩, e3.toEff0, fun _ v' hv => only_same (i := i) ?_⟩
    rw [e4] at hv; exact hv
  | deallocate i =>
    apply stepOK_of hh ho
    obtain ⟨h', e1, e2, _⟩ := deallocate_spec hh (ho.ook i)
    exact ⟨true, h', Obj.empty, by rw [e1]; rfl, by simp, e2.toEff0, fun _ v' hv => hv⟩
  | shrinkToFit i =>
    apply stepOK_of hh ho
    obtain ⟨ok, h', o', e1, e2, e3, e4, _⟩ := shrink_spec a hh (ho.ook i)
    refine ⟨ok, h', o', e1, fun h => ⟨(e2 h).1, (e2 h).2.1⟩, e3.toEff0, fun _ v' hv => only_same (i := i) ?_⟩
    rw [e4] at hv; exact hv
  | swap i j =>
    refine ⟨true, _, rfl, hh, ?_, fun _ _ h _ => h, fun _ _ h _ => h, by simp, fun _ => ?_⟩
    · have key : ∀ k, ((w.setObj i (w.obj j)).setObj j (w.obj i)).obj k =
          w.obj (if k = j then i else if k = i then j else k) := by
        intro k
        simp only [World.setObj]
        by_cases h1 : k = j
        · simp [h1]
        · rw [if_neg h1, if_neg h1]
          by_cases h2 : k = i
          · rw [if_pos h2, if_pos h2]
          · rw [if_neg h2, if_neg h2]
      refine ⟨fun k => by rw [key]; exact ho.owned _, fun k => by rw [key]; exact ho.linked _, fun k l hkl => ?_⟩
      rw [key, key]
      apply ho.unique
      split <;> split <;> (try split) <;> (try split) <;> omega
    · refine ⟨?_, ?_, ?_⟩
      · by_cases hij : i = j <;> simp [World.views, World.setObj, hij]
      · simp [World.views, World.setObj]
      · intro k h1 h2; simp [World.views, World.setObj, h1, h2]
  | poke i k x =>
    apply stepOK_of hh ho
    obtain ⟨hc, hk⟩ := hp
    obtain ⟨id, b, h1, h2, h3, h4, h5⟩ := ho.owned i hc
    obtain ⟨hp, bytes⟩ := b
    simp only at h3 h4; subst h3
    have hset : bytes.take k ++ [x] ++ bytes.drop (k + 1) = bytes.set k x := by
      rw [List.set_eq_take_append_cons_drop, if_pos (by omega)]; simp
    have hpk : poke w.heap (w.obj i) k x = some (w.heap.setBlk id (some ⟨true, bytes.set k x⟩)) := by
      simp only [poke, h1, st, h2, Nat.zero_add, List.length_singleton]
      rw [if_neg (by simp), if_pos (by omega), hset]
    refine ⟨true, _, w.obj i, by rw [hpk]; rfl, by simp,
      (eff_set hh (ho.ook i) hc h1 h2 rfl (bytes.set k x) (by simp)).toEff0, fun _ v' hv => ?_⟩
    rw [view_owned h1 (b := ⟨true, bytes.set k x⟩) (if_pos rfl)] at hv
    have : (bytes.set k x).take (w.obj i).size = (w.views i).set k x := by
      rw [World.views, view_owned h1 h2, List.take_set]
    rw [this] at hv; exact hv

theorem Initial.ok {w : World α} (hi : Initial w) : HOK w.heap ∧ Owns w := by
  refine ⟨hi.2.1, ⟨?_, ?_, ?_⟩⟩
  · intro i hc; rw [hi.1 i] at hc; exact absurd rfl hc
  · intro i _; rw [hi.1 i]; exact Or.inl ⟨rfl, rfl⟩
  · intro i j _ hc; rw [hi.1 i] at hc; exact absurd rfl hc

/-- Everything that holds after a history. -/
theorem hist_ok (mf : Nat) {rot : List α → Nat → Nat → Nat → Option (List α)} (hr : RotateOK rot)
    {w0 w : World α} {ops : List (Op α × Bool)} (hi : Initial w0) (hh : Hist mf rot w0 ops w) :
    HOK w.heap ∧ Owns w ∧ SpecHist (foreign w0.heap) w0.views ops w.views ∧
    (∀ id b, b.heap = false → (w.heap.blk id = some b ↔ w0.heap.blk id = some b)) := by
  induction hh with
  | nil => exact ⟨hi.ok.1, hi.ok.2, .nil _, fun _ _ _ => Iff.rfl⟩
  | @snoc w1 w2 ops op a ok hh hp hs ih =>
    obtain ⟨i1, i2, i3, i4⟩ := ih
    obtain ⟨ok', w', g1, g2, g3, g4, g5, g6, g7⟩ := step_ok mf hr w1 op a i1 i2 hp
    rw [hs] at g1
    cases g1
    refine ⟨g2, g3, ?_, fun id b hb => ⟨fun h => (i4 id b hb).1 (g5 id b h hb), fun h => g4 id b ((i4 id b hb).2 h) hb⟩⟩
    cases ok with
    | false => rw [g6 rfl]; exact .threw i3
    | true =>
      refine .ok i3 ?_
      have hfm : ∀ p n, PaddedForeign w1.heap p n → foreign w1.heap p n = foreign w0.heap p n := by
        rintro p n ⟨b, h1, h2, _⟩
        simp [foreign, h1, (i4 p.1 b h2).1 h1]
      have := g7 rfl
      cases op with
      | assignForeign i p n => simp only [Spec] at this ⊢; rw [← hfm p n hp]; exact this
      | linkForeign i p n => simp only [Spec] at this ⊢; rw [← hfm p n hp]; exact this
      | _ => exact this

/-- **C18 (partial)** the byte-string refinement: after any history of operations (each within its contract, with
any pattern of allocation failures) over any number of blocks, the visible bytes are those the same
operations give on byte strings; operations that threw left everything as it was. `mf` is the class's
`minimumFreeCapacity` (0 for memblock, 1 for string), `rot` the build's `rotate` (see `rotate_generic_ok`,
`rotate_fast_ok`). Missing: calls outside `Pre` that the API allows, on which the code is wrong
(`reserve_linked_violated`, `copy_link_overread_violated`, `reserve_wraps_violated`), and on x86 the ranges on
which `rotate_fast` is wrong (`Ustl.Bytes.rotate_fast_x86_violated`). -/
theorem memblock_history_partial (mf : Nat) {rot : List α → Nat → Nat → Nat → Option (List α)} (hr : RotateOK rot)
    {w0 w : World α} {ops : List (Op α × Bool)} (hi : Initial w0) (hh : Hist mf rot w0 ops w) :
    SpecHist (foreign w0.heap) w0.views ops w.views := (hist_ok mf hr hi hh).2.2.1

/-- **C18, C19 (partial)** progress: after any history every further operation within its contract completes or
throws; it is never undefined: no double free, no freeing of foreign memory, no writing to it, no access
outside a block. Missing: as for `memblock_history_partial`. -/
theorem memblock_no_ub_partial (mf : Nat) {rot : List α → Nat → Nat → Nat → Option (List α)} (hr : RotateOK rot)
    {w0 w : World α} {ops : List (Op α × Bool)} (hi : Initial w0) (hh : Hist mf rot w0 ops w)
    (op : Op α) (a : Option (Nat → α)) (hp : Pre mf w op) :
    ∃ ok w', step mf rot w op a = some (ok, w') ∧ (ok = false → w'.views = w.views) := by
  obtain ⟨i1, i2, _, _⟩ := hist_ok mf hr hi hh
  obtain ⟨ok', w', g1, g2, g3, g4, g5, g6, g7⟩ := step_ok mf hr w op a i1 i2 hp
  exact ⟨ok', w', g1, g6⟩

/-- **C19 (partial)** ownership after any history: every owner has its own live malloc'ed block of exactly
`capacity()` bytes, with `size() <= capacity()`; an object without capacity is empty or linked to foreign
memory; foreign memory is exactly what it was at the start. Missing: as for `memblock_history_partial`. -/
theorem memblock_ownership_partial (mf : Nat) {rot : List α → Nat → Nat → Nat → Option (List α)} (hr : RotateOK rot)
    {w0 w : World α} {ops : List (Op α × Bool)} (hi : Initial w0) (hh : Hist mf rot w0 ops w) :
    Owns w ∧ (∀ id b, b.heap = false → (w.heap.blk id = some b ↔ w0.heap.blk id = some b)) :=
  ⟨(hist_ok mf hr hi hh).2.1, (hist_ok mf hr hi hh).2.2.2⟩

/-! ### No leaks -/

/-- Every live malloc'ed block has an owner. -/
def NoLeak (w : World α) : Prop :=
  ∀ id b, w.heap.blk id = some b → b.heap = true → ∃ i, (w.obj i).cap ≠ 0 ∧ (w.obj i).ptr = some (id, 0)

/-- `link` and `unlink` applied to an object that owns memory forget that memory without freeing it. -/
def Forgets (w : World α) : Op α → Prop
  | .linkForeign i _ _ => (w.obj i).cap ≠ 0
  | .unlink i => (w.obj i).cap ≠ 0
  | _ => False

theorem noLeak_put {w w' : World α} {i : Nat} {ok : Bool} {h' : Heap α} {o' : Obj} (hn : NoLeak w)
    (e : Eff w.heap (w.obj i) h' o') (hw : w.put i (some (ok, h', o')) = some (ok, w')) : NoLeak w' := by
  cases hw
  intro id b h1 h2
  rcases e.leak id b h1 h2 with h3 | ⟨⟨b0, h3, h4⟩, h5⟩
  · exact ⟨i, by simpa using h3⟩
  · obtain ⟨k, h6, h7⟩ := hn id b0 h3 h4
    refine ⟨k, ?_⟩
    have hk : k ≠ i := by rintro rfl; exact h5 ⟨h6, h7⟩
    simp only [if_neg hk]
    exact ⟨h6, h7⟩

/-- **C19** no operation other than `link`/`unlink` on an owner loses a malloc'ed block, and in particular
`deallocate` (the destructor), `reserve`, `resize`, `assign`, `shrink_to_fit` free what they replace. -/
theorem step_no_leak (mf : Nat) {rot : List α → Nat → Nat → Nat → Option (List α)} (hr : RotateOK rot)
    (w w' : World α) (op : Op α) (a : Option (Nat → α)) (ok : Bool) (hh : HOK w.heap) (ho : Owns w)
    (hp : Pre mf w op) (hn : NoLeak w) (hf : ¬ Forgets w op) (hs : step mf rot w op a = some (ok, w')) :
    NoLeak w' := by
  have fin : ∀ {i : Nat} {r : Option (Bool × Heap α × Obj)}, w.put i r = some (ok, w') →
      (∃ ok h' o', r = some (ok, h', o') ∧ Eff w.heap (w.obj i) h' o') → NoLeak w' := by
    rintro i r hput ⟨ok1, h', o', h1, h2⟩
    rw [h1] at hput
    have : ok1 = ok := by cases hput; rfl
    subst this
    exact noLeak_put hn h2 hput
  cases op with
  | reserve i n e =>
    obtain ⟨ok', h', o', e1, e2, e3, e4⟩ := reserve_spec mf n e a hh (ho.ook i) hp.1 hp.2
    exact fin hs ⟨ok', h', o', e1, e3⟩
  | resize i n e =>
    obtain ⟨ok', h', o', e1, e2, e3, e4⟩ := resize_spec mf n e a hh (ho.ook i) hp
    exact fin hs ⟨ok', h', o', e1, e3⟩
  | clear i =>
    obtain ⟨ok', h', o', e1, e2, e3, e4⟩ := resize_spec mf 0 true a hh (ho.ook i) (by simp)
    exact fin hs ⟨ok', h', o', e1, e3⟩
  | insert i ip n =>
    obtain ⟨ok', h', o', e1, e2, e3, e4⟩ := insert_spec mf hr ip n a hh (ho.ook i) hp.1 hp.2
    exact fin hs ⟨ok', h', o', e1, e3⟩
  | erase i ep n =>
    obtain ⟨ok', h', o', e1, e2, e3, e4⟩ := erase_spec mf hr ep n a hh (ho.ook i) hp.1 hp.2
    exact fin hs ⟨ok', h', o', e1, e3⟩
  | copyLink i =>
    obtain ⟨ok', h', o', e1, e2, e3, e4⟩ := reserve_spec mf (w.obj i).size false a hh (ho.ook i) (fun _ => hp) (by simp)
    exact fin hs ⟨ok', h', o', e1, e3⟩
  | deallocate i =>
    obtain ⟨h', e1, e2, _⟩ := deallocate_spec hh (ho.ook i)
    exact fin hs ⟨true, h', Obj.empty, by rw [e1]; rfl, e2⟩
  | shrinkToFit i =>
    obtain ⟨ok', h', o', e1, e2, e3, e4⟩ := shrink_spec a hh (ho.ook i)
    exact fin hs ⟨ok', h', o', e1, e3⟩
  | linkForeign i p n =>
    have hc : (w.obj i).cap = 0 := by simpa [Forgets] using hf
    refine fin (i := i) (r := some (true, w.heap, link (w.obj i) p n)) hs ⟨_, _, _, rfl, ⟨hh, ⟨fun h => absurd rfl h, fun _ => Or.inr ⟨p, rfl, hp⟩⟩,
      fun _ _ _ => rfl, Nat.le_refl _, fun h => absurd rfl h, fun _ _ h _ => h⟩, fun id b h1 h2 =>
        Or.inr ⟨⟨b, h1, h2⟩, fun h => h.1 hc⟩⟩
  | unlink i =>
    have hc : (w.obj i).cap = 0 := by simpa [Forgets] using hf
    refine fin (i := i) (r := some (true, w.heap, unlink (w.obj i))) hs ⟨_, _, _, rfl, ⟨hh, ⟨fun h => absurd rfl h, fun _ => Or.inl ⟨rfl, rfl⟩⟩,
      fun _ _ _ => rfl, Nat.le_refl _, fun h => absurd rfl h, fun _ _ h _ => h⟩, fun id b h1 h2 =>
        Or.inr ⟨⟨b, h1, h2⟩, fun h => h.1 hc⟩⟩
  | assignForeign i p n =>
    obtain ⟨ok1, h1, o1, e1, e2, e3, e4⟩ := resize_spec mf (h := w.heap) (o := w.obj i) n true a hh (ho.ook i) (by simp)
    simp only [step, assign, e1] at hs
    cases ok1 with
    | false => exact fin hs ⟨_, _, _, rfl, e3⟩
    | true =>
      simp only at hs
      cases hl : ld h1 (some p) n with
      | none => rw [hl] at hs; cases hs
      | some xs =>
        rw [hl] at hs
        simp only at hs
        cases hst : st h1 o1.ptr xs with
        | none => rw [hst] at hs; cases hs
        | some h2 =>
          rw [hst] at hs
          exact fin hs ⟨_, _, _, rfl, st_eff e3 (by rw [(e4 rfl).2.1]; exact ld_length hl) (e4 rfl).2.2.1 hst⟩
  | assignObj i j =>
    obtain ⟨ok1, h1, o1, e1, e2, e3, e4⟩ := resize_spec mf (h := w.heap) (o := w.obj i) (w.obj j).size true a hh (ho.ook i) (by simp)
    simp only [step, assign, e1] at hs
    cases ok1 with
    | false => exact fin hs ⟨_, _, _, rfl, e3⟩
    | true =>
      simp only at hs
      cases hl : ld h1 (w.obj j).ptr (w.obj j).size with
      | none => rw [hl] at hs; cases hs
      | some xs =>
        rw [hl] at hs
        simp only at hs
        cases hst : st h1 o1.ptr xs with
        | none => rw [hst] at hs; cases hs
        | some h2 =>
          rw [hst] at hs
          exact fin hs ⟨_, _, _, rfl, st_eff e3 (by rw [(e4 rfl).2.1]; exact ld_length hl) (e4 rfl).2.2.1 hst⟩
  | manage i bytes =>
    obtain ⟨hc, hne⟩ := hp
    have hl : bytes.length ≠ 0 := by simpa using hne
    have hbk : (Heap.mk (fun k => if k = w.heap.next then some ⟨true, bytes⟩ else w.heap.blk k)
        (w.heap.next + 1)).blk w.heap.next = some ⟨true, bytes⟩ := if_pos rfl
    have e := eff_fresh (o := w.obj i) (sz := bytes.length) (cap := bytes.length) hh rfl hbk rfl (Nat.le_refl _) hl
      (fun id h _ => if_neg h) (fun id h => by
        have h1 : id ≠ w.heap.next := by omega
        simp [h1, hh id (by omega)]) (fun id _ h => absurd hc h)
    exact fin hs ⟨true, _, ⟨some (w.heap.next, 0), bytes.length, bytes.length⟩, by simp [manage, hc], e⟩
  | swap i j =>
    cases hs
    intro id b h1 h2
    obtain ⟨k, h3⟩ := hn id b h1 h2
    by_cases hk : k = i
    · subst hk; exact ⟨j, by simpa [World.setObj] using h3⟩
    · by_cases hk2 : k = j
      · subst hk2
        refine ⟨i, ?_⟩
        simp only [World.setObj]
        rw [if_neg (Ne.symm hk)]; simpa using h3
      · refine ⟨k, ?_⟩
        simp only [World.setObj]
        rw [if_neg hk2, if_neg hk]; exact h3
  | poke i k x =>
    obtain ⟨hc, hk⟩ := hp
    obtain ⟨id, b, h1, h2, h3, h4, h5⟩ := ho.owned i hc
    obtain ⟨hp, bytes⟩ := b
    simp only at h3 h4; subst h3
    simp only [step, poke, h1, st, h2, Nat.zero_add, List.length_singleton] at hs
    rw [if_neg (by simp), if_pos (by omega)] at hs
    exact fin hs ⟨_, _, _, rfl, eff_set hh (ho.ook i) hc h1 h2 rfl _ (by simp; omega)⟩

/-- **C19** a whole history in which no owner is linked elsewhere or unlinked leaks nothing: every malloc'ed
block that is still alive is owned by some object. -/
theorem memblock_no_leak (mf : Nat) {rot : List α → Nat → Nat → Nat → Option (List α)} (hr : RotateOK rot)
    {w0 w : World α} {ops : List (Op α × Bool)} (hi : Initial w0) (hh : Hist mf rot w0 ops w)
    (hforget : ∀ w1 w2 ops1 op a ok, Hist mf rot w0 ops1 w1 → step mf rot w1 op a = some (ok, w2) →
      (ops1 ++ [(op, ok)]) <+: ops → ¬ Forgets w1 op) : NoLeak w := by
  induction hh with
  | nil => intro id b h1 h2; rw [hi.2.2 id b h1] at h2; cases h2
  | @snoc w1 w2 ops op a ok hh hp hs ih =>
    have h1 := ih (fun w1 w2 ops1 op' a' ok' g1 g2 g3 => hforget w1 w2 ops1 op' a' ok' g1 g2
      (g3.trans (List.prefix_append _ _)))
    obtain ⟨i1, i2, _, _⟩ := hist_ok mf hr hi hh
    exact step_no_leak mf hr w1 w2 op a ok i1 i2 hp h1
      (hforget w1 w2 ops op a ok hh hs (List.prefix_refl _)) hs

/-! ### C20, C21 -/

/-- **C20 (partial)** `reserve (n)` that returns leaves at least `n + minimumFreeCapacity` bytes of capacity,
and the block really has that many bytes. Missing: requests that round up from more than `2^31`,
see `reserve_wraps_violated`; and a linked block asked for less than its size, see `reserve_linked_violated`. -/
theorem reserve_room_partial (mf : Nat) {h : Heap α} {o : Obj} (n : Nat) (exact : Bool) (a : Option (Nat → α))
    (hh : HOK h) (ho : OOK h o) (hlim : exact = false → n + mf ≤ 2 ^ 31) (hlink : o.cap = 0 → o.size ≤ n)
    (hpos : 0 < n + mf) {h' : Heap α} {o' : Obj} (hr : reserve mf h o n exact a = some (true, h', o')) :
    n + mf ≤ o'.cap ∧ ∃ id b, o'.ptr = some (id, 0) ∧ h'.blk id = some b ∧ b.heap = true ∧
      b.bytes.length = o'.cap := by
  obtain ⟨ok, h1, o1, e1, e2, e3, e4, e5, e6⟩ := reserve_spec mf n exact a hh ho hlim hlink
  rw [hr] at e1
  cases e1
  have := e6 rfl
  obtain ⟨id, b, g1, g2, g3, g4, _⟩ := e3.ook.owned (by omega)
  exact ⟨this, id, b, g1, g2, g3, g4⟩

/-- **C20** `resize (n)` (exact, the default): for every size. -/
theorem resize_room (mf : Nat) {h : Heap α} {o : Obj} (n : Nat) (a : Option (Nat → α))
    (hh : HOK h) (ho : OOK h o)
    (hpos : 0 < n + mf) {h' : Heap α} {o' : Obj} (hr : resize mf h o n true a = some (true, h', o')) :
    o'.size = n ∧ n + mf ≤ o'.cap ∧ ∃ id b, o'.ptr = some (id, 0) ∧ h'.blk id = some b ∧ b.heap = true ∧
      b.bytes.length = o'.cap := by
  obtain ⟨ok, h1, o1, e1, e2, e3, e4⟩ := resize_spec mf n true a hh ho (by simp)
  rw [hr] at e1
  cases e1
  obtain ⟨_, g2, g3, _⟩ := e4 rfl
  obtain ⟨id, b, k1, k2, k3, k4, _⟩ := e3.ook.owned (by omega)
  exact ⟨g2, g3, id, b, k1, k2, k3, k4⟩

/-- **C20 violated** `reserve (n)` with the default rounding and `2^31 < n ≤ 2^32`: `NextPow2` wraps to 1,
so an empty memblock gets a capacity of one byte. -/
theorem reserve_wraps_violated (n : Nat) (h1 : 2 ^ 31 < n) (h2 : n ≤ 2 ^ 32) (h : Heap α) (junk : Nat → α) :
    ∃ h' o', reserve 0 h Obj.empty n false (some junk) = some (true, h', o') ∧ o'.cap = 1 := by
  have hp : nextPow2 n = 1 := by
    unfold nextPow2
    have : (n + 2 ^ 32 - 1) % 2 ^ 32 = n - 1 := by omega
    simp only [this]
    rw [if_pos (by omega)]
  refine ⟨h.malloc 1 [] junk, ⟨some (h.next, 0), 0, 1⟩, ?_, rfl⟩
  simp only [reserve, Obj.empty, Nat.add_zero, hp]
  rw [if_neg (by omega)]
  simp only [realloc, if_pos]
  simp

/-- A heap with one foreign block (number 0). -/
def oneForeign (bytes : List α) : Heap α := ⟨fun k => if k = 0 then some ⟨false, bytes⟩ else none, 1⟩

/-- **C18 violated** `reserve (3)` on a block linked to 10 bytes: the object ends up with size 10 and a
capacity of 4 bytes. -/
theorem reserve_linked_violated (junk : Nat → Nat) :
    ∃ h' o', reserve 0 (oneForeign (List.range 11)) ⟨some (0, 0), 10, 0⟩ 3 false (some junk) = some (true, h', o') ∧
      o'.size = 10 ∧ o'.cap = 4 ∧ ∃ id b, o'.ptr = some (id, 0) ∧ h'.blk id = some b ∧ b.bytes.length = 4 := by
  refine ⟨_, _, rfl, rfl, rfl, 1, _, rfl, rfl, rfl⟩

/-- **C21 (partial)** making a private copy of linked bytes reads at most one byte beyond them, and copies
exactly them. Missing: that extra byte is read, see `copy_link_overread_violated`. -/
theorem copy_link_partial (mf : Nat) {h : Heap α} {p : Nat × Nat} {n : Nat} (hh : HOK h)
    (hp : PaddedForeign h p n) (hlim : n + mf ≤ 2 ^ 31) (junk : Nat → α) :
    ∃ h' o', reserve mf h ⟨some p, n, 0⟩ n false (some junk) = some (true, h', o') ∧
      view h' o' = foreign h p n ∧ (0 < n + mf → o'.cap ≠ 0) := by
  have ho : OOK h ⟨some p, n, 0⟩ := ⟨fun h => absurd rfl h, fun _ => Or.inr ⟨p, rfl, hp⟩⟩
  obtain ⟨ok, h1, o1, e1, e2, e3, e4, e5, e6⟩ := reserve_spec mf n false (some junk) hh ho (fun _ => hlim) (by simp)
  have hok : ok = true := by
    cases ok with
    | true => rfl
    | false => have := (e2 rfl).2.2; cases this
  subst hok
  refine ⟨h1, o1, e1, ?_, fun h => by have := e6 rfl; omega⟩
  rw [e4]
  obtain ⟨b, g1, _⟩ := hp
  simp [view, foreign, g1]

/-- **C21 violated** a block linked to exactly the 3 bytes of a foreign array: `copy_link` reads a fourth
byte, beyond the array. -/
theorem copy_link_overread_violated (junk : Nat → Nat) :
    reserve 0 (oneForeign [1, 2, 3]) ⟨some (0, 0), 3, 0⟩ 3 false (some junk) = none := rfl

/-- Self-assignment of a `string`-like block (`mf = 1`) right after `shrink_to_fit`: `assign` takes the
pointer, `resize` reallocates to make room for the terminator, and the copy reads freed memory. -/
theorem self_assign_violated (junk : Nat → Nat) :
    assign 1 ⟨fun k => if k = 0 then some ⟨true, [1, 2, 3]⟩ else none, 1⟩ ⟨some (0, 0), 3, 3⟩ (some (0, 0)) 3
      (some junk) = none := rfl

/-! ### Examples -/

/-- A program with one foreign block and no objects yet. -/
def w0 : World Nat := ⟨oneForeign [1, 2, 3, 4, 0], fun _ => Obj.empty⟩

theorem w0_initial : Initial w0 := by
  refine ⟨fun _ => rfl, ?_, ?_⟩
  · intro id h
    have : id ≠ 0 := by have : 1 ≤ id := h; omega
    simp [w0, oneForeign, this]
  · intro id b h
    by_cases hk : id = 0
    · subst hk; cases h; rfl
    · simp [w0, oneForeign, hk] at h

/-- A directly computed rotation, for the example. -/
def irot (l : List Nat) (f m t : Nat) : Option (List Nat) :=
  some (l.take f ++ (l.drop m).take (t - m) ++ (l.drop f).take (m - f) ++ l.drop t)

theorem irot_ok : RotateOK irot := by
  intro pre a b post
  simp only [irot]
  have e1 : (pre ++ a ++ b ++ post).take pre.length = pre := by simp
  have e2 : (pre ++ a ++ b ++ post).drop (pre.length + a.length) = b ++ post := by
    rw [List.append_assoc (pre ++ a), ← List.length_append, List.drop_left]
  have e3 : (pre ++ a ++ b ++ post).drop pre.length = a ++ (b ++ post) := by
    rw [List.append_assoc, List.append_assoc, List.drop_left]
  have e4 : (pre ++ a ++ b ++ post).drop (pre.length + a.length + b.length) = post := by
    rw [← List.length_append, ← List.length_append, List.drop_left]
  rw [e1, e2, e3, e4, Nat.add_sub_cancel_left, Nat.add_sub_cancel_left]
  simp

/-- A history: link 4 foreign bytes, insert a hole of 2 at offset 1 (which takes a private copy), erase 3
bytes, fail to grow a second object, copy, shrink, swap, free. Its hypotheses are met and the result is
computed. -/
example : ∃ w, Hist 0 irot w0 [(.linkForeign 0 (0, 0) 4, true), (.insert 0 1 2, true), (.erase 0 2 3, true),
      (.resize 1 100 true, false), (.assignObj 1 0, true), (.shrinkToFit 0, true), (.swap 0 2, true),
      (.deallocate 1, true)] w ∧
      w.views 2 = [1, 0, 4] ∧ (w.obj 2).cap = 3 ∧ (w.obj 0).cap = 0 := by
  let j : Option (Nat → Nat) := some fun _ => 0
  have p1 : Pre 0 w0 (.linkForeign 0 (0, 0) 4) := ⟨⟨false, [1, 2, 3, 4, 0]⟩, rfl, rfl, by decide⟩
  have h1 := Hist.snoc (Hist.nil (mf := 0) (rot := irot) w0) p1 (a := j) (ok := true) rfl
  have h2 := Hist.snoc h1 (op := .insert 0 1 2) (a := j) (ok := true) ⟨by decide, by decide⟩ rfl
  have h3 := Hist.snoc h2 (op := .erase 0 2 3) (a := j) (ok := true) ⟨by decide, by decide⟩ rfl
  have h4 := Hist.snoc h3 (op := .resize 1 100 true) (a := none) (ok := false) (fun h => nomatch h) rfl
  have h5 := Hist.snoc h4 (op := .assignObj 1 0) (a := j) (ok := true) (fun h => nomatch h) rfl
  have h6 := Hist.snoc h5 (op := .shrinkToFit 0) (a := j) (ok := true) trivial rfl
  have h7 := Hist.snoc h6 (op := .swap 0 2) (a := j) (ok := true) trivial rfl
  have h8 := Hist.snoc h7 (op := .deallocate 1) (a := j) (ok := true) trivial rfl
  exact ⟨_, h8, rfl, rfl, rfl⟩

/-- The generic (triple-reverse) `rotate` is a correct `rotate` on bytes. -/
theorem rotate_generic_ok : RotateOK (fun (l : List α) f m t => (Permute.rotate l f m t).map (·.1)) := by
  intro pre a b post
  obtain ⟨ret, h⟩ := Permute.rotate_spec_partial pre a b post
  simp only [h, Option.map_some]

/-- An address space with the block `l` at `base` and `n` scratch cells at `buf`. -/
def blockAt (base buf : Int) (n : Nat) (junk : α) (l : List α) : Bytes.Mem α := fun x =>
  if base ≤ x ∧ x < base + l.length then l[(x - base).toNat]?
  else if buf ≤ x ∧ x < buf + n then some junk else none

/-- `rotate_fast` seen as an operation on the block at address `base`, with scratch memory at `buf`. -/
def rotFastList (cn : Bytes.Mem α → Int → Nat → Int → Option (Bytes.Mem α))
    (cb : Bytes.Mem α → Int → Int → Int → Option (Bytes.Mem α)) (base : Int) (junk : α)
    (l : List α) (f m t : Nat) : Option (List α) :=
  match Bytes.rotateFast cn cb (blockAt base (base + l.length) l.length junk l) (base + f) (base + m) (base + t)
    (base + l.length) with
  | none => none
  | some mem => Bytes.ldN mem base l.length

/-- `rotate_fast` through the scratch buffer is a correct `rotate` on bytes, for blocks at any address, on
builds whose `copy_backward_fast` is `memmove`. -/
theorem rotate_fast_ok (cn : Bytes.Mem α → Int → Nat → Int → Option (Bytes.Mem α)) (hcn : Bytes.CopyCorrect cn)
    (base : Int) (junk : α) : RotateOK (rotFastList cn Bytes.copyBackwardMove base junk) := by
  intro pre a b post
  have hL : (pre ++ a ++ b ++ post).length = pre.length + a.length + b.length + post.length := by
    simp only [List.length_append]
  have hL2 : (pre ++ b ++ a ++ post).length = pre.length + a.length + b.length + post.length := by
    simp only [List.length_append]; omega
  have hget : ∀ x : Int, base ≤ x → x < base + (pre ++ a ++ b ++ post).length →
      blockAt base (base + (pre ++ a ++ b ++ post).length) (pre ++ a ++ b ++ post).length junk (pre ++ a ++ b ++ post) x
        = (pre ++ a ++ b ++ post)[(x - base).toNat]? := fun x h1 h2 => if_pos ⟨h1, h2⟩
  have hmap : Bytes.Mapped (blockAt base (base + (pre ++ a ++ b ++ post).length) (pre ++ a ++ b ++ post).length junk
      (pre ++ a ++ b ++ post)) base (2 * (pre ++ a ++ b ++ post).length) := by
    intro x h1 h2
    by_cases h3 : x < base + (pre ++ a ++ b ++ post).length
    · rw [hget x h1 h3, List.getElem?_eq_getElem (by omega)]; rfl
    · unfold blockAt; rw [if_neg (by omega), if_pos (by omega)]; rfl
  obtain ⟨m', h1, h2⟩ := Bytes.rotate_fast_spec cn hcn _ (base + pre.length) (base + (pre.length + a.length : Nat))
    (base + (pre.length + a.length + b.length : Nat)) (base + (pre ++ a ++ b ++ post).length) (by omega) (by omega)
    (hmap.mono (by omega) (by omega)) (hmap.mono (by omega) (by omega)) (by omega)
  unfold rotFastList
  rw [h1]
  simp only
  have hval : ∀ k : Nat, k < (pre ++ a ++ b ++ post).length → m' (base + k) = (pre ++ b ++ a ++ post)[k]? := by
    intro k hk
    rw [h2 _ (by omega)]
    unfold Bytes.rotated
    by_cases c1 : k < pre.length
    · rw [if_neg (by omega), if_neg (by omega), hget _ (by omega) (by omega),
        show (base + (k : Int) - base).toNat = k by omega]
      simp only [List.append_assoc]
      rw [List.getElem?_append_left c1, List.getElem?_append_left c1]
    · by_cases c2 : k < pre.length + b.length
      · rw [if_pos (by omega), hget _ (by omega) (by omega)]
        rw [show (base + ((pre.length + a.length : Nat) : Int) + (base + (k : Int) - (base + (pre.length : Int))) - base).toNat = pre.length + (a.length + (k - pre.length)) by omega]
        simp only [List.append_assoc]
        rw [List.getElem?_append_right (by omega), Nat.add_sub_cancel_left, List.getElem?_append_right (by omega),
          Nat.add_sub_cancel_left, List.getElem?_append_left (by omega), List.getElem?_append_right (by omega),
          List.getElem?_append_left (by omega)]
      · by_cases c3 : k < pre.length + b.length + a.length
        · rw [if_neg (by omega), if_pos (by omega), hget _ (by omega) (by omega)]
          rw [show (base + (pre.length : Int) + (base + (k : Int) - (base + (pre.length : Int)) - (base + ((pre.length + a.length + b.length : Nat) : Int) - (base + ((pre.length + a.length : Nat) : Int)))) - base).toNat = pre.length + (k - pre.length - b.length) by omega]
          simp only [List.append_assoc]
          rw [List.getElem?_append_right (by omega), Nat.add_sub_cancel_left, List.getElem?_append_left (by omega),
            List.getElem?_append_right (by omega), List.getElem?_append_right (by omega),
            List.getElem?_append_left (by omega)]
        · rw [if_neg (by omega), if_neg (by omega), hget _ (by omega) (by omega),
            show (base + (k : Int) - base).toNat = k by omega]
          rw [List.getElem?_append_right (by simp only [List.length_append]; omega),
            List.getElem?_append_right (by simp only [List.length_append]; omega)]
          congr 1
          simp only [List.length_append]; omega
  obtain ⟨vs, g1, g2, g3⟩ := Bytes.ldN_spec (pre ++ a ++ b ++ post).length m' base (by
    intro x h3 h4
    have := hval (x - base).toNat (by omega)
    rw [show base + ((x - base).toNat : Int) = x by omega] at this
    rw [this, List.getElem?_eq_getElem (by omega)]; rfl)
  rw [g1]
  congr 1
  apply List.ext_getElem?
  intro k
  by_cases hk : k < (pre ++ a ++ b ++ post).length
  · rw [← g3 k hk, hval k hk]
  · rw [List.getElem?_eq_none (by omega), List.getElem?_eq_none (by omega)]

end Ustl.Memblock
