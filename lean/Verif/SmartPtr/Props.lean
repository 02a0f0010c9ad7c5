import Verif.SmartPtr.Spec
/-! # Owning pointers: theorems for C49 -/
namespace Ustl.SmartPtr

theorem upd_self {α : Type} (f : Nat → α) (i : Nat) (a : α) : upd f i a i = a := by simp [upd]
theorem upd_ne {α : Type} (f : Nat → α) {i j : Nat} (a : α) (h : j ≠ i) : upd f i a j = f j := by simp [upd, h]

namespace Placed
variable {own : Nat → Option Nat} {m : Mem} {raw made : List Nat}

theorem live_of_owned (h : Placed own m raw made) {i o : Nat} (ho : own i = some o) : m.live o = true :=
  (h.exists_iff o).2 ⟨(h.somewhere o).2 (Or.inr (Or.inr ⟨i, ho⟩)), h.owned_not_deleted i o ho⟩

theorem live_of_raw (h : Placed own m raw made) {o : Nat} (ho : o ∈ raw) : m.live o = true :=
  (h.exists_iff o).2 ⟨(h.somewhere o).2 (Or.inl ho), h.raw_not_deleted o ho⟩

/-- An owned object becomes raw. -/
theorem takeOut (h : Placed own m raw made) {i o : Nat} (ho : own i = some o) : Placed (upd own i none) m (o :: raw) made where
  deleted_once := h.deleted_once
  raw_once := List.nodup_cons.2 ⟨h.owned_not_raw i o ho, h.raw_once⟩
  owner_once := by
    intro a b c ha hb
    simp only [upd] at ha hb
    split at ha
    · exact absurd ha (by simp)
    · split at hb
      · exact absurd hb (by simp)
      · exact h.owner_once a b c ha hb
  raw_not_deleted := by
    intro a ha
    rcases List.mem_cons.1 ha with rfl | ha
    · exact h.owned_not_deleted i a ho
    · exact h.raw_not_deleted a ha
  owned_not_deleted := by
    intro a b hb
    simp only [upd] at hb
    split at hb
    · exact absurd hb (by simp)
    · exact h.owned_not_deleted a b hb
  owned_not_raw := by
    intro a b hb
    simp only [upd] at hb
    split at hb
    · exact absurd hb (by simp)
    · rename_i hne
      intro hm
      rcases List.mem_cons.1 hm with rfl | hm
      · exact hne (h.owner_once a i b hb ho)
      · exact h.owned_not_raw a b hb hm
  somewhere := by
    intro a
    rw [h.somewhere a]
    constructor
    · rintro (h1 | h1 | ⟨j, h1⟩)
      · exact Or.inl (List.mem_cons_of_mem _ h1)
      · exact Or.inr (Or.inl h1)
      · by_cases hj : j = i
        · subst hj
          rw [ho] at h1
          cases h1
          exact Or.inl (List.mem_cons_self ..)
        · exact Or.inr (Or.inr ⟨j, by rw [upd_ne _ _ hj]; exact h1⟩)
    · rintro (h1 | h1 | ⟨j, h1⟩)
      · rcases List.mem_cons.1 h1 with rfl | h1
        · exact Or.inr (Or.inr ⟨i, ho⟩)
        · exact Or.inl h1
      · exact Or.inr (Or.inl h1)
      · simp only [upd] at h1
        split at h1
        · exact absurd h1 (by simp)
        · exact Or.inr (Or.inr ⟨j, h1⟩)
  exists_iff := h.exists_iff

/-- A raw object becomes owned. -/
theorem putIn (h : Placed own m raw made) {i o : Nat} (ho : o ∈ raw) (hi : own i = none) :
    Placed (upd own i (some o)) m (raw.erase o) made where
  deleted_once := h.deleted_once
  raw_once := h.raw_once.erase o
  owner_once := by
    intro a b c ha hb
    simp only [upd] at ha hb
    split at ha
    · split at hb
      · simp_all
      · cases ha
        exact absurd ho (h.owned_not_raw b _ hb)
    · split at hb
      · cases hb
        exact absurd ho (h.owned_not_raw a _ ha)
      · exact h.owner_once a b c ha hb
  raw_not_deleted := fun a ha => h.raw_not_deleted a (List.mem_of_mem_erase ha)
  owned_not_deleted := by
    intro a b hb
    simp only [upd] at hb
    split at hb
    · cases hb; exact h.raw_not_deleted _ ho
    · exact h.owned_not_deleted a b hb
  owned_not_raw := by
    intro a b hb hm
    rw [h.raw_once.mem_erase_iff] at hm
    simp only [upd] at hb
    split at hb
    · cases hb; exact hm.1 rfl
    · exact h.owned_not_raw a b hb hm.2
  somewhere := by
    intro a
    rw [h.somewhere a, h.raw_once.mem_erase_iff]
    constructor
    · rintro (h1 | h1 | ⟨j, h1⟩)
      · by_cases ha : a = o
        · subst ha; exact Or.inr (Or.inr ⟨i, upd_self _ _ _⟩)
        · exact Or.inl ⟨ha, h1⟩
      · exact Or.inr (Or.inl h1)
      · have hj : j ≠ i := by rintro rfl; rw [hi] at h1; exact absurd h1 (by simp)
        exact Or.inr (Or.inr ⟨j, by rw [upd_ne _ _ hj]; exact h1⟩)
    · rintro (h1 | h1 | ⟨j, h1⟩)
      · exact Or.inl h1.2
      · exact Or.inr (Or.inl h1)
      · simp only [upd] at h1
        split at h1
        · cases h1; exact Or.inl ho
        · exact Or.inr (Or.inr ⟨j, h1⟩)
  exists_iff := h.exists_iff

/-- A raw object is deleted. -/
theorem delRaw (h : Placed own m raw made) {o : Nat} (ho : o ∈ raw) :
    delete (some o) m = some ⟨upd m.live o false, o :: m.log⟩ ∧
    Placed own ⟨upd m.live o false, o :: m.log⟩ (raw.erase o) made := by
  refine ⟨?_, ?_, ?_, ?_, ?_, ?_, ?_, ?_, ?_⟩
  · unfold delete; simp only; rw [if_pos (h.live_of_raw ho)]
  · exact List.nodup_cons.2 ⟨h.raw_not_deleted o ho, h.deleted_once⟩
  · exact h.raw_once.erase o
  · exact h.owner_once
  · intro a ha hm
    rw [h.raw_once.mem_erase_iff] at ha
    rcases List.mem_cons.1 hm with rfl | hm
    · exact ha.1 rfl
    · exact h.raw_not_deleted a ha.2 hm
  · intro i a hi hm
    rcases List.mem_cons.1 hm with rfl | hm
    · exact h.owned_not_raw i _ hi ho
    · exact h.owned_not_deleted i a hi hm
  · intro i a hi hm
    exact h.owned_not_raw i a hi (List.mem_of_mem_erase hm)
  · intro a
    show _ ↔ _ ∨ a ∈ o :: m.log ∨ _
    rw [h.somewhere a, h.raw_once.mem_erase_iff, List.mem_cons]
    constructor
    · rintro (h1 | h1 | h1)
      · by_cases ha : a = o
        · exact Or.inr (Or.inl (Or.inl ha))
        · exact Or.inl ⟨ha, h1⟩
      · exact Or.inr (Or.inl (Or.inr h1))
      · exact Or.inr (Or.inr h1)
    · rintro (h1 | (rfl | h1) | h1)
      · exact Or.inl h1.2
      · exact Or.inl ho
      · exact Or.inr (Or.inl h1)
      · exact Or.inr (Or.inr h1)
  · intro a
    show upd m.live o false a = true ↔ a ∈ made ∧ a ∉ o :: m.log
    by_cases ha : a = o
    · subst ha; simp [upd]
    · rw [upd_ne _ _ ha, h.exists_iff a]
      simp [ha]

/-- A new object is raw. -/
theorem mkNew (h : Placed own m raw made) {o : Nat} (ho : o ∉ made) :
    Placed own ⟨upd m.live o true, m.log⟩ (o :: raw) (o :: made) := by
  have hs := h.somewhere o
  have hraw : o ∉ raw := fun hr => ho (hs.2 (Or.inl hr))
  have hlog : o ∉ m.log := fun hr => ho (hs.2 (Or.inr (Or.inl hr)))
  have hown : ∀ i, own i ≠ some o := fun i hi => ho (hs.2 (Or.inr (Or.inr ⟨i, hi⟩)))
  refine ⟨h.deleted_once, List.nodup_cons.2 ⟨hraw, h.raw_once⟩, h.owner_once, ?_, h.owned_not_deleted, ?_, ?_, ?_⟩
  · intro a ha
    rcases List.mem_cons.1 ha with rfl | ha
    · exact hlog
    · exact h.raw_not_deleted a ha
  · intro i a hi hm
    rcases List.mem_cons.1 hm with rfl | hm
    · exact hown i hi
    · exact h.owned_not_raw i a hi hm
  · intro a
    show a ∈ o :: made ↔ a ∈ o :: raw ∨ a ∈ m.log ∨ _
    rw [List.mem_cons, List.mem_cons, h.somewhere a, or_assoc]
  · intro a
    show upd m.live o true a = true ↔ a ∈ o :: made ∧ a ∉ m.log
    by_cases ha : a = o
    · subst ha; simp [upd, hlog]
    · rw [upd_ne _ _ ha, h.exists_iff a, List.mem_cons]
      simp [ha]

theorem congrOwn (h : Placed own m raw made) {own' : Nat → Option Nat} (e : ∀ i, own' i = own i) : Placed own' m raw made := by
  have : own' = own := funext e
  rw [this]; exact h

theorem eraseCons (h : Placed own m ((o :: raw).erase o) made) : Placed own m raw made := by
  rw [List.erase_cons_head] at h; exact h

/-- The object owned by `i`, if any, is deleted. -/
theorem delOwned (h : Placed own m raw made) (i : Nat) :
    ∃ m', delete (own i) m = some m' ∧ Placed (upd own i none) m' raw made := by
  cases hi : own i with
  | none =>
    refine ⟨m, rfl, h.congrOwn ?_⟩
    intro j
    by_cases hj : j = i
    · subst hj; rw [upd_self, hi]
    · rw [upd_ne _ _ hj]
  | some o =>
    obtain ⟨h1, h2⟩ := (h.takeOut hi).delRaw (List.mem_cons_self ..)
    exact ⟨_, h1, h2.eraseCons⟩

/-- Giving away a raw pointer, or null. -/
theorem giveTo (h : Placed own m raw made) {i : Nat} {p : Option Nat} (hp : ∀ o, p = some o → o ∈ raw) (hi : own i = none) :
    Placed (upd own i p) m (give p raw) made := by
  cases p with
  | none =>
    refine h.congrOwn ?_
    intro j
    by_cases hj : j = i
    · subst hj; rw [upd_self, hi]
    · rw [upd_ne _ _ hj]
  | some o => exact h.putIn (hp o rfl) hi

/-- Getting back a raw pointer, or null. -/
theorem takeFrom (h : Placed own m raw made) (i : Nat) : Placed (upd own i none) m (take (own i) raw) made := by
  cases hi : own i with
  | none =>
    refine h.congrOwn ?_
    intro j
    by_cases hj : j = i
    · subst hj; rw [upd_self, hi]
    · rw [upd_ne _ _ hj]
  | some o => exact h.takeOut hi

theorem give_take (p : Option Nat) (raw : List Nat) : give p (take p raw) = raw := by
  cases p with
  | none => rfl
  | some o => exact List.erase_cons_head ..

/-- Handing over from `j` to `i`, which owns nothing. -/
theorem handOver (h : Placed own m raw made) {i j : Nat} (hij : i ≠ j) (hi : own i = none) :
    Placed (upd (upd own j none) i (own j)) m raw made := by
  have h1 := h.takeFrom j
  have h2 : ∀ o, own j = some o → o ∈ take (own j) raw := by
    intro o ho; rw [ho]; exact List.mem_cons_self ..
  have h3 := h1.giveTo h2 (i := i) (by rw [upd_ne _ _ hij]; exact hi)
  rw [give_take] at h3
  exact h3

end Placed

/-- What an `auto_ptr` or `unique_ptr` owns. -/
def ownP (s : Ptrs) (i : Nat) : Option Nat := (s i).getD none

theorem ownP_upd (s : Ptrs) (i : Nat) (v : Option (Option Nat)) : ∀ j, ownP (upd s i v) j = upd (ownP s) i (v.getD none) j := by
  intro j
  unfold ownP upd
  split <;> rfl

/-- The state of the world is right. -/
def Good (w : World (Option Nat)) : Prop := Placed (ownP w.ptrs) w.mem w.raw w.made

theorem ownP_some {s : Ptrs} {i : Nat} {p : Option Nat} (h : s i = some p) : ownP s i = p := by unfold ownP; rw [h]; rfl
theorem ownP_none {s : Ptrs} {i : Nat} (h : s i = none) : ownP s i = none := by unfold ownP; rw [h]; rfl

theorem reset_good (k : Kind) (i : Nat) (p : Option Nat) (s : Ptrs) (m : Mem) (raw made : List Nat)
    (h : Placed (ownP s) m raw made) (hi : s i ≠ none) (hp : ∀ o, p = some o → o ∈ raw) :
    ∃ s' m', reset k i p s m = some (s', m') ∧ Placed (ownP s') m' (give p raw) made := by
  cases hs : s i with
  | none => exact absurd hs hi
  | some q =>
    have hq := ownP_some hs
    obtain ⟨m', h1, h2⟩ := h.delOwned i
    have h3 := h2.giveTo hp (upd_self _ _ _)
    rw [hq] at h1
    have h4 : Placed (ownP (upd s i (some p))) m' (give p raw) made := by
      refine h3.congrOwn ?_
      intro j
      rw [ownP_upd]
      by_cases hj : j = i
      · subst hj; rw [upd_self, upd_self]; rfl
      · rw [upd_ne _ _ hj, upd_ne _ _ hj, upd_ne _ _ hj]
    cases k with
    | unique =>
      refine ⟨_, m', ?_, h4⟩
      show uniqueReset i p s m = _
      unfold uniqueReset
      rw [hs]
      simp only
      rw [h1]
    | auto =>
      show ∃ s' m', autoReset i p s m = some (s', m') ∧ _
      unfold autoReset
      rw [hs]
      simp only
      by_cases hpq : p = q
      · subst hpq
        rw [if_neg (by simp)]
        refine ⟨s, m, rfl, ?_⟩
        cases p with
        | none => exact h
        | some o => exact absurd (hp o rfl) (h.owned_not_raw i o hq)
      · rw [if_pos hpq, h1]
        exact ⟨_, m', rfl, h4⟩

theorem release_good (j : Nat) (s : Ptrs) (m : Mem) (raw made : List Nat) (h : Placed (ownP s) m raw made) (hj : s j ≠ none) :
    ∃ rv s', release j s = some (rv, s') ∧ s' = upd s j (some none) ∧ rv = ownP s j ∧
      Placed (ownP s') m (take rv raw) made := by
  cases hs : s j with
  | none => exact absurd hs hj
  | some rv =>
    refine ⟨rv, _, ?_, rfl, (ownP_some hs).symm, ?_⟩
    · unfold release; rw [hs]
    · have := h.takeFrom j
      rw [ownP_some hs] at this
      exact this.congrOwn (ownP_upd s j (some none))

theorem exec_good (k : Kind) (c : Cmd) (w : World (Option Nat)) (h : Good w) (hl : legal c w) :
    ∃ w', exec k c w = some w' ∧ Good w' := by
  unfold Good at h
  cases c with
  | new o => exact ⟨_, rfl, h.mkNew hl⟩
  | del o =>
    obtain ⟨h1, h2⟩ := h.delRaw hl
    refine ⟨{ w with mem := _, raw := w.raw.erase o }, ?_, h2⟩
    show (delete (some o) w.mem).map _ = _
    rw [h1]; rfl
  | ctor i p =>
    refine ⟨_, rfl, ?_⟩
    exact (h.giveTo hl.2 (ownP_none hl.1)).congrOwn (ownP_upd w.ptrs i (some p))
  | move i j =>
    obtain ⟨rv, s', h1, h2, h3, h4⟩ := release_good j _ _ _ _ h hl.2
    have hij : i ≠ j := by rintro rfl; exact hl.2 hl.1
    have h5 := h4.giveTo (i := i) (p := rv) (by rintro o rfl; exact List.mem_cons_self ..) (by
      rw [h2]; apply ownP_none; rw [upd_ne _ _ hij]; exact hl.1)
    rw [Placed.give_take] at h5
    refine ⟨{ w with ptrs := upd s' i (some rv) }, ?_, h5.congrOwn (ownP_upd s' i (some rv))⟩
    show (ctorMove i j w.ptrs).map _ = _
    unfold ctorMove
    rw [h1]
    rfl
  | dtor i =>
    cases hs : w.ptrs i with
    | none => exact absurd hs hl
    | some q =>
      obtain ⟨m', h1, h2⟩ := h.delOwned i
      rw [ownP_some hs] at h1
      refine ⟨{ w with ptrs := upd w.ptrs i none, mem := m' }, ?_, h2.congrOwn (ownP_upd w.ptrs i none)⟩
      show (dtor i w.ptrs w.mem).map _ = _
      unfold dtor
      rw [hs]
      simp only
      rw [h1]
      rfl
  | reset i p =>
    obtain ⟨s', m', h1, h2⟩ := reset_good k i p _ _ _ _ h hl.1 hl.2
    refine ⟨{ w with ptrs := s', mem := m', raw := give p w.raw }, ?_, h2⟩
    show (reset k i p w.ptrs w.mem).map _ = _
    rw [h1]; rfl
  | assign i j =>
    obtain ⟨rv, s', h1, h2, h3, h4⟩ := release_good j _ _ _ _ h hl.2
    obtain ⟨s'', m', h5, h6⟩ := reset_good k i rv s' _ _ _ h4 (by
      rw [h2]
      by_cases hij : i = j
      · subst hij; rw [upd_self]; simp
      · rw [upd_ne _ _ hij]; exact hl.1) (by rintro o rfl; exact List.mem_cons_self ..)
    rw [Placed.give_take] at h6
    refine ⟨{ w with ptrs := s'', mem := m' }, ?_, h6⟩
    show (assignMove k i j w.ptrs w.mem).map _ = _
    unfold assignMove
    rw [h1]
    simp only
    rw [h5]; rfl
  | swap i j =>
    cases hi : w.ptrs i with
    | none => exact absurd hi hl.1
    | some p =>
      cases hj : w.ptrs j with
      | none => exact absurd hj hl.2
      | some q =>
        refine ⟨{ w with ptrs := upd (upd w.ptrs i (some q)) j (some p) }, ?_, ?_⟩
        · show (swap i j w.ptrs).map _ = _
          unfold swap
          rw [hi, hj]; rfl
        · show Placed _ _ _ _
          by_cases hij : i = j
          · subst hij
            rw [hi] at hj
            cases hj
            refine h.congrOwn ?_
            intro a
            rw [ownP_upd]
            by_cases ha : a = i
            · subst ha; rw [upd_self, ownP_some hi]; rfl
            · rw [upd_ne _ _ ha, ownP_upd, upd_ne _ _ ha]
          · have h1 := h.takeFrom i
            have h2 := h1.handOver (i := i) (j := j) hij (upd_self _ _ _)
            have h3 := h2.giveTo (i := j) (p := ownP w.ptrs i) (by
              intro o ho; rw [ho]; exact List.mem_cons_self ..) (by
              rw [upd_ne _ _ (Ne.symm hij), upd_self])
            rw [Placed.give_take] at h3
            refine h3.congrOwn ?_
            intro a
            rw [ownP_upd]
            by_cases ha : a = j
            · subst ha; rw [upd_self, upd_self, ownP_some hi]; rfl
            · rw [upd_ne _ _ ha, upd_ne _ _ ha, ownP_upd]
              by_cases ha' : a = i
              · subst ha'
                rw [upd_self, upd_self, upd_ne _ _ (Ne.symm hij), ownP_some hj]; rfl
              · rw [upd_ne _ _ ha', upd_ne _ _ ha', upd_ne _ _ ha, upd_ne _ _ ha']
  | release i =>
    obtain ⟨rv, s', h1, h2, h3, h4⟩ := release_good i _ _ _ _ h hl
    refine ⟨{ w with ptrs := s', raw := take rv w.raw }, ?_, h4⟩
    show (release i w.ptrs).map _ = _
    rw [h1]; rfl

theorem start_placed : Placed (fun _ => none) ⟨fun _ => false, []⟩ [] [] := by
  refine ⟨?_, ?_, ?_, ?_, ?_, ?_, ?_, ?_⟩ <;> simp

theorem reach_good (k : Kind) (w : World (Option Nat)) (h : Reach k w) : Good w := by
  induction h with
  | start => exact start_placed.congrOwn (fun i => rfl)
  | step _ hl he ih =>
    obtain ⟨w', h1, h2⟩ := exec_good k _ _ ih hl
    rw [he] at h1
    cases h1
    exact h2

/-- **C49** for `unique_ptr` and `auto_ptr`, in every history of legal uses, of any length and with any number of
pointers: nothing is ever undefined (no double delete), and in every state each object made is either held raw by the
client, or owned by exactly one smart pointer and alive, or destroyed, exactly once. -/
theorem owner_history (k : Kind) (w : World (Option Nat)) (h : Reach k w) :
    (∀ c, legal c w → ∃ w', exec k c w = some w') ∧
    w.mem.log.Nodup ∧
    (∀ o, o ∈ w.made → (o ∈ w.raw ∧ o ∉ w.mem.log ∧ ∀ i, w.ptrs i ≠ some (some o)) ∨
      (o ∉ w.raw ∧ o ∈ w.mem.log ∧ ∀ i, w.ptrs i ≠ some (some o)) ∨
      (o ∉ w.raw ∧ o ∉ w.mem.log ∧ w.mem.live o = true ∧ ∃ i, w.ptrs i = some (some o) ∧
        ∀ j, w.ptrs j = some (some o) → j = i)) ∧
    (∀ i o, w.ptrs i = some (some o) → w.mem.live o = true) ∧
    (∀ o, o ∈ w.mem.log → o ∈ w.made) := by
  have hg := reach_good k w h
  have hconv : ∀ i o, w.ptrs i = some (some o) ↔ ownP w.ptrs i = some o := by
    intro i o
    constructor
    · intro hi; exact ownP_some hi
    · intro hi
      unfold ownP at hi
      cases hw : w.ptrs i with
      | none => rw [hw] at hi; exact absurd hi (by simp)
      | some p => rw [hw] at hi; exact congrArg some hi
  refine ⟨fun c hl => ?_, hg.deleted_once, ?_, ?_, ?_⟩
  · obtain ⟨w', h1, -⟩ := exec_good k c w hg hl
    exact ⟨w', h1⟩
  · intro o ho
    rcases (hg.somewhere o).1 ho with h1 | h1 | ⟨i, h1⟩
    · exact Or.inl ⟨h1, hg.raw_not_deleted o h1, fun i hi => hg.owned_not_raw i o ((hconv i o).1 hi) h1⟩
    · exact Or.inr (Or.inl ⟨fun hr => hg.raw_not_deleted o hr h1, h1,
        fun i hi => hg.owned_not_deleted i o ((hconv i o).1 hi) h1⟩)
    · exact Or.inr (Or.inr ⟨hg.owned_not_raw i o h1, hg.owned_not_deleted i o h1, hg.live_of_owned h1, i, (hconv i o).2 h1,
        fun j hj => hg.owner_once j i o ((hconv j o).1 hj) h1⟩)
  · intro i o hi
    exact hg.live_of_owned ((hconv i o).1 hi)
  · intro o ho
    exact (hg.somewhere o).2 (Or.inr (Or.inl ho))

/-- **C49** when all smart pointers are gone, every object made has been destroyed exactly once, except those the client
holds. -/
theorem owner_no_leak (k : Kind) (w : World (Option Nat)) (h : Reach k w) (hend : ∀ i, w.ptrs i = none) (o : Nat)
    (ho : o ∈ w.made) : o ∉ w.raw → w.mem.log.count o = 1 := by
  intro hr
  obtain ⟨-, hn, hp, -, -⟩ := owner_history k w h
  rcases hp o ho with h1 | h1 | ⟨-, -, -, i, h1, -⟩
  · exact absurd h1.1 hr
  · rw [hn.count, if_pos h1.2.1]
  · rw [hend i] at h1; exact absurd h1 (by simp)

/-! A history that meets the hypotheses: two pointers, a move, a reset, a release, and both destructed. -/

/-- A list of commands in turn. -/
def execAll (k : Kind) : List Cmd → World (Option Nat) → Option (World (Option Nat))
  | [], w => some w
  | c :: cs, w => (exec k c w).bind (execAll k cs)

example : ((execAll .unique [.new 1, .new 2, .ctor 10 (some 1), .move 11 10, .assign 11 11, .reset 11 (some 2), .new 3,
    .ctor 12 (some 3), .swap 11 12, .release 12, .dtor 10, .dtor 11, .dtor 12]
    ⟨fun _ => none, ⟨fun _ => false, []⟩, [], []⟩).map fun w => (w.mem.log, w.raw, w.made)) =
    some ([3, 1], [2], [3, 2, 1]) := by decide +kernel

example : Reach .unique ⟨upd (upd (fun _ => none) 10 (some (some 1))) 10 none, ⟨upd (upd (fun _ => false) 1 true) 1 false, [1]⟩,
    [], [1]⟩ := by
  refine .step (c := .dtor 10) (w := ⟨upd (fun _ => none) 10 (some (some 1)), ⟨upd (fun _ => false) 1 true, []⟩, [], [1]⟩)
    ?_ (by simp [legal, upd]) (by rfl)
  refine .step (c := .ctor 10 (some 1)) (w := ⟨fun _ => none, ⟨upd (fun _ => false) 1 true, []⟩, [1], [1]⟩)
    ?_ (by simp [legal]) (by rfl)
  exact .step (c := .new 1) .start (by simp [legal]) (by rfl)

/-! ## unique_resource -/

/-- What each `unique_resource` owns. -/
def ownRs (s : Ress) (i : Nat) : Option Nat := ownR (s i)

theorem ownRs_upd (s : Ress) (i : Nat) (v : Option (Nat × Bool)) : ∀ j, ownRs (upd s i v) j = upd (ownRs s) i (ownR v) j := by
  intro j
  unfold ownRs upd
  split <;> rfl

theorem upd_own_none {own : Nat → Option Nat} {i : Nat} (h : own i = none) : ∀ j, own j = upd own i none j := by
  intro j
  by_cases hj : j = i
  · subst hj; rw [upd_self, h]
  · rw [upd_ne _ _ hj]

theorem resReset_good (i : Nat) (s : Ress) (m : Mem) (raw made : List Nat) (h : Placed (ownRs s) m raw made)
    (hi : s i ≠ none) : ∃ s' m', resReset i s m = some (s', m') ∧ Placed (ownRs s') m' raw made ∧ ownRs s' i = none ∧
      ∀ j, s' j = none ↔ s j = none := by
  cases hs : s i with
  | none => exact absurd hs hi
  | some q =>
    obtain ⟨r, en⟩ := q
    cases en with
    | false =>
      refine ⟨s, m, ?_, h, ?_, fun _ => Iff.rfl⟩
      · unfold resReset; rw [hs]; rfl
      · unfold ownRs; rw [hs]; rfl
    | true =>
      obtain ⟨m', h1, h2⟩ := h.delOwned i
      have e : ownRs s i = some r := by unfold ownRs; rw [hs]; rfl
      rw [e] at h1
      refine ⟨upd s i (some (r, false)), m', ?_, h2.congrOwn (ownRs_upd s i _), ?_, ?_⟩
      · unfold resReset
        rw [hs]
        simp only [if_true]
        rw [h1]
      · rw [ownRs_upd, upd_self]; rfl
      · intro j
        by_cases hj : j = i
        · subst hj; rw [upd_self, hs]; simp
        · rw [upd_ne _ _ hj]

/-- Moving the members of `j` to `i`, which owns nothing, and releasing `j`. -/
theorem resHand_good (i j : Nat) (s : Ress) (m : Mem) (raw made : List Nat) (h : Placed (ownRs s) m raw made)
    (hi : ownRs s i = none) (r : Nat) (en : Bool) (hj : s j = some (r, en)) :
    ∃ x s', resRelease j (upd s i (some (r, en))) = some (x, s') ∧ Placed (ownRs s') m raw made := by
  have e : ownR (some (r, en)) = ownRs s j := by unfold ownRs; rw [hj]
  have hj' : upd s i (some (r, en)) j = some (r, en) := by
    by_cases hij : j = i
    · subst hij; rw [upd_self]
    · rw [upd_ne _ _ hij, hj]
  refine ⟨r, upd (upd s i (some (r, en))) j (some (r, false)), ?_, ?_⟩
  · unfold resRelease; rw [hj']
  · by_cases hij : i = j
    · subst hij
      refine h.congrOwn ?_
      intro a
      rw [ownRs_upd]
      by_cases ha : a = i
      · subst ha; rw [upd_self, hi]; rfl
      · rw [upd_ne _ _ ha, ownRs_upd, upd_ne _ _ ha]
    · refine (h.handOver hij hi).congrOwn ?_
      intro a
      rw [ownRs_upd]
      by_cases ha : a = j
      · subst ha; rw [upd_self, upd_ne _ _ (Ne.symm hij), upd_self]; rfl
      · rw [upd_ne _ _ ha, ownRs_upd]
        by_cases ha' : a = i
        · subst ha'; rw [upd_self, upd_self, e]
        · rw [upd_ne _ _ ha', upd_ne _ _ ha', upd_ne _ _ ha]

/-- The state of the world is right. -/
def RGood (w : World (Nat × Bool)) : Prop := Placed (ownRs w.ptrs) w.mem w.raw w.made

theorem rexec_good (c : RCmd) (w : World (Nat × Bool)) (h : RGood w) (hl : rlegal c w) :
    ∃ w', rexec c w = some w' ∧ RGood w' := by
  unfold RGood at h
  cases c with
  | new o => exact ⟨_, rfl, h.mkNew hl⟩
  | del o =>
    obtain ⟨h1, h2⟩ := h.delRaw hl
    refine ⟨{ w with mem := _, raw := w.raw.erase o }, ?_, h2⟩
    show (delete (some o) w.mem).map _ = _
    rw [h1]; rfl
  | ctor i o =>
    refine ⟨_, rfl, ?_⟩
    have hi : ownRs w.ptrs i = none := by unfold ownRs; rw [hl.1]; rfl
    exact (h.putIn hl.2 hi).congrOwn (ownRs_upd w.ptrs i (some (o, true)))
  | ctorOff i o =>
    refine ⟨_, rfl, ?_⟩
    have hi : ownRs w.ptrs i = none := by
      have hl : w.ptrs i = none := hl
      unfold ownRs; rw [hl]; rfl
    refine h.congrOwn ?_
    intro j
    rw [upd_own_none hi j]
    exact ownRs_upd w.ptrs i (some (o, false)) j
  | move i j =>
    cases hj : w.ptrs j with
    | none => exact absurd hj hl.2
    | some q =>
      obtain ⟨r, en⟩ := q
      have hi : ownRs w.ptrs i = none := by unfold ownRs; rw [hl.1]; rfl
      obtain ⟨x, s', h1, h2⟩ := resHand_good i j _ _ _ _ h hi r en hj
      refine ⟨{ w with ptrs := s' }, ?_, h2⟩
      show (resMove i j w.ptrs).map _ = _
      unfold resMove
      rw [hj]
      simp only
      rw [h1]; rfl
  | dtor i =>
    obtain ⟨s', m', h1, h2, h3, -⟩ := resReset_good i _ _ _ _ h hl
    refine ⟨{ w with ptrs := upd s' i none, mem := m' }, ?_, ?_⟩
    · show (resDtor i w.ptrs w.mem).map _ = _
      unfold resDtor
      rw [h1]; rfl
    · refine h2.congrOwn ?_
      intro j
      rw [upd_own_none h3 j]
      exact ownRs_upd s' i none j
  | reset i =>
    obtain ⟨s', m', h1, h2, -, -⟩ := resReset_good i _ _ _ _ h hl
    refine ⟨{ w with ptrs := s', mem := m' }, ?_, h2⟩
    show (resReset i w.ptrs w.mem).map _ = _
    rw [h1]; rfl
  | resetTo i o =>
    obtain ⟨s', m', h1, h2, h3, -⟩ := resReset_good i _ _ _ _ h hl.1
    refine ⟨{ w with ptrs := upd s' i (some (o, true)), mem := m', raw := w.raw.erase o }, ?_, ?_⟩
    · show (resResetTo i o w.ptrs w.mem).map _ = _
      unfold resResetTo
      rw [h1]; rfl
    · exact (h2.putIn hl.2 h3).congrOwn (ownRs_upd s' i (some (o, true)))
  | assign i j =>
    obtain ⟨s', m', h1, h2, h3, h4⟩ := resReset_good i _ _ _ _ h hl.1
    cases hj : s' j with
    | none => exact absurd ((h4 j).1 hj) hl.2
    | some q =>
      obtain ⟨r, en⟩ := q
      obtain ⟨x, s'', h5, h6⟩ := resHand_good i j _ _ _ _ h2 h3 r en hj
      refine ⟨{ w with ptrs := s'', mem := m' }, ?_, h6⟩
      show (resAssign i j w.ptrs w.mem).map _ = _
      unfold resAssign
      rw [h1]
      simp only
      rw [hj]
      simp only
      rw [h5]; rfl
  | release i =>
    cases hi : w.ptrs i with
    | none => exact absurd hi hl
    | some q =>
      obtain ⟨r, en⟩ := q
      refine ⟨{ w with ptrs := upd w.ptrs i (some (r, false)), raw := take (ownR (w.ptrs i)) w.raw }, ?_, ?_⟩
      · show (resRelease i w.ptrs).map _ = _
        unfold resRelease
        rw [hi]; rfl
      · exact (h.takeFrom i).congrOwn (ownRs_upd w.ptrs i (some (r, false)))

theorem rreach_good (w : World (Nat × Bool)) (h : RReach w) : RGood w := by
  induction h with
  | start => exact start_placed.congrOwn (fun i => rfl)
  | step _ hl he ih =>
    obtain ⟨w', h1, h2⟩ := rexec_good _ _ ih hl
    rw [he] at h1
    cases h1
    exact h2

/-- **C49** for `unique_resource`, in every history of legal uses: nothing is ever undefined, and each resource is held by
the client, or owned by exactly one enabled `unique_resource` and alive, or destroyed, exactly once; when all are gone,
every resource not held by the client was destroyed exactly once. -/
theorem resource_history (w : World (Nat × Bool)) (h : RReach w) :
    (∀ c, rlegal c w → ∃ w', rexec c w = some w') ∧
    w.mem.log.Nodup ∧
    (∀ o, o ∈ w.made → (o ∈ w.raw ∧ o ∉ w.mem.log ∧ ∀ i, w.ptrs i ≠ some (o, true)) ∨
      (o ∉ w.raw ∧ o ∈ w.mem.log ∧ ∀ i, w.ptrs i ≠ some (o, true)) ∨
      (o ∉ w.raw ∧ o ∉ w.mem.log ∧ w.mem.live o = true ∧ ∃ i, w.ptrs i = some (o, true) ∧
        ∀ j, w.ptrs j = some (o, true) → j = i)) ∧
    ((∀ i, w.ptrs i = none) → ∀ o, o ∈ w.made → o ∉ w.raw → w.mem.log.count o = 1) := by
  have hg := rreach_good w h
  have hconv : ∀ i o, w.ptrs i = some (o, true) ↔ ownRs w.ptrs i = some o := by
    intro i o
    unfold ownRs
    constructor
    · intro hi; rw [hi]; rfl
    · intro hi
      unfold ownR at hi
      split at hi
      · rename_i r hr; cases hi; exact hr
      · exact absurd hi (by simp)
  refine ⟨fun c hl => ?_, hg.deleted_once, ?_, ?_⟩
  · obtain ⟨w', h1, -⟩ := rexec_good c w hg hl
    exact ⟨w', h1⟩
  · intro o ho
    rcases (hg.somewhere o).1 ho with h1 | h1 | ⟨i, h1⟩
    · exact Or.inl ⟨h1, hg.raw_not_deleted o h1, fun i hi => hg.owned_not_raw i o ((hconv i o).1 hi) h1⟩
    · exact Or.inr (Or.inl ⟨fun hr => hg.raw_not_deleted o hr h1, h1,
        fun i hi => hg.owned_not_deleted i o ((hconv i o).1 hi) h1⟩)
    · exact Or.inr (Or.inr ⟨hg.owned_not_raw i o h1, hg.owned_not_deleted i o h1, hg.live_of_owned h1, i, (hconv i o).2 h1,
        fun j hj => hg.owner_once j i o ((hconv j o).1 hj) h1⟩)
  · intro hend o ho hr
    rcases (hg.somewhere o).1 ho with h1 | h1 | ⟨i, h1⟩
    · exact absurd h1 hr
    · rw [hg.deleted_once.count, if_pos h1]
    · have := (hconv i o).2 h1
      rw [hend i] at this; exact absurd this (by simp)

/-- A list of commands in turn. -/
def rexecAll : List RCmd → World (Nat × Bool) → Option (World (Nat × Bool))
  | [], w => some w
  | c :: cs, w => (rexec c w).bind (rexecAll cs)

example : ((rexecAll [.new 1, .new 2, .ctor 10 1, .move 11 10, .resetTo 11 2, .assign 10 11, .assign 10 10, .dtor 11, .dtor 10]
    ⟨fun _ => none, ⟨fun _ => false, []⟩, [], []⟩).map fun w => (w.mem.log, w.raw)) = some ([2, 1], []) := by decide +kernel

end Ustl.SmartPtr
