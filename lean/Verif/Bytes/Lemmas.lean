import Verif.Bytes.Model
/-!
# Lemmas about copies
-/
namespace Ustl.Bytes
variable {α : Type _}

theorem Mapped.mono {m : Mem α} {a b : Int} {n k : Nat} (h : Mapped m a n) (h1 : a ≤ b)
    (h2 : b + k ≤ a + n) : Mapped m b k := fun x hx hy => h x (by omega) (by omega)

theorem Mapped.get {m : Mem α} {a : Int} {n : Nat} (h : Mapped m a n) (x : Int) (h1 : a ≤ x)
    (h2 : x < a + n) : ∃ v, m x = some v := Option.isSome_iff_exists.1 (h x h1 h2)

theorem st_of_mapped {m : Mem α} {a : Int} {x : α} (h : (m a).isSome) : m.st a x = some (m.upd a x) := by
  simp [Mem.st, h]

theorem upd_mapped {m : Mem α} {a b : Int} {n : Nat} {x : α} (h : Mapped m b n) :
    Mapped (m.upd a x) b n := by
  intro y h1 h2
  unfold Mem.upd
  split
  · rfl
  · exact h y h1 h2

theorem copied_zero (m : Mem α) (s d : Int) : copied m s 0 d = m := by
  funext x; unfold copied; rw [if_neg (by omega)]

theorem copied_mapped {m : Mem α} {s d b : Int} {n k : Nat} (hs : Mapped m s n) (h : Mapped m b k) :
    Mapped (copied m s n d) b k := by
  intro y h1 h2
  unfold copied
  split
  · exact hs _ (by omega) (by omega)
  · exact h y h1 h2

/-- Copying upwards in two pieces, destination below the source or disjoint. -/
theorem copied_copied_up (m : Mem α) (s d : Int) (a b : Nat)
    (ho : d ≤ s ∨ s + (a + b : Nat) ≤ d) :
    copied (copied m s a d) (s + a) b (d + a) = copied m s (a + b) d := by
  funext x
  unfold copied
  by_cases h1 : d + a ≤ x ∧ x < d + a + b
  · rw [if_pos h1, if_neg (by omega), if_pos (by omega)]
    congr 1; omega
  · rw [if_neg h1]
    by_cases h2 : d ≤ x ∧ x < d + a
    · rw [if_pos h2, if_pos (by omega)]
    · rw [if_neg h2, if_neg (by omega)]

/-- Copying downwards in two pieces, destination above the source or disjoint: first the upper piece of
`a` cells, then the lower piece of `b` cells. -/
theorem copied_copied_down (m : Mem α) (s d : Int) (a b : Nat)
    (ho : s ≤ d ∨ d + (a + b : Nat) ≤ s) :
    copied (copied m (s + b) a (d + b)) s b d = copied m s (a + b) d := by
  funext x
  unfold copied
  by_cases h1 : d ≤ x ∧ x < d + b
  · rw [if_pos h1, if_neg (by omega), if_pos (by omega)]
  · rw [if_neg h1]
    by_cases h2 : d + b ≤ x ∧ x < d + b + a
    · rw [if_pos h2, if_pos (by omega)]; congr 1; omega
    · rw [if_neg h2, if_neg (by omega)]

theorem upd_eq_copied {m : Mem α} {s d : Int} {v : α} (h : m s = some v) :
    m.upd d v = copied m s 1 d := by
  funext x
  unfold Mem.upd copied
  by_cases hx : x = d
  · subst hx; rw [if_pos rfl, if_pos (by omega), ← h]; congr 1; omega
  · rw [if_neg hx, if_neg (by omega)]

theorem movsbUp_spec (n : Nat) : ∀ (m : Mem α) (s d : Int), Mapped m s n → Mapped m d n →
    (d ≤ s ∨ s + n ≤ d) → movsbUp m s n d = some (copied m s n d) := by
  induction n with
  | zero => intro m s d _ _ _; rw [movsbUp, copied_zero]
  | succ n ih =>
    intro m s d hs hd ho
    obtain ⟨v, hv⟩ := hs.get s (by omega) (by omega)
    have h1 : m.st d v = some (m.upd d v) := st_of_mapped (hd d (by omega) (by omega))
    simp only [movsbUp, hv, h1]
    rw [ih _ _ _ (upd_mapped (hs.mono (by omega) (by omega))) (upd_mapped (hd.mono (by omega) (by omega)))
      (by omega), upd_eq_copied hv]
    have := copied_copied_up m s d 1 n (by omega)
    rw [show ((1 : Nat) : Int) = 1 from rfl] at this
    rw [this, Nat.add_comm]

theorem movsbDown_spec (n : Nat) : ∀ (m : Mem α) (s d : Int), Mapped m (s - n) n → Mapped m (d - n) n →
    (s ≤ d ∨ d + n ≤ s) → movsbDown m (s - 1) n (d - 1) = some (copied m (s - n) n (d - n)) := by
  induction n with
  | zero => intro m s d _ _ _; rw [movsbDown, copied_zero]
  | succ n ih =>
    intro m s d hs hd ho
    obtain ⟨v, hv⟩ := hs.get (s - 1) (by omega) (by omega)
    have h1 : m.st (d - 1) v = some (m.upd (d - 1) v) := st_of_mapped (hd _ (by omega) (by omega))
    simp only [movsbDown, hv, h1]
    rw [ih _ _ _ (upd_mapped (hs.mono (by omega) (by omega))) (upd_mapped (hd.mono (by omega) (by omega)))
      (by omega), upd_eq_copied hv]
    have := copied_copied_down m (s - (n + 1 : Nat)) (d - (n + 1 : Nat)) 1 n (by omega)
    rw [show s - 1 = s - (n + 1 : Nat) + n by omega, show d - 1 = d - (n + 1 : Nat) + n by omega,
      show s - (n + 1 : Nat) + n - n = s - (n + 1 : Nat) by omega,
      show d - (n + 1 : Nat) + n - n = d - (n + 1 : Nat) by omega, this, Nat.add_comm 1 n]

theorem ldN_spec (n : Nat) : ∀ (m : Mem α) (s : Int), Mapped m s n →
    ∃ vs, ldN m s n = some vs ∧ vs.length = n ∧ ∀ k : Nat, k < n → m (s + k) = vs[k]? := by
  induction n with
  | zero => intro m s _; exact ⟨[], rfl, rfl, by omega⟩
  | succ n ih =>
    intro m s hs
    obtain ⟨v, hv⟩ := hs.get s (by omega) (by omega)
    obtain ⟨vs, h1, h2, h3⟩ := ih m (s + 1) (hs.mono (by omega) (by omega))
    refine ⟨v :: vs, by simp [ldN, hv, h1], by simp [h2], ?_⟩
    intro k hk
    cases k with
    | zero => simpa using hv
    | succ k =>
      have := h3 k (by omega)
      rw [List.getElem?_cons_succ, ← this]; congr 1; push_cast; omega

theorem stN_spec (vs : List α) : ∀ (m : Mem α) (d : Int), Mapped m d vs.length →
    stN m d vs = some (fun x => if d ≤ x ∧ x < d + vs.length then vs[(x - d).toNat]? else m x) := by
  induction vs with
  | nil =>
    intro m d _
    simp only [stN, Option.some.injEq]
    funext x
    rw [if_neg]
    simp only [List.length_nil]; omega
  | cons v vs ih =>
    intro m d hd
    simp only [List.length_cons] at hd
    simp only [stN, st_of_mapped (hd d (by omega) (by omega))]
    rw [ih _ _ (upd_mapped (hd.mono (by omega) (by omega)))]
    simp only [Option.some.injEq]
    funext x
    simp only [List.length_cons]
    by_cases h1 : d + 1 ≤ x ∧ x < d + 1 + vs.length
    · rw [if_pos h1, if_pos (by omega)]
      rw [show (x - d).toNat = (x - (d + 1)).toNat + 1 by omega, List.getElem?_cons_succ]
    · rw [if_neg h1]
      unfold Mem.upd
      by_cases h2 : x = d
      · subst h2; rw [if_pos rfl, if_pos (by omega)]; simp
      · rw [if_neg h2, if_neg (by omega)]

theorem wide_spec (m : Mem α) (w : Nat) (s d : Int) (hs : Mapped m s w) (hd : Mapped m d w) :
    wide m w s d = some (copied m s w d) := by
  obtain ⟨vs, h1, h2, h3⟩ := ldN_spec w m s hs
  simp only [wide, h1]
  rw [stN_spec _ _ _ (by rw [h2]; exact hd), h2]
  congr 1
  funext x
  unfold copied
  by_cases hx : d ≤ x ∧ x < d + w
  · rw [if_pos hx, if_pos hx, ← h3 _ (by omega)]; congr 1; omega
  · rw [if_neg hx, if_neg hx]

theorem blockCopy_spec (k : Nat) : ∀ (m : Mem α) (s d : Int), s % 16 = 0 → d % 16 = 0 →
    Mapped m s (32 * k) → Mapped m d (32 * k) → (d ≤ s ∨ s + (32 * k : Nat) ≤ d) →
    blockCopy m s k d = some (copied m s (32 * k) d) := by
  induction k with
  | zero => intro m s d _ _ _ _ _; rw [blockCopy, Nat.mul_zero, copied_zero]
  | succ k ih =>
    intro m s d h1 h2 hs hd ho
    rw [blockCopy, if_pos ⟨h1, h2⟩, wide_spec m 32 s d (hs.mono (by omega) (by omega))
      (hd.mono (by omega) (by omega))]
    simp only
    rw [ih _ _ _ (by omega) (by omega)
      (copied_mapped (hs.mono (by omega) (by omega)) (hs.mono (by omega) (by omega)))
      (copied_mapped (hs.mono (by omega) (by omega)) (hd.mono (by omega) (by omega))) (by omega)]
    have := copied_copied_up m s d 32 (32 * k) (by omega)
    rw [show ((32 : Nat) : Int) = 32 from rfl] at this
    rw [this, show 32 + 32 * k = 32 * (k + 1) by omega]

theorem movsdDown_spec (k : Nat) : ∀ (m : Mem α) (s d : Int), Mapped m (s - (4 * k : Nat)) (4 * k) →
    Mapped m (d - (4 * k : Nat)) (4 * k) → (s ≤ d ∨ d + (4 * k : Nat) ≤ s) →
    movsdDown m (s - 4) k (d - 4) = some (copied m (s - (4 * k : Nat)) (4 * k) (d - (4 * k : Nat))) := by
  induction k with
  | zero => intro m s d _ _ _; rw [movsdDown, Nat.mul_zero, copied_zero]
  | succ k ih =>
    intro m s d hs hd ho
    rw [movsdDown, wide_spec m 4 (s - 4) (d - 4) (hs.mono (by omega) (by omega))
      (hd.mono (by omega) (by omega))]
    simp only
    rw [ih _ _ _
      (copied_mapped (hs.mono (by omega) (by omega)) (hs.mono (by omega) (by omega)))
      (copied_mapped (hs.mono (by omega) (by omega)) (hd.mono (by omega) (by omega))) (by omega)]
    have := copied_copied_down m (s - (4 * (k + 1) : Nat)) (d - (4 * (k + 1) : Nat)) 4 (4 * k) (by omega)
    rw [show s - 4 = s - (4 * (k + 1) : Nat) + (4 * k : Nat) by omega,
      show d - 4 = d - (4 * (k + 1) : Nat) + (4 * k : Nat) by omega,
      Int.add_sub_cancel, Int.add_sub_cancel,  this, show 4 + 4 * k = 4 * (k + 1) by omega]

theorem padTo_aligned (p : Int) : (p + padTo p 16) % 16 = 0 := by
  unfold padTo
  omega

theorem st_none {m m' : Mem α} {a b : Int} {v : α} (h : m.st b v = some m') (hm : m a = none) :
    m' a = none := by
  unfold Mem.st at h
  split at h
  · rename_i hd
    cases h
    unfold Mem.upd
    rw [if_neg, hm]
    intro e'; rw [← e', hm] at hd; simp at hd
  · cases h

/-- Moves never map an unmapped address. -/
theorem movsbDown_unmapped (n : Nat) : ∀ (m m' : Mem α) (s d a : Int), movsbDown m s n d = some m' →
    m a = none → m' a = none := by
  induction n with
  | zero => intro m m' s d a h hm; cases h; exact hm
  | succ n ih =>
    intro m m' s d a h hm
    simp only [movsbDown] at h
    split at h
    · cases h
    · split at h
      · cases h
      · rename_i h1
        exact ih _ _ _ _ _ h (st_none h1 hm)

/-- A downward move that reaches an unmapped source address faults. -/
theorem movsbDown_none (n : Nat) : ∀ (m : Mem α) (s d : Int) (k : Nat), k < n → m (s - k) = none →
    movsbDown m s n d = none := by
  induction n with
  | zero => intro m s d k hk _; omega
  | succ n ih =>
    intro m s d k hk hm
    unfold movsbDown
    cases hs : m s with
    | none => rfl
    | some v =>
      simp only
      cases hst : m.st d v with
      | none => rfl
      | some m' =>
        simp only
        have hk0 : k ≠ 0 := by rintro rfl; simp [hs] at hm
        refine ih m' _ _ (k - 1) (by omega) ?_
        have e : s - 1 - ((k - 1 : Nat) : Int) = s - k := by omega
        rw [e]
        exact st_none hst hm

end Ustl.Bytes
