import Verif.Search.Model
namespace Ustl.Search
variable {α β : Type _}

theorem lowerBound_eq {cmpEV : α → β → Bool} {l : List α} {v : β} {first last : Nat}
    (hle : first ≤ last) (hl : last ≤ l.length) :
    ∃ k, lowerBound cmpEV l first last v = some k ∧ first ≤ k ∧ k ≤ last ∧
      ((∀ i j, first ≤ i → (hij : i < j) → (hj : j < last) → cmpEV (l[j]'(by omega)) v = true →
          cmpEV (l[i]'(by omega)) v = true) →
        (∀ i, first ≤ i → (h : i < k) → (h2 : i < l.length) → cmpEV l[i] v = true) ∧
        (∀ i, k ≤ i → (h : i < last) → cmpEV (l[i]'(by omega)) v = false)) := by
  generalize hn : last - first = n
  induction n using Nat.strongRecOn generalizing first last with
  | ind n ih =>
    unfold lowerBound
    by_cases hlt : first < last
    · have hm : first + (last - first) / 2 < l.length := by omega
      simp only [hlt, if_true, rd_eq_some _ _ hm]
      generalize hmid : first + (last - first) / 2 = mid at hm
      split
      · rename_i hc
        obtain ⟨k, hk, h1, h2, h3⟩ := ih (last - (mid + 1)) (by omega) (first := mid + 1) (last := last)
          (by omega) hl rfl
        refine ⟨k, hk, by omega, h2, fun hp => ?_⟩
        obtain ⟨ha, hb⟩ := h3 (fun i j h1 h2 h3 h4 => hp i j (by omega) h2 h3 h4)
        refine ⟨fun i hi hik hil => ?_, hb⟩
        by_cases him : i < mid
        · exact hp i mid hi him (by omega) hc
        · by_cases him2 : i = mid
          · subst him2; exact hc
          · exact ha i (by omega) hik hil
      · rename_i hc
        simp only [Bool.not_eq_true] at hc
        obtain ⟨k, hk, h1, h2, h3⟩ := ih (mid - first) (by omega) (first := first) (last := mid)
          (by omega) (by omega) rfl
        refine ⟨k, hk, h1, by omega, fun hp => ?_⟩
        obtain ⟨ha, hb⟩ := h3 (fun i j h1 h2 h3 h4 => hp i j h1 h2 (by omega) h4)
        refine ⟨ha, fun i hki hil => ?_⟩
        by_cases him : i < mid
        · exact hb i hki him
        · by_cases him2 : i = mid
          · subst him2; exact hc
          · cases hx : cmpEV (l[i]'(by omega)) v with
            | false => rfl
            | true => have := hp mid i (by omega) (by omega) hil hx; rw [hc] at this; cases this
    · have : first = last := by omega
      subst this
      simp only [Nat.lt_irrefl, if_false, if_true]
      refine ⟨first, rfl, Nat.le_refl _, Nat.le_refl _, fun _ => ⟨?_, ?_⟩⟩
      · intro i h1 h2; omega
      · intro i h1 h2; omega

theorem upperBound_eq {cmpVE : β → α → Bool} {l : List α} {v : β} {first last : Nat}
    (hle : first ≤ last) (hl : last ≤ l.length) :
    upperBound cmpVE l first last v = lowerBound (fun x v => !cmpVE v x) l first last v := by
  generalize hn : last - first = n
  induction n using Nat.strongRecOn generalizing first last with
  | ind n ih =>
    unfold upperBound lowerBound
    by_cases hlt : first < last
    · have hm : first + (last - first) / 2 < l.length := by omega
      simp only [hlt, if_true, rd_eq_some _ _ hm]
      cases cmpVE v l[first + (last - first) / 2]
      · simp only [Bool.not_false, if_true, Bool.false_eq_true, if_false]
        exact ih _ (by omega) (by omega) (by omega) rfl
      · simp only [Bool.not_true, if_true, Bool.false_eq_true, if_false]
        exact ih _ (by omega) (by omega) (by omega) rfl
    · have : first = last := by omega
      subst this; simp

/-- Bridge from index form to decomposition form. -/
theorem split_of_index (pre m post : List α) (p : α → Bool) (k : Nat)
    (h1 : pre.length ≤ k) (h2 : k ≤ pre.length + m.length)
    (ha : ∀ i, pre.length ≤ i → (h : i < k) → (h2 : i < (pre ++ m ++ post).length) →
      p (pre ++ m ++ post)[i] = true)
    (hb : ∀ i, k ≤ i → (h : i < pre.length + m.length) →
      p ((pre ++ m ++ post)[i]'(by simp; omega)) = false) :
    ∃ lo hi, m = lo ++ hi ∧ k = pre.length + lo.length ∧ (∀ x ∈ lo, p x = true) ∧
      (∀ x ∈ hi, p x = false) := by
  have hget : ∀ j, (h : j < m.length) → (pre ++ m ++ post)[pre.length + j]'(by simp; omega) = m[j] := by
    intro j h
    simp [h]
  refine ⟨m.take (k - pre.length), m.drop (k - pre.length), by simp, by simp; omega, ?_, ?_⟩
  · intro x hx
    obtain ⟨j, hj, rfl⟩ := List.getElem_of_mem hx
    simp at hj
    have h3 := ha (pre.length + j) (by omega) (by omega) (by simp; omega)
    rw [hget j (by omega)] at h3
    simpa using h3
  · intro x hx
    obtain ⟨j, hj, rfl⟩ := List.getElem_of_mem hx
    simp at hj
    have h3 := hb (pre.length + (k - pre.length + j)) (by omega) (by omega)
    rw [hget _ (by omega)] at h3
    simpa using h3

theorem lowerBound_partitioned (cmpEV : α → β → Bool) (pre m post : List α) (v : β)
    (hp : m.Pairwise (fun a b => cmpEV b v = true → cmpEV a v = true)) :
    ∃ lo hi, m = lo ++ hi ∧
      lowerBound cmpEV (pre ++ m ++ post) pre.length (pre.length + m.length) v
        = some (pre.length + lo.length) ∧
      (∀ x ∈ lo, cmpEV x v = true) ∧ (∀ x ∈ hi, cmpEV x v = false) := by
  obtain ⟨k, hk, h1, h2, h3⟩ := lowerBound_eq (cmpEV := cmpEV) (l := pre ++ m ++ post) (v := v)
    (first := pre.length) (last := pre.length + m.length) (by omega) (by simp)
  have hget : ∀ j, (h : j < m.length) → (pre ++ m ++ post)[pre.length + j]'(by simp; omega) = m[j] := by
    intro j h
    simp [h]
  obtain ⟨ha, hb⟩ := h3 (by
    intro i j hi hij hj hc
    rw [List.pairwise_iff_getElem] at hp
    have e1 := hget (i - pre.length) (by omega)
    have e2 := hget (j - pre.length) (by omega)
    have h1 : pre.length + (i - pre.length) = i := by omega
    have h2 : pre.length + (j - pre.length) = j := by omega
    simp only [h1] at e1
    simp only [h2] at e2
    rw [e1]; rw [e2] at hc
    exact hp _ _ (by omega) (by omega) (by omega) hc)
  obtain ⟨lo, hi, rfl, hk2, hlo, hhi⟩ := split_of_index pre m post (fun x => cmpEV x v) k h1 h2 ha hb
  exact ⟨lo, hi, rfl, by rw [hk, hk2], hlo, hhi⟩

theorem advance_spec (cmpVE : β → α → Bool) (pre m post : List α) (v : β) (last : Nat)
    (hl : last = pre.length + m.length) :
    ∃ lo hi, m = lo ++ hi ∧ advanceWhileNotLess cmpVE (pre ++ m ++ post) pre.length last v
        = some (pre.length + lo.length) ∧ (∀ x ∈ lo, cmpVE v x = false) ∧
        (∀ x, hi.head? = some x → cmpVE v x = true) := by
  induction m generalizing pre with
  | nil =>
    subst hl
    unfold advanceWhileNotLess
    exact ⟨[], [], rfl, by simp, by simp, by simp⟩
  | cons x m ih =>
    unfold advanceWhileNotLess
    have : pre.length < last := by simp at hl; omega
    have hr : rd (pre ++ x :: m ++ post) pre.length = some x := by
      simp
    simp only [this, if_true, hr]
    cases hc : cmpVE v x with
    | true =>
      exact ⟨[], x :: m, rfl, by simp, by simp, by simp [hc]⟩
    | false =>
      obtain ⟨lo, hi, rfl, h2, h3, h4⟩ := ih (pre ++ [x]) (by simp at hl ⊢; omega)
      refine ⟨x :: lo, hi, rfl, ?_, ?_, h4⟩
      · simp at h2 ⊢; rw [h2]; simp; omega
      · intro y hy
        rcases List.mem_cons.mp hy with h | h
        · subst h; exact hc
        · exact h3 y h

end Ustl.Search
