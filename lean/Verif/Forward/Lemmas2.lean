import Verif.Forward.Lemmas
import Mathlib.Algebra.Group.Defs
import Mathlib.Algebra.Group.Basic
namespace Ustl.Forward
variable {α β γ : Type _}

theorem matchAt_at (comp : α → β → Bool) (l : List α) (pat : List β) : ∀ j, j + pat.length ≤ l.length →
    ∃ b, matchAt comp l j pat = some b ∧
      (b = true ↔ ∀ k a c, l[j + k]? = some a → pat[k]? = some c → comp a c = true) := by
  induction pat with
  | nil => intro j _; exact ⟨true, rfl, by simp⟩
  | cons c pat ih =>
    intro j hj
    simp at hj
    unfold matchAt
    rw [rd_eq_some l j (by omega)]
    simp only
    cases hc : comp l[j] c with
    | false =>
      refine ⟨false, rfl, ?_⟩
      simp only [Bool.false_eq_true, false_iff]
      intro h
      have := h 0 l[j] c (by simp [List.getElem?_eq_getElem]) (by simp)
      rw [hc] at this; cases this
    | true =>
      obtain ⟨b, h1, h2⟩ := ih (j + 1) (by omega)
      refine ⟨b, by simpa using h1, h2.trans ⟨?_, ?_⟩⟩
      · intro h k a d ha hd
        cases k with
        | zero =>
          simp at hd; subst hd
          rw [Nat.add_zero, List.getElem?_eq_getElem (by omega)] at ha
          cases ha; exact hc
        | succ k => exact h k a d (by rw [← ha]; congr 1; omega) (by simpa using hd)
      · intro h k a d ha hd
        exact h (k + 1) a d (by rw [← ha]; congr 1; omega) (by simpa using hd)

theorem seg_get (pre m post : List α) (k : Nat) (hk : k < m.length) :
    (pre ++ m ++ post)[pre.length + k]? = m[k]? := by
  rw [List.append_assoc, List.getElem?_append_right (by omega), Nat.add_sub_cancel_left,
    List.getElem?_append_left hk]

theorem matchAt_occurs (comp : α → β → Bool) (pre m post : List α) (pat : List β) (i : Nat)
    (hi : i + pat.length ≤ m.length) :
    ∃ b, matchAt comp (pre ++ m ++ post) (pre.length + i) pat = some b ∧ (b = true ↔ OccursAt comp m pat i) := by
  obtain ⟨b, h1, h2⟩ := matchAt_at comp (pre ++ m ++ post) pat (pre.length + i) (by simp; omega)
  refine ⟨b, h1, h2.trans ⟨fun h => ⟨hi, fun k a c ha hc => ?_⟩, fun h k a c ha hc => ?_⟩⟩
  · refine h k a c ?_ hc
    have hk : k < pat.length := by
      rcases Nat.lt_or_ge k pat.length with h | h
      · exact h
      · rw [List.getElem?_eq_none h] at hc; cases hc
    rw [Nat.add_assoc, seg_get _ _ _ _ (by omega)]; exact ha
  · refine h.2 k a c ?_ hc
    have hk : k < pat.length := by
      rcases Nat.lt_or_ge k pat.length with h | h
      · exact h
      · rw [List.getElem?_eq_none h] at hc; cases hc
    rw [Nat.add_assoc, seg_get _ _ _ _ (by omega)] at ha; exact ha

theorem searchLoop_at (comp : α → β → Bool) (pre m post : List α) (pat : List β) (last : Nat) (slast : Int)
    (hs : slast = (pre.length : Int) + m.length - pat.length + 1) (n : Nat) :
    ∀ i, m.length + 1 - i = n → (∀ j, j < i → ¬ OccursAt comp m pat j) →
    ∃ r, searchLoop comp (pre ++ m ++ post) (pre.length + i) last pat slast = some r ∧
      ((∃ i', r = pre.length + i' ∧ OccursAt comp m pat i' ∧ ∀ j, j < i' → ¬ OccursAt comp m pat j) ∨
       (r = last ∧ ∀ j, ¬ OccursAt comp m pat j)) := by
  induction n with
  | zero =>
    intro i hi hno
    unfold searchLoop
    rw [dif_neg (by omega)]
    exact ⟨last, rfl, Or.inr ⟨rfl, fun j hj => hno j (by have := hj.1; omega) hj⟩⟩
  | succ n ih =>
    intro i hi hno
    unfold searchLoop
    by_cases h : ((pre.length + i : Nat) : Int) < slast
    · rw [dif_pos h]
      obtain ⟨b, h1, h2⟩ := matchAt_occurs comp pre m post pat i (by omega)
      rw [h1]
      cases b with
      | true => exact ⟨_, rfl, Or.inl ⟨i, rfl, h2.mp rfl, hno⟩⟩
      | false =>
        refine ih (i + 1) (by omega) (fun j hj hocc => ?_)
        rcases Nat.lt_or_ge j i with h' | h'
        · exact hno j h' hocc
        · have : j = i := by omega
          subst this
          have := h2.mpr hocc
          cases this
    · rw [dif_neg h]
      refine ⟨last, rfl, Or.inr ⟨rfl, fun j hj => ?_⟩⟩
      exact hno j (by have := hj.1; omega) hj

theorem findEndLoop_at (comp : α → β → Bool) (pre m post : List α) (pat : List β) (last : Nat) (i : Nat) :
    i + pat.length ≤ m.length → (∀ j, i < j → ¬ OccursAt comp m pat j) →
    ∃ r, findEndLoop comp (pre ++ m ++ post) pre.length last pat ((pre.length : Int) + i) = some r ∧
      ((∃ i', 0 < i' ∧ r = pre.length + i' ∧ OccursAt comp m pat i' ∧ ∀ j, i' < j → ¬ OccursAt comp m pat j) ∨
       (r = last ∧ ∀ j, 0 < j → ¬ OccursAt comp m pat j)) := by
  induction i with
  | zero =>
    intro _ hno
    unfold findEndLoop
    rw [dif_neg (by omega)]
    exact ⟨last, rfl, Or.inr ⟨rfl, hno⟩⟩
  | succ i ih =>
    intro hi hno
    unfold findEndLoop
    rw [dif_pos (by omega)]
    have e : ((pre.length : Int) + ((i + 1 : Nat) : Int)).toNat = pre.length + (i + 1) := by omega
    rw [e]
    obtain ⟨b, h1, h2⟩ := matchAt_occurs comp pre m post pat (i + 1) hi
    rw [h1]
    cases b with
    | true => exact ⟨_, rfl, Or.inl ⟨i + 1, by omega, rfl, h2.mp rfl, hno⟩⟩
    | false =>
      simp only
      rw [show (pre.length : Int) + ((i + 1 : Nat) : Int) - 1 = (pre.length : Int) + (i : Int) by omega]
      refine ih (by omega) (fun j hj hocc => ?_)
      rcases Nat.lt_or_ge (i + 1) j with h' | h'
      · exact hno j h' hocc
      · have : j = i + 1 := by omega
        subst this
        have := h2.mpr hocc
        cases this

/-- A run of `count` elements matching `v` at position `i`. -/
theorem occursAt_replicate (comp : α → β → Bool) (m : List α) (v : β) (count i : Nat) :
    OccursAt comp m (List.replicate count v) i ↔
      i + count ≤ m.length ∧ ∀ k a, k < count → m[i + k]? = some a → comp a v = true := by
  constructor
  · rintro ⟨h1, h2⟩
    refine ⟨by simpa using h1, fun k a hk ha => h2 k a v ha ?_⟩
    rw [List.getElem?_replicate, if_pos hk]
  · rintro ⟨h1, h2⟩
    refine ⟨by simpa using h1, fun k a b ha hb => ?_⟩
    rw [List.getElem?_replicate] at hb
    by_cases hk : k < count
    · rw [if_pos hk] at hb; cases hb; exact h2 k a hk ha
    · rw [if_neg hk] at hb; cases hb

theorem searchN_at (comp : α → β → Bool) (pre m post : List α) (v : β) (count : Nat) (hcount : 0 < count) (d : Nat) :
    ∀ i n, m.length - i = d → i ≤ m.length → n < count → n ≤ i →
    (∀ k a, i - n ≤ k → k < i → m[k]? = some a → comp a v = true) →
    (n < i → ∃ a, m[i - n - 1]? = some a ∧ comp a v = false) →
    (∀ j, OccursAt comp m (List.replicate count v) j → i < j + count) →
    ∃ r, searchN comp (pre ++ m ++ post) (pre.length + i) (pre.length + m.length) count v n = some r ∧
      ((∃ i', r = pre.length + i' ∧ OccursAt comp m (List.replicate count v) i' ∧
          ∀ j, j < i' → ¬ OccursAt comp m (List.replicate count v) j) ∨
       (r = pre.length + m.length ∧ ∀ j, ¬ OccursAt comp m (List.replicate count v) j)) := by
  induction d with
  | zero =>
    intro i n hd hi hn hni h1 h2 h3
    unfold searchN
    rw [if_neg (by omega), if_pos (by omega)]
    refine ⟨_, rfl, Or.inr ⟨rfl, fun j hj => ?_⟩⟩
    have := h3 j hj
    have := ((occursAt_replicate comp m v count j).mp hj).1
    omega
  | succ d ih =>
    intro i n hd hi hn hni h1 h2 h3
    unfold searchN
    have hlt : i < m.length := by omega
    have hrd : rd (pre ++ m ++ post) (pre.length + i) = some m[i] := by
      rw [rd, seg_get _ _ _ _ hlt, List.getElem?_eq_getElem hlt]
    rw [if_pos (by omega), hrd]
    simp only
    have hget : m[i]? = some m[i] := List.getElem?_eq_getElem hlt
    cases hc : comp m[i] v with
    | true =>
      simp only [if_true]
      have h1' : ∀ k a, i - n ≤ k → k < i + 1 → m[k]? = some a → comp a v = true := by
        intro k a hk1 hk2 ha
        rcases Nat.lt_or_ge k i with h | h
        · exact h1 k a hk1 h ha
        · have : k = i := by omega
          subst this; rw [hget] at ha; cases ha; exact hc
      by_cases hfin : n + 1 = count
      · rw [if_pos hfin]
        refine ⟨_, rfl, Or.inl ⟨i - n, by omega, ?_, ?_⟩⟩
        · rw [occursAt_replicate]
          exact ⟨by omega, fun k a hk ha => h1' (i - n + k) a (by omega) (by omega) ha⟩
        · intro j hj hocc
          have := h3 j hocc
          omega
      · rw [if_neg hfin]
        refine ih (i + 1) (n + 1) (by omega) (by omega) (by omega) (by omega) ?_ ?_ ?_
        · intro k a hk1 hk2 ha; exact h1' k a (by omega) hk2 ha
        · intro h
          obtain ⟨a, ha, hca⟩ := h2 (by omega)
          exact ⟨a, by rw [← ha]; congr 1; omega, hca⟩
        · intro j hocc
          have hj := h3 j hocc
          rcases Nat.lt_or_ge (i + 1) (j + count) with h | h
          · exact h
          · exfalso
            have hjc : j + count = i + 1 := by omega
            have hocc' := (occursAt_replicate comp m v count j).mp hocc
            obtain ⟨a, ha, hca⟩ := h2 (by omega)
            have := hocc'.2 (i - n - 1 - j) a (by omega) (by rw [← ha]; congr 1; omega)
            rw [hca] at this; cases this
    | false =>
      simp only [Bool.false_eq_true, if_false]
      refine ih (i + 1) 0 (by omega) (by omega) hcount (by omega) (by intro k a h1 h2; omega) ?_ ?_
      · intro _; exact ⟨m[i], by simpa using hget, hc⟩
      · intro j hocc
        have hj := h3 j hocc
        rcases Nat.lt_or_ge (i + 1) (j + count) with h | h
        · exact h
        · exfalso
          have hocc' := (occursAt_replicate comp m v count j).mp hocc
          have := hocc'.2 (i - j) m[i] (by omega) (by rw [← hget]; congr 1; omega)
          rw [hc] at this; cases this

theorem findFirstOf_at (comp : α → β → Bool) (set : List β) (l : List α) (d : Nat) : ∀ f t, t - f = d →
    findFirstOf comp l f t set = findIf (fun x => set.any (comp x)) l f t := by
  induction d with
  | zero =>
    intro f t hd
    unfold findFirstOf findIf
    have h : ¬ f < t := by omega
    simp only [h, if_false]
  | succ d ih =>
    intro f t hd
    unfold findFirstOf findIf
    rw [if_pos (by omega), if_pos (by omega), ih (f + 1) t (by omega)]

theorem isSorted_at {comp : α → α → Bool} (m : List α) : ∀ (pre post : List α) (f t : Nat), f = pre.length →
    t = f + m.length →
    ∃ b, isSorted comp (pre ++ m ++ post) f t = some b ∧
      (b = true ↔ ∀ k x y, m[k]? = some x → m[k + 1]? = some y → comp y x = false) := by
  induction m with
  | nil =>
    intro pre post f t hf ht
    simp at ht; subst ht
    unfold isSorted
    rw [if_neg (by omega)]
    exact ⟨true, rfl, by simp⟩
  | cons x m ih =>
    intro pre post f t hf ht
    obtain ⟨h1, h2, h3⟩ := step_facts hf ht
    unfold isSorted
    match m with
    | [] =>
      rw [if_neg (by simp at ht; omega)]
      exact ⟨true, rfl, by simp⟩
    | y :: m =>
      have r1 : rd (pre ++ (x :: y :: m) ++ post) f = some x := by subst hf; simp [rd]
      have r2 : rd (pre ++ (x :: y :: m) ++ post) (f + 1) = some y := by subst hf; simp [rd]
      rw [if_pos (by simp at ht; omega), r1, r2]
      simp only
      cases hc : comp y x with
      | true =>
        refine ⟨false, rfl, ?_⟩
        simp only [Bool.false_eq_true, false_iff]
        intro h
        have := h 0 x y (by simp) (by simp)
        rw [hc] at this; cases this
      | false =>
        obtain ⟨b, e1, e2⟩ := ih (pre ++ [x]) post (f + 1) t h2 h3
        refine ⟨b, by rw [seg_cons]; simpa using e1, e2.trans ⟨?_, ?_⟩⟩
        · intro h k u v hu hv
          cases k with
          | zero => simp at hu hv; subst hu; subst hv; exact hc
          | succ k => exact h k u v (by simpa using hu) (by simpa using hv)
        · intro h k u v hu hv
          exact h (k + 1) u v (by simpa using hu) (by simpa using hv)

theorem adjacent_sorted {lt : α → α → Bool} (hlt : StrictWeak lt) (m : List α) :
    (∀ k x y, m[k]? = some x → m[k + 1]? = some y → lt y x = false) ↔ Sorted lt m := by
  induction m with
  | nil => simp [Sorted]
  | cons x m ih =>
    rw [Sorted, List.pairwise_cons]
    constructor
    · intro h
      have hm : Sorted lt m := ih.mp (fun k u v hu hv => h (k + 1) u v (by simpa using hu) (by simpa using hv))
      refine ⟨fun z hz => ?_, hm⟩
      match m, hm, hz, h with
      | y :: m, hm, hz, h =>
        have hxy := h 0 x y (by simp) (by simp)
        rcases List.mem_cons.mp hz with e | e
        · subst e; exact hxy
        · exact hlt.le_trans hxy ((List.pairwise_cons.mp hm).1 z e)
    · rintro ⟨h1, h2⟩ k u v hu hv
      cases k with
      | zero => simp at hu hv; subst hu; exact h1 v (List.mem_of_getElem? hv)
      | succ k => exact ih.mpr h2 k u v (by simpa using hu) (by simpa using hv)

theorem lexCompare_iff {lt : α → α → Bool} (a b : List α) : lexCompare lt a b = true ↔ LexLt lt a b := by
  induction a generalizing b with
  | nil => cases b <;> simp [lexCompare, LexLt]
  | cons x a ih =>
    cases b with
    | nil => simp [lexCompare, LexLt]
    | cons y b =>
      simp only [lexCompare, LexLt, Equiv]
      cases h1 : lt x y <;> cases h2 : lt y x <;> simp [ih]

theorem maxElement_at {lt : α → α → Bool} (hlt : StrictWeak lt) (pre m post : List α) (d : Nat) :
    ∀ i r, m.length - i = d → i ≤ m.length → r < m.length →  r ≤ i →
    (∀ k x y, k < i → m[k]? = some x → m[r]? = some y → lt y x = false) →
    (∀ k x y, k < r → m[k]? = some x → m[r]? = some y → lt x y = true) →
    ∃ r', maxElement lt (pre ++ m ++ post) (pre.length + i) (pre.length + m.length) (pre.length + r)
        = some (pre.length + r') ∧ r' < m.length ∧
      (∀ (k : Nat) x y, m[k]? = some x → m[r']? = some y → lt y x = false) ∧
      (∀ k x y, k < r' → m[k]? = some x → m[r']? = some y → lt x y = true) := by
  induction d with
  | zero =>
    intro i r hd hi hr hri h1 h2
    unfold maxElement
    rw [if_neg (by omega), if_pos (by omega)]
    refine ⟨r, rfl, hr, fun k x y hx hy => ?_, h2⟩
    refine h1 k x y ?_ hx hy
    have : k < m.length := by
      rcases Nat.lt_or_ge k m.length with h | h
      · exact h
      · rw [List.getElem?_eq_none h] at hx; cases hx
    omega
  | succ d ih =>
    intro i r hd hi hr hri h1 h2
    unfold maxElement
    have hlt' : i < m.length := by omega
    have g : ∀ k (hk : k < m.length), rd (pre ++ m ++ post) (pre.length + k) = some m[k] := by
      intro k hk; rw [rd, seg_get _ _ _ _ hk, List.getElem?_eq_getElem hk]
    rw [if_pos (by omega), g r hr, g i hlt']
    simp only
    have gi : m[i]? = some m[i] := List.getElem?_eq_getElem hlt'
    have gr : m[r]? = some m[r] := List.getElem?_eq_getElem hr
    cases hc : lt m[r] m[i] with
    | true =>
      simp only [if_true]
      have hk : ∀ k x, k < i → m[k]? = some x → lt x m[i] = true := fun k x hk hx =>
        hlt.lt_of_le_of_lt (h1 k x _ hk hx gr) hc
      refine ih (i + 1) i (by omega) (by omega) hlt' (by omega) ?_ ?_
      · intro k x y hk' hx hy
        rw [gi] at hy; cases hy
        rcases Nat.lt_or_ge k i with h | h
        · exact hlt.asymm (hk k x h hx)
        · have : k = i := by omega
          subst this; rw [gi] at hx; cases hx; exact hlt.irrefl _
      · intro k x y hk' hx hy
        rw [gi] at hy; cases hy
        exact hk k x hk' hx
    | false =>
      simp only [Bool.false_eq_true, if_false]
      refine ih (i + 1) r (by omega) (by omega) hr (by omega) ?_ h2
      intro k x y hk' hx hy
      rcases Nat.lt_or_ge k i with h | h
      · exact h1 k x y h hx hy
      · have : k = i := by omega
        subst this; rw [gi] at hx; cases hx; rw [gr] at hy; cases hy; exact hc

theorem minElement_eq (lt : α → α → Bool) (l : List α) (d : Nat) : ∀ f t r, t - f = d →
    minElement lt l f t r = maxElement (fun a b => lt b a) l f t r := by
  induction d with
  | zero =>
    intro f t r hd
    unfold minElement maxElement
    have h : ¬ f < t := by omega
    simp only [h, if_false]
  | succ d ih =>
    intro f t r hd
    unfold minElement maxElement
    rw [if_pos (by omega), if_pos (by omega)]
    cases h1 : rd l f <;> cases h2 : rd l r <;> simp only
    exact ih _ _ _ (by omega)

theorem minmaxElement_eq (lt : α → α → Bool) (l : List α) (d : Nat) : ∀ f t lo hi a b, t - f = d →
    minElement lt l f t lo = some a → maxElement lt l f t hi = some b →
    minmaxElement lt l f t lo hi = some (a, b) := by
  induction d with
  | zero =>
    intro f t lo hi a b hd h1 h2
    unfold minElement at h1
    unfold maxElement at h2
    unfold minmaxElement
    rw [if_neg (by omega)] at h1 h2 ⊢
    by_cases h : f = t
    · rw [if_pos h] at h1 h2 ⊢; cases h1; cases h2; rfl
    · rw [if_neg h] at h1; cases h1
  | succ d ih =>
    intro f t lo hi a b hd h1 h2
    unfold minElement at h1
    unfold maxElement at h2
    unfold minmaxElement
    rw [if_pos (by omega)] at h1 h2 ⊢
    cases r1 : rd l f with
    | none => simp [r1] at h1
    | some x =>
      cases r2 : rd l lo with
      | none => simp [r1, r2] at h1
      | some y =>
        cases r3 : rd l hi with
        | none => simp [r1, r3] at h2
        | some z =>
          simp only [r1, r2] at h1
          simp only [r1, r3] at h2
          exact ih _ _ _ _ _ _ (by omega) h1 h2

/-! numeric -/

theorem accumulate_at (op : β → α → β) (m : List α) : ∀ (pre post : List α) (f t : Nat) (init : β),
    f = pre.length → t = f + m.length → accumulate op (pre ++ m ++ post) f t init = some (m.foldl op init) := by
  induction m with
  | nil =>
    intro pre post f t init hf ht
    simp at ht; subst ht
    unfold accumulate; simp
  | cons x m ih =>
    intro pre post f t init hf ht
    obtain ⟨h1, h2, h3⟩ := step_facts hf ht
    rw [seg_cons]
    unfold accumulate
    rw [if_pos h1, rd_seg _ _ _ _ _ hf]
    simp only
    rw [ih _ post _ _ _ h2 h3]; rfl

theorem iota_at (succ : α → α) (m : List α) : ∀ (pre post : List α) (f t : Nat) (v : α),
    f = pre.length → t = f + m.length →
    iota succ (pre ++ m ++ post) f t v = some (pre ++ consecutive succ v m.length ++ post) := by
  induction m with
  | nil =>
    intro pre post f t v hf ht
    simp at ht; subst ht
    unfold iota; simp [consecutive]
  | cons x m ih =>
    intro pre post f t v hf ht
    obtain ⟨h1, h2, h3⟩ := step_facts hf ht
    rw [seg_cons]
    unfold iota
    rw [if_pos h1, wr_seg _ _ _ _ _ _ hf]
    simp only
    rw [ih _ post _ _ _ (by simp [hf]) h3]
    simp [consecutive]

theorem innerProduct_at (sumOp : γ → γ → γ) (productOp : α → β → γ) (m : List α) : ∀ (pre post : List α) (f t : Nat)
    (w pre2 post2 : List β) (f2 : Nat) (init : γ), f = pre.length → t = f + m.length → f2 = pre2.length →
    m.length = w.length →
    innerProduct sumOp productOp (pre ++ m ++ post) f t (pre2 ++ w ++ post2) f2 init
      = some ((List.zipWith productOp m w).foldl sumOp init) := by
  induction m with
  | nil =>
    intro pre post f t w pre2 post2 f2 init hf ht _ _
    simp at ht; subst ht
    unfold innerProduct; simp
  | cons x m ih =>
    intro pre post f t w pre2 post2 f2 init hf ht hf2 hw
    obtain ⟨h1, h2, h3⟩ := step_facts hf ht
    match w, hw with
    | y :: w, hw =>
      rw [seg_cons pre, seg_cons pre2]
      unfold innerProduct
      rw [if_pos h1, rd_seg _ _ _ _ _ hf, rd_seg _ _ _ _ _ hf2]
      simp only
      rw [ih _ post _ _ w (pre2 ++ [y]) post2 (f2 + 1) _ h2 h3 (by simp [hf2]) (by simpa using hw)]
      simp

theorem partialSumLoop_at (op : α → α → α) (m : List α) : ∀ (pre post : List α) (f t : Nat)
    (dpre dm dpost : List α) (acc : α) (r : Nat), f = pre.length → t = f + m.length → r = dpre.length →
    dm.length = m.length →
    partialSumLoop false op (pre ++ m ++ post) f t (dpre ++ acc :: dm ++ dpost) r
      = some (dpre ++ acc :: prefixSums op acc m ++ dpost, r + m.length) := by
  induction m with
  | nil =>
    intro pre post f t dpre dm dpost acc r hf ht _ hd
    simp at ht; subst ht
    have : dm = [] := List.eq_nil_of_length_eq_zero (by simpa using hd)
    subst this
    unfold partialSumLoop; simp [prefixSums]
  | cons x m ih =>
    intro pre post f t dpre dm dpost acc r hf ht hr hd
    obtain ⟨h1, h2, h3⟩ := step_facts hf ht
    match dm, hd with
    | y :: dm, hd =>
      rw [seg_cons pre]
      unfold partialSumLoop
      have r1 : rd (dpre ++ acc :: y :: dm ++ dpost) (if false = true then r + 1 else r) = some acc := by
        subst hr; simp [rd]
      have w1 : wr (dpre ++ acc :: y :: dm ++ dpost) (r + 1) (op x acc)
          = some ((dpre ++ [acc]) ++ op x acc :: dm ++ dpost) := by
        have : dpre ++ acc :: y :: dm ++ dpost = (dpre ++ [acc]) ++ y :: (dm ++ dpost) := by simp
        rw [this, wr_at' _ _ _ _ _ (by simp [hr])]; simp
      rw [if_pos h1, rd_seg _ _ _ _ _ hf, r1]
      simp only
      rw [w1]
      simp only
      rw [ih _ post _ _ (dpre ++ [acc]) dm dpost _ (r + 1) h2 h3 (by simp [hr]) (by simpa using hd)]
      simp [prefixSums]; omega

theorem adjDiffRun_at (op : α → α → α) (l : List α) (last f : Nat) (hf : f < last) (hl : last ≤ l.length) (n : Nat) :
    ∀ out, ∃ out', adjDiffRun op l last n (f, out) = some (f, out') ∧ out'.length = out.length + n := by
  induction n with
  | zero => intro out; exact ⟨out, rfl, rfl⟩
  | succ n ih =>
    intro out
    have : adjDiffStep op l last (f, out) = some (f, out ++ [op l[f] l[f - 1]]) := by
      rw [adjDiffStep, if_pos hf]
      simp only
      rw [rd_eq_some l f (by omega), rd_eq_some l (f - 1) (by omega)]
    unfold adjDiffRun
    rw [this]
    simp only
    obtain ⟨out', h1, h2⟩ := ih (out ++ [op l[f] l[f - 1]])
    exact ⟨out', h1, by rw [h2]; simp; omega⟩

theorem powerLoop_at {M : Type _} [Monoid M] (n : Nat) : ∀ (x r : M),
    powerLoop (· * ·) x n r = r * (x * x) ^ (n / 2) := by
  induction n using Nat.strongRecOn with
  | ind n ih =>
    intro x r
    unfold powerLoop
    by_cases h : n / 2 = 0
    · rw [if_pos h, h, pow_zero, mul_one]
    · rw [if_neg h]
      simp only
      rw [ih (n / 2) (by omega), ← pow_two (x * x), ← pow_mul]
      generalize n / 2 = k
      rcases Nat.mod_two_eq_zero_or_one k with h0 | h0
      · rw [if_neg (by omega), show 2 * (k / 2) = k by omega]
      · rw [if_pos h0, mul_assoc, ← pow_succ', show 2 * (k / 2) + 1 = k by omega]

end Ustl.Forward
