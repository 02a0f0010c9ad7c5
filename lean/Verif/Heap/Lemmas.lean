import Verif.Heap.Spec
namespace Ustl.Heap
variable {α : Type _}

/-- parent/child pair in order -/
def Ok (lt : α → α → Bool) (l : List α) (p j : Nat) : Prop :=
  ∀ x y, l[p]? = some x → l[j]? = some y → lt x y = false

theorem trickleLoop_spec {lt : α → α → Bool} (hlt : StrictWeak lt) (v : α) (n : Nat) :
    ∀ (l : List α) (i k : Nat), i < n → n ≤ l.length → k ≤ i →
    (∀ j, 0 < j → j < n → k ≤ (j - 1) / 2 → (j - 1) / 2 ≠ i → Ok lt (l.set i v) ((j - 1) / 2) j) →
    (∀ j, 0 < j → j < n → (j - 1) / 2 = i → 0 < i → k ≤ (i - 1) / 2 → Ok lt (l.set i v) ((i - 1) / 2) j) →
    ∃ r, trickleLoop lt v l i n = some r ∧ r.Perm (l.set i v) ∧
      (∀ j, 0 < j → j < n → k ≤ (j - 1) / 2 → Ok lt r ((j - 1) / 2) j) ∧
      (∀ j, n ≤ j → r[j]? = l[j]?) := by
  intro l i k
  generalize hm : n - i = m
  induction m using Nat.strongRecOn generalizing l i with
  | ind m ih =>
    intro hi hn hk h1 h2
    have hfin : (∀ j, 0 < j → j < n → (j - 1) / 2 = i → Ok lt (l.set i v) i j) →
        ∃ r, wr l i v = some r ∧ r.Perm (l.set i v) ∧
        (∀ j, 0 < j → j < n → k ≤ (j - 1) / 2 → Ok lt r ((j - 1) / 2) j) ∧
        (∀ j, n ≤ j → r[j]? = l[j]?) := by
      intro h
      refine ⟨_, wr_eq_some l i v (by omega), .refl _, ?_, ?_⟩
      · intro j hj hjn hkj
        by_cases hji : (j - 1) / 2 = i
        · rw [hji]; exact h j hj hjn hji
        · exact h1 j hj hjn hkj hji
      · intro j hj; rw [List.getElem?_set_ne (by omega)]
    unfold trickleLoop
    by_cases hc : 2 * i + 1 < n
    · simp only [hc, if_true]
      -- choose the child
      have hinc : ∃ inc, childInc lt l (2 * i + 1) n = some inc ∧ 2 * i + 1 + inc.toNat < n ∧
          (∀ j, j < n → (j = 2 * i + 1 ∨ j = 2 * i + 2) → ∀ x y, l[2 * i + 1 + inc.toNat]? = some x →
            l[j]? = some y → lt x y = false) := by
        unfold childInc
        by_cases hc2 : 2 * i + 1 + 1 < n
        · simp only [hc2, if_true, rd_eq_some l (2 * i + 1) (by omega), rd_eq_some l (2 * i + 1 + 1) (by omega)]
          refine ⟨_, rfl, ?_, ?_⟩
          · cases lt l[2 * i + 1] l[2 * i + 1 + 1] <;> simp <;> omega
          · intro j hj hjj x y hx hy
            cases hb : lt l[2 * i + 1] l[2 * i + 1 + 1] with
            | false =>
              simp only [hb, Bool.toNat_false, Nat.add_zero] at hx
              rw [List.getElem?_eq_getElem (by omega)] at hx; cases hx
              rcases hjj with rfl | rfl <;> rw [List.getElem?_eq_getElem (by omega)] at hy <;> cases hy
              · exact hlt.irrefl _
              · exact hb
            | true =>
              simp only [hb, Bool.toNat_true] at hx
              rw [List.getElem?_eq_getElem (by omega)] at hx; cases hx
              rcases hjj with rfl | rfl <;> rw [List.getElem?_eq_getElem (by omega)] at hy <;> cases hy
              · exact hlt.asymm hb
              · exact hlt.irrefl _
        · simp only [hc2, if_false]
          refine ⟨false, rfl, by simpa using hc, ?_⟩
          intro j hj hjj x y hx hy
          have : j = 2 * i + 1 := by omega
          subst this
          simp only [Bool.toNat_false, Nat.add_zero] at hx
          rw [hx] at hy; cases hy; exact hlt.irrefl _
      obtain ⟨inc, hinc1, hcn, hbig⟩ := hinc
      have hle : inc.toNat ≤ 1 := Bool.toNat_le inc
      simp only [hinc1]
      generalize hcdef : 2 * i + 1 + inc.toNat = c at *
      have hcl : c < l.length := by omega
      simp only [rd_eq_some l c hcl]
      by_cases hv : lt v l[c] = true
      · simp only [hv, if_true, wr_eq_some l i l[c] (by omega)]
        have hci : c ≠ i := by omega
        have hlen : (l.set i l[c]).length = l.length := by simp
        -- logical array after the move
        have hg : ∀ q : Nat, ((l.set i l[c]).set c v)[q]? =
            if q = c then some v else if q = i then some l[c] else l[q]? := by
          intro q
          simp only [List.getElem?_set, List.length_set]
          by_cases e1 : c = q
          · subst e1; simp [hcl]
          · by_cases e2 : i = q
            · subst e2; simp [e1, Ne.symm e1]; omega
            · simp [e1, e2, Ne.symm e1, Ne.symm e2]
        have hg0 : ∀ q : Nat, (l.set i v)[q]? = if q = i then some v else l[q]? := by
          intro q
          simp only [List.getElem?_set]
          by_cases e2 : i = q
          · subst e2; simp; omega
          · simp [e2, Ne.symm e2]
        obtain ⟨r, hr1, hr2, hr3, hr4⟩ := ih (n - c) (by omega) (l.set i l[c]) c rfl hcn (by omega)
          (by omega) (by
          -- h1 for the new hole
          intro j hj hjn hkj hjc x y hx hy
          rw [hg] at hx hy
          by_cases hji : (j - 1) / 2 = i
          · rw [if_neg (by omega), if_pos hji] at hx
            cases hx
            by_cases hjc2 : j = c
            · rw [if_pos hjc2] at hy; cases hy; exact hlt.asymm hv
            · rw [if_neg hjc2, if_neg (by omega)] at hy
              exact hbig j hjn (by omega) _ _ (List.getElem?_eq_getElem hcl) hy
          · rw [if_neg hjc, if_neg hji] at hx
            by_cases hjc2 : j = c
            · omega
            · rw [if_neg hjc2] at hy
              by_cases hjeqi : j = i
              · rw [if_pos hjeqi] at hy; cases hy
                subst hjeqi
                refine h2 c (by omega) hcn (by omega) hj hkj x l[c] ?_ ?_
                · rw [hg0, if_neg hji]; exact hx
                · rw [hg0, if_neg hci]; exact List.getElem?_eq_getElem hcl
              · rw [if_neg hjeqi] at hy
                refine h1 j hj hjn hkj hji x y ?_ ?_
                · rw [hg0, if_neg hji]; exact hx
                · rw [hg0, if_neg hjeqi]; exact hy)
          (by
          -- h2 for the new hole
          intro j hj hjn hjc hc0 hkc x y hx hy
          rw [hg] at hx hy
          have hpc : (c - 1) / 2 = i := by omega
          rw [hpc, if_neg (by omega), if_pos rfl] at hx; cases hx
          rw [if_neg (by omega), if_neg (by omega)] at hy
          refine h1 j hj hjn (by omega) (by omega) l[c] y ?_ ?_
          · rw [hg0, hjc, if_neg hci]; exact List.getElem?_eq_getElem hcl
          · rw [hg0, if_neg (by omega)]; exact hy)
        refine ⟨r, hr1, ?_, hr3, ?_⟩
        · refine hr2.trans ?_
          have h3 := List.set_set_perm (as := l.set i v) (i := i) (j := c) (by simp; omega) (by simp; omega)
          simp only [List.getElem_set_self, List.set_set] at h3
          rw [List.getElem_set_ne (by omega)] at h3
          exact h3
        · intro j hj
          rw [hr4 j hj, List.getElem?_set_ne (by omega)]
      · simp only [hv, if_false, Bool.false_eq_true]
        simp only [Bool.not_eq_true] at hv
        refine hfin ?_
        intro j hj hjn hji x y hx hy
        rw [List.getElem?_set_self (by omega)] at hx; cases hx
        rw [List.getElem?_set_ne (by omega)] at hy
        have := hbig j hjn (by omega) _ y (List.getElem?_eq_getElem hcl) hy
        exact hlt.le_trans this hv
    · simp only [hc, if_false]
      refine hfin ?_
      intro j hj hjn hji
      omega

theorem trickleDown_spec {lt : α → α → Bool} (hlt : StrictWeak lt) (n : Nat) (l : List α) (i : Nat)
    (hi : i < n) (hn : n ≤ l.length)
    (h1 : ∀ j, 0 < j → j < n → i + 1 ≤ (j - 1) / 2 → Ok lt l ((j - 1) / 2) j) :
    ∃ r, trickleDown lt l i n = some r ∧ r.Perm l ∧
      (∀ j, 0 < j → j < n → i ≤ (j - 1) / 2 → Ok lt r ((j - 1) / 2) j) ∧
      (∀ j, n ≤ j → r[j]? = l[j]?) := by
  have hil : i < l.length := by omega
  have hset : l.set i l[i] = l := List.set_getElem_self hil
  obtain ⟨r, hr1, hr2, hr3, hr4⟩ := trickleLoop_spec hlt l[i] n l i i hi hn (Nat.le_refl _)
    (by rw [hset]; intro j hj hjn hk hne; exact h1 j hj hjn (by omega))
    (by intro j hj hjn hji hi0 hk; omega)
  refine ⟨r, ?_, ?_, hr3, hr4⟩
  · simp only [trickleDown, rd_eq_some l i hil]; exact hr1
  · rwa [hset] at hr2

theorem makeHeapLoop_spec {lt : α → α → Bool} (hlt : StrictWeak lt) (n : Nat) (i : Nat) :
    ∀ (l : List α), i < n → n ≤ l.length →
    (∀ j, 0 < j → j < n → i + 1 ≤ (j - 1) / 2 → Ok lt l ((j - 1) / 2) j) →
    ∃ r, makeHeapLoop lt l n i = some r ∧ r.Perm l ∧ IsHeapN lt r n ∧ (∀ j, n ≤ j → r[j]? = l[j]?) := by
  induction i with
  | zero =>
    intro l hi hn h
    obtain ⟨r, h1, h2, h3, h4⟩ := trickleDown_spec hlt n l 0 hi hn h
    exact ⟨r, h1, h2, fun j hj hjn => h3 j hj hjn (Nat.zero_le _), h4⟩
  | succ i ih =>
    intro l hi hn h
    obtain ⟨r, h1, h2, h3, h4⟩ := trickleDown_spec hlt n l (i + 1) hi hn h
    obtain ⟨r', h1', h2', h3', h4'⟩ := ih r (by omega) (by rw [h2.length_eq]; exact hn) h3
    refine ⟨r', ?_, h2'.trans h2, h3', fun j hj => (h4' j hj).trans (h4 j hj)⟩
    simp only [makeHeapLoop, h1, h1']

theorem makeHeap_spec {lt : α → α → Bool} (hlt : StrictWeak lt) (l : List α) (n : Nat) (hn : n ≤ l.length) :
    ∃ r, makeHeap lt l n = some r ∧ r.Perm l ∧ IsHeapN lt r n ∧ (∀ j, n ≤ j → r[j]? = l[j]?) := by
  unfold makeHeap
  by_cases h0 : n ≤ 0
  · simp only [h0, if_true]
    exact ⟨l, rfl, .refl _, by intro j hj hjn; omega, fun _ _ => rfl⟩
  · simp only [h0, if_false]
    exact makeHeapLoop_spec hlt n _ l (by omega) hn (by intro j hj hjn hk; omega)

theorem pushLoop_spec {lt : α → α → Bool} (hlt : StrictWeak lt) (v : α) (n : Nat) :
    ∀ (i : Nat) (l : List α), i < n → n ≤ l.length →
    (∀ j, 0 < j → j < n → j ≠ i → Ok lt (l.set i v) ((j - 1) / 2) j) →
    (∀ j, 0 < j → j < n → (j - 1) / 2 = i → 0 < i → Ok lt (l.set i v) ((i - 1) / 2) j) →
    ∃ r, pushLoop lt v l i = some r ∧ r.Perm (l.set i v) ∧ IsHeapN lt r n ∧
      (∀ j, n ≤ j → r[j]? = l[j]?) := by
  intro i
  induction i using Nat.strongRecOn with
  | ind i ih =>
    intro l hi hn h1 h2
    have hfin : (0 < i → Ok lt (l.set i v) ((i - 1) / 2) i) →
        ∃ r, wr l i v = some r ∧ r.Perm (l.set i v) ∧ IsHeapN lt r n ∧
        (∀ j, n ≤ j → r[j]? = l[j]?) := by
      intro h
      refine ⟨_, wr_eq_some l i v (by omega), .refl _, ?_, ?_⟩
      · intro j hj hjn
        by_cases hji : j = i
        · subst hji; exact h hj
        · exact h1 j hj hjn hji
      · intro j hj; rw [List.getElem?_set_ne (by omega)]
    unfold pushLoop
    by_cases h0 : 0 < i
    · simp only [h0, if_true]
      generalize hp : (i - 1) / 2 = p at *
      have hpl : p < l.length := by omega
      simp only [rd_eq_some l p hpl]
      by_cases hv : lt v l[p] = true
      · simp only [hv, if_true]
        refine hfin ?_
        intro _ x y hx hy
        rw [List.getElem?_set_ne (by omega), List.getElem?_eq_getElem hpl] at hx; cases hx
        rw [List.getElem?_set_self (by omega)] at hy; cases hy
        exact hlt.asymm hv
      · simp only [hv, if_false, Bool.false_eq_true, wr_eq_some l i l[p] (show i < l.length by omega)]
        simp only [Bool.not_eq_true] at hv
        have hpi : p ≠ i := by omega
        have hg : ∀ q : Nat, ((l.set i l[p]).set p v)[q]? =
            if q = p then some v else if q = i then some l[p] else l[q]? := by
          intro q
          simp only [List.getElem?_set, List.length_set]
          by_cases e1 : p = q
          · subst e1; simp [hpl]
          · by_cases e2 : i = q
            · subst e2; simp [e1, Ne.symm e1]; omega
            · simp [e1, e2, Ne.symm e1, Ne.symm e2]
        have hg0 : ∀ q : Nat, (l.set i v)[q]? = if q = i then some v else l[q]? := by
          intro q
          simp only [List.getElem?_set]
          by_cases e2 : i = q
          · subst e2; simp; omega
          · simp [e2, Ne.symm e2]
        obtain ⟨r, hr1, hr2, hr3, hr4⟩ := ih p (by omega) (l.set i l[p]) (by omega) (by simp; omega) (by
          intro j hj hjn hjp x y hx hy
          rw [hg] at hx hy
          rw [if_neg hjp] at hy
          by_cases hji : j = i
          · rw [if_pos hji] at hy; cases hy
            subst hji
            rw [hp, if_pos rfl] at hx; cases hx
            exact hv
          · rw [if_neg hji] at hy
            by_cases hq : (j - 1) / 2 = p
            · rw [if_pos hq] at hx; cases hx
              -- sibling of i: old parent l[p] ≥ y, v ≥ l[p]
              have := h1 j hj hjn hji l[p] y (by rw [hg0, hq, if_neg hpi]; exact List.getElem?_eq_getElem hpl)
                (by rw [hg0, if_neg hji]; exact hy)
              exact hlt.le_trans this hv
            · rw [if_neg hq] at hx
              by_cases hqi : (j - 1) / 2 = i
              · rw [if_pos hqi] at hx; cases hx
                exact h2 j hj hjn hqi h0 l[p] y
                  (by rw [hg0, if_neg hpi]; exact List.getElem?_eq_getElem hpl)
                  (by rw [hg0, if_neg hji]; exact hy)
              · rw [if_neg hqi] at hx
                exact h1 j hj hjn hji x y (by rw [hg0, if_neg hqi]; exact hx)
                  (by rw [hg0, if_neg hji]; exact hy))
          (by
          intro j hj hjn hjp hp0 x y hx hy
          rw [hg] at hx hy
          rw [if_neg (by omega), if_neg (by omega)] at hx
          rw [if_neg (by omega)] at hy
          -- x = parent of p
          have hpp := h1 p hp0 (by omega) hpi x l[p]
            (by rw [hg0, if_neg (by omega)]; exact hx)
            (by rw [hg0, if_neg hpi]; exact List.getElem?_eq_getElem hpl)
          by_cases hji : j = i
          · rw [if_pos hji] at hy; cases hy; exact hpp
          · rw [if_neg hji] at hy
            have := h1 j hj hjn hji l[p] y
              (by rw [hg0, hjp, if_neg hpi]; exact List.getElem?_eq_getElem hpl)
              (by rw [hg0, if_neg hji]; exact hy)
            exact hlt.le_trans this hpp)
        refine ⟨r, hr1, ?_, hr3, ?_⟩
        · refine hr2.trans ?_
          have h3 := List.set_set_perm (as := l.set i v) (i := i) (j := p) (by simp; omega) (by simp; omega)
          simp only [List.getElem_set_self, List.set_set] at h3
          rw [List.getElem_set_ne (by omega)] at h3
          exact h3
        · intro j hj
          rw [hr4 j hj, List.getElem?_set_ne (by omega)]
    · simp only [h0, if_false]
      exact hfin (fun h => absurd h h0)

theorem pushHeap_spec {lt : α → α → Bool} (hlt : StrictWeak lt) (l : List α) (n : Nat)
    (hn : n + 1 ≤ l.length) (hh : IsHeapN lt l n) :
    ∃ r, pushHeap lt l (n + 1) = some r ∧ r.Perm l ∧ IsHeapN lt r (n + 1) ∧
      (∀ j, n + 1 ≤ j → r[j]? = l[j]?) := by
  have hl : n < l.length := by omega
  have hset : l.set n l[n] = l := List.set_getElem_self hl
  obtain ⟨r, h1, h2, h3, h4⟩ := pushLoop_spec hlt l[n] (n + 1) n l (by omega) hn
    (by rw [hset]; intro j hj hjn hne; exact hh j hj (by omega))
    (by intro j hj hjn hji h0; omega)
  refine ⟨r, ?_, by rwa [hset] at h2, h3, h4⟩
  simp only [pushHeap, Nat.add_sub_cancel, rd_eq_some l n hl]
  rw [if_neg (by omega)]; exact h1

/-- The root of a heap is a maximum of the heap's elements. -/
theorem root_max {lt : α → α → Bool} (hlt : StrictWeak lt) (l : List α) (n : Nat) (hn : n ≤ l.length)
    (hh : IsHeapN lt l n) (x : α) (hx : l[0]? = some x) :
    ∀ j y, j < n → l[j]? = some y → lt x y = false := by
  intro j
  induction j using Nat.strongRecOn with
  | ind j ih =>
    intro y hj hy
    by_cases h0 : j = 0
    · subst h0; rw [hx] at hy; cases hy; exact hlt.irrefl _
    · have hp : (j - 1) / 2 < l.length := by omega
      have h1 := ih ((j - 1) / 2) (by omega) l[(j - 1) / 2] (by omega) (List.getElem?_eq_getElem hp)
      have h2 := hh j (by omega) hj _ y (List.getElem?_eq_getElem hp) hy
      exact hlt.le_trans h2 h1

theorem iterSwap_eq (l : List α) (i j : Nat) (hi : i < l.length) (hj : j < l.length) :
    iterSwap l i j = some ((l.set i l[j]).set j l[i]) := by
  simp only [iterSwap, rd_eq_some l i hi, rd_eq_some l j hj, Option.bind_eq_bind, Option.bind_some]
  rw [wr_eq_some l i _ hi]
  simp only [Option.bind_some]
  rw [wr_eq_some _ _ _ (by simpa using hj)]

theorem popHeap_spec {lt : α → α → Bool} (hlt : StrictWeak lt) (l : List α) (n : Nat)
    (hn : n + 1 ≤ l.length) (hh : IsHeapN lt l (n + 1)) :
    ∃ r, popHeap lt l (n + 1) = some r ∧ r.Perm l ∧ IsHeapN lt r n ∧ r[n]? = l[0]? ∧
      (∀ j, n + 1 ≤ j → r[j]? = l[j]?) := by
  unfold popHeap
  by_cases h0 : n = 0
  · subst h0
    simp only [Nat.zero_add, Nat.sub_self, Nat.le_refl, if_true]
    exact ⟨l, rfl, .refl _, by intro j hj hjn; omega, rfl, fun _ _ => rfl⟩
  · simp only [Nat.add_sub_cancel, if_neg (show ¬ n ≤ 0 by omega)]
    rw [iterSwap_eq l 0 n (by omega) (by omega)]
    simp only
    have hperm := List.set_set_perm (as := l) (i := 0) (j := n) (by omega) (by omega)
    generalize hl' : (l.set 0 l[n]).set n l[0] = l' at *
    have hlen : l'.length = l.length := hperm.length_eq
    have hg : ∀ q : Nat, q ≠ 0 → q ≠ n → l'[q]? = l[q]? := by
      intro q h1 h2
      rw [← hl', List.getElem?_set_ne (by omega), List.getElem?_set_ne (by omega)]
    obtain ⟨r, h1, h2, h3, h4⟩ := trickleDown_spec hlt n l' 0 (by omega) (by omega) (by
      intro j hj hjn hk x y hx hy
      rw [hg _ (by omega) (by omega)] at hx hy
      exact hh j hj (by omega) x y hx hy)
    refine ⟨r, h1, h2.trans hperm, fun j hj hjn => h3 j hj hjn (Nat.zero_le _), ?_, ?_⟩
    · rw [h4 n (Nat.le_refl _), ← hl', List.getElem?_set_self (by simp; omega),
        List.getElem?_eq_getElem (by omega)]
    · intro j hj
      rw [h4 j (by omega), hg j (by omega) (by omega)]

theorem sortHeap_spec {lt : α → α → Bool} (hlt : StrictWeak lt) (n : Nat) :
    ∀ (l : List α), n ≤ l.length → IsHeapN lt l n →
    -- the tail is sorted and every heap element is below it
    (∀ i j x y, n ≤ i → i < j → l[i]? = some x → l[j]? = some y → lt y x = false) →
    (∀ i j x y, i < n → n ≤ j → l[i]? = some x → l[j]? = some y → lt y x = false) →
    ∃ r, sortHeap lt l n = some r ∧ r.Perm l ∧ Sorted lt r := by
  induction n with
  | zero =>
    intro l hn hh h1 h2
    refine ⟨l, rfl, .refl _, ?_⟩
    rw [Sorted, List.pairwise_iff_getElem]
    intro i j hi hj hij
    exact h1 i j _ _ (Nat.zero_le _) hij (List.getElem?_eq_getElem hi) (List.getElem?_eq_getElem hj)
  | succ n ih =>
    intro l hn hh h1 h2
    obtain ⟨r, hr1, hr2, hr3, hr4, hr5⟩ := popHeap_spec hlt l n hn hh
    have hlen := hr2.length_eq
    -- elements of r below n come from l below n+1
    have hmem : ∀ i x, i < n → r[i]? = some x → ∃ k, k < n + 1 ∧ l[k]? = some x := by
      intro i x hi hx
      have e1 : r = r.take (n + 1) ++ r.drop (n + 1) := by simp
      have e2 : l = l.take (n + 1) ++ l.drop (n + 1) := by simp
      have ed : r.drop (n + 1) = l.drop (n + 1) := by
        apply List.ext_getElem?
        intro k
        simp only [List.getElem?_drop]
        exact hr5 _ (by omega)
      have hp : (r.take (n + 1)).Perm (l.take (n + 1)) := by
        rw [e1, e2, ed] at hr2
        simpa using (List.perm_append_right_iff _).mp hr2
      have hx' : x ∈ r.take (n + 1) := by
        rw [List.mem_iff_getElem?]
        exact ⟨i, by rw [List.getElem?_take_of_lt (by omega)]; exact hx⟩
      have := hp.subset hx'
      rw [List.mem_iff_getElem?] at this
      obtain ⟨k, hk⟩ := this
      by_cases hkn : k < n + 1
      · exact ⟨k, hkn, by rw [List.getElem?_take_of_lt hkn] at hk; exact hk⟩
      · rw [List.getElem?_eq_none (by simp; omega)] at hk; cases hk
    have hroot : l[0]? = some (l[0]'(by omega)) := List.getElem?_eq_getElem (by omega)
    obtain ⟨r', hs1, hs2, hs3⟩ := ih r (by omega) hr3 (by
      intro i j x y hi hij hx hy
      rw [hr5 j (by omega)] at hy
      by_cases hin : i = n
      · subst hin
        rw [hr4] at hx
        exact h2 0 j x y (by omega) (by omega) hx hy
      · rw [hr5 i (by omega)] at hx
        exact h1 i j x y (by omega) hij hx hy)
      (by
      intro i j x y hi hj hx hy
      obtain ⟨k, hk, hkx⟩ := hmem i x hi hx
      by_cases hjn : j = n
      · subst hjn
        rw [hr4] at hy
        exact root_max hlt l _ hn hh y hy k x hk hkx
      · rw [hr5 j (by omega)] at hy
        exact h2 k j x y hk (by omega) hkx hy)
    exact ⟨r', by simp only [sortHeap, hr1]; exact hs1, hs2.trans hr2, hs3⟩

theorem isHeapLoop_spec (lt : α → α → Bool) (l : List α) (n : Nat) (hn : n ≤ l.length) (m : Nat) :
    ∀ first iChild, iChild = 2 * first → n - iChild = m →
    ∃ b, isHeapLoop lt l first iChild n = some b ∧
      (b = true ↔ ∀ j, 0 < j → j < n → first ≤ (j - 1) / 2 → Ok lt l ((j - 1) / 2) j) := by
  induction m using Nat.strongRecOn with
  | ind m ih =>
    intro first iChild hic hm
    unfold isHeapLoop
    by_cases h1 : iChild + 1 < n
    · simp only [h1, if_true, rd_eq_some l first (by omega), rd_eq_some l (iChild + 1) (by omega)]
      by_cases hc1 : lt l[first] l[iChild + 1] = true
      · simp only [hc1, if_true]
        refine ⟨false, rfl, ?_⟩
        simp only [Bool.false_eq_true, false_iff]
        intro h
        have := h (iChild + 1) (by omega) h1 (by omega) l[first] l[iChild + 1]
          (by rw [show (iChild + 1 - 1) / 2 = first by omega]; exact List.getElem?_eq_getElem (by omega))
          (List.getElem?_eq_getElem (by omega))
        rw [hc1] at this; cases this
      · have hstep : ∀ (hrest : iChild + 2 < n → ∀ (h : iChild + 2 < l.length), lt (l[first]'(by omega)) l[iChild + 2] = false),
            ∃ b, isHeapLoop lt l (first + 1) (iChild + 2) n = some b ∧
            (b = true ↔ ∀ j, 0 < j → j < n → first ≤ (j - 1) / 2 → Ok lt l ((j - 1) / 2) j) := by
          intro hrest
          obtain ⟨b, hb1, hb2⟩ := ih (n - (iChild + 2)) (by omega) (first + 1) (iChild + 2) (by omega) rfl
          refine ⟨b, hb1, hb2.trans ⟨?_, ?_⟩⟩
          · intro h j hj hjn hfj
            by_cases hjf : (j - 1) / 2 = first
            · have hpj : j = iChild + 1 ∨ j = iChild + 2 := by omega
              intro x y hx hy
              rw [hjf, List.getElem?_eq_getElem (by omega)] at hx; cases hx
              rcases hpj with rfl | rfl
              · rw [List.getElem?_eq_getElem (by omega)] at hy; cases hy
                simpa using hc1
              · rw [List.getElem?_eq_getElem (by omega)] at hy; cases hy
                exact hrest (by omega) (by omega)
            · exact h j hj hjn (by omega)
          · intro h j hj hjn hfj
            exact h j hj hjn (by omega)
        simp only [hc1, if_false, Bool.false_eq_true]
        by_cases h2 : iChild + 2 < n
        · simp only [h2, if_true, rd_eq_some l (iChild + 2) (by omega)]
          by_cases hc2 : lt l[first] l[iChild + 2] = true
          · simp only [hc2, if_true]
            refine ⟨false, rfl, ?_⟩
            simp only [Bool.false_eq_true, false_iff]
            intro h
            have := h (iChild + 2) (by omega) h2 (by omega) l[first] l[iChild + 2]
              (by rw [show (iChild + 2 - 1) / 2 = first by omega]; exact List.getElem?_eq_getElem (by omega))
              (List.getElem?_eq_getElem (by omega))
            rw [hc2] at this; cases this
          · simp only [hc2, if_false, Bool.false_eq_true]
            exact hstep (fun _ _ => by simpa using hc2)
        · simp only [h2, if_false]
          exact hstep (fun h _ => absurd h h2)
    · simp only [h1, if_false]
      refine ⟨true, rfl, ?_⟩
      simp only [true_iff]
      intro j hj hjn hfj
      omega

end Ustl.Heap
