import Verif.Raw.Model
/-! # Raw storage: lemmas -/
namespace Ustl.Raw
variable {α : Type _}

/-- `body first`, `body (first + 1)`, ... (`n` times). -/
def iter (body : Nat → St α → Res (St α)) : Nat → Nat → St α → Res (St α)
  | 0, _, s => .ret s
  | n + 1, k, s => (body k s).andThen (iter body n (k + 1)) id

theorem upLoop_iter (body : Nat → St α → Res (St α)) (n first : Nat) (s : St α) :
    upLoop body first (first + n) s = iter body n first s := by
  induction n generalizing first s with
  | zero => rw [upLoop, if_neg (by omega)]; rfl
  | succ n ih =>
    rw [upLoop, if_pos (by omega), iter]
    congr 1
    funext s'
    rw [← ih]; congr 1; omega

theorem upLoop_empty (body : Nat → St α → Res (St α)) {first last : Nat} (h : last ≤ first) (s : St α) :
    upLoop body first last s = .ret s := by rw [upLoop, if_neg (by omega)]

theorem iter_split (body : Nat → St α → Res (St α)) (k m first : Nat) (s s' : St α)
    (h : iter body k first s = .ret s') : iter body (k + m) first s = iter body m (first + k) s' := by
  induction k generalizing first s with
  | zero => cases h; rw [Nat.zero_add, Nat.add_zero]
  | succ k ih =>
    rw [show k + 1 + m = (k + m) + 1 by omega]
    simp only [iter] at h ⊢
    cases hb : body first s with
    | ret t =>
      rw [hb] at h
      simp only [Res.andThen] at h ⊢
      rw [ih _ _ h]; congr 1; omega
    | threw t => rw [hb] at h; cases h
    | ub => rw [hb] at h; cases h

theorem iter_shift (body : Nat → St α → Res (St α)) (c n first : Nat) (s : St α) :
    iter (fun k => body (c + k)) n first s = iter body n (c + first) s := by
  induction n generalizing first s with
  | zero => rfl
  | succ n ih => simp only [iter]; congr 1; funext s'; rw [ih]; rfl

theorem signed_low {w a : Nat} (h : a < 2 ^ (w - 1)) : signed w a = a := if_pos h
theorem signed_high {w a : Nat} (h : 2 ^ (w - 1) ≤ a) : signed w a = (a : Int) - 2 ^ w := if_neg (by omega)

/-- Both halves of the address space, `w` bits. -/
theorem half (w : Nat) (h : 0 < w) : 2 ^ w = 2 ^ (w - 1) + 2 ^ (w - 1) := by
  obtain ⟨v, rfl⟩ : ∃ v, w = v + 1 := ⟨w - 1, by omega⟩
  rw [Nat.add_sub_cancel, Nat.pow_succ]; omega

/-- Where the loops by signed addresses do what they should: the range and the address of its last element lie in
one half of the address space. `e` is the address after the last element. -/
def OneHalf (w sz b e : Nat) : Prop :=
  e < 2 ^ (w - 1) ∨ (2 ^ (w - 1) ≤ b ∧ e < 2 ^ w ∧ 2 ^ (w - 1) + sz ≤ e)

theorem sLoop_stop (w sz base : Nat) (body : Nat → St α → Res (St α)) (fuel first last : Nat) (s : St α)
    (h : signed w last < signed w first) : sLoop w sz base body (fuel + 1) first last s = some (.ret s) := by
  rw [sLoop, if_neg (by omega)]

theorem sLoop_iter (w sz base : Nat) (hw : 0 < w) (hs : 0 < sz) (body : Nat → St α → Res (St α)) (n : Nat) :
    ∀ (i fuel : Nat) (s : St α), n < fuel → OneHalf w sz base (base + (i + n) * sz) → 0 < i + n →
      sLoop w sz base body fuel (base + i * sz) (base + (i + n) * sz - sz) s = some (iter body n i s) := by
  have hp : 2 ^ w = 2 ^ (w - 1) + 2 ^ (w - 1) := half w hw
  have hpi : ((2 : Int) ^ w) = ((2 ^ w : Nat) : Int) := by push_cast; rfl
  induction n with
  | zero =>
    intro i fuel s hf ho hi
    obtain ⟨fuel, rfl⟩ : ∃ f, fuel = f + 1 := ⟨fuel - 1, by omega⟩
    have h1 : sz ≤ i * sz := Nat.le_mul_of_pos_left _ (by omega)
    refine sLoop_stop _ _ _ _ _ _ _ _ ?_
    rw [Nat.add_zero] at ho ⊢
    rcases ho with ho | ⟨hb, h2, h3⟩
    · rw [signed_low (by omega), signed_low ho]; omega
    · rw [signed_high (by omega), signed_high (by omega)]; omega
  | succ n ih =>
    intro i fuel s hf ho hi
    obtain ⟨fuel, rfl⟩ : ∃ f, fuel = f + 1 := ⟨fuel - 1, by omega⟩
    have he : (i + (n + 1)) * sz = i * sz + (n * sz + sz) := by
      rw [Nat.add_mul, Nat.add_mul, Nat.one_mul]
    have hcond : signed w (base + i * sz) ≤ signed w (base + (i + (n + 1)) * sz - sz) := by
      rcases ho with ho | ⟨hb, h2, h3⟩
      · rw [signed_low (by omega), signed_low (by omega)]; omega
      · rw [signed_high (by omega), signed_high (by omega)]; omega
    have hlt : base + i * sz + sz < 2 ^ w := by
      rcases ho with ho | ⟨hb, h2, h3⟩ <;> omega
    have hidx : (base + i * sz - base) = i * sz := by omega
    rw [sLoop, if_pos hcond, hidx, if_pos ⟨by omega, by rw [Nat.mul_mod_left]⟩, Nat.mul_div_cancel _ hs, iter]
    cases hb : body i s with
    | threw t => rfl
    | ub => rfl
    | ret t =>
      simp only [Res.andThen]
      have h2 := ih (i + 1) fuel t (by omega) (by rw [show i + 1 + n = i + (n + 1) by omega]; exact ho) (by omega)
      rw [show i + 1 + n = i + (n + 1) by omega] at h2
      rw [← h2, Nat.mod_eq_of_lt hlt, Nat.succ_mul, Nat.add_assoc]

/-- The loops by signed addresses, on `n` slots from slot `i`. -/
theorem ptrLoop_iter (w sz base : Nat) (hw : 0 < w) (hs : 0 < sz) (body : Nat → St α → Res (St α))
    (i n fuel : Nat) (s : St α) (hf : n < fuel) (ho : OneHalf w sz base (base + (i + n) * sz))
    (hz : sz ≤ 2 ^ (w - 1)) :
    ptrLoop w sz base body fuel (base + i * sz) (base + (i + n) * sz) s = some (iter body n i s) := by
  have hp : 2 ^ w = 2 ^ (w - 1) + 2 ^ (w - 1) := half w hw
  have hlt : base + (i + n) * sz < 2 ^ w := by rcases ho with ho | ⟨hb, h2, h3⟩ <;> omega
  unfold ptrLoop
  by_cases hle : sz ≤ base + (i + n) * sz
  · have hm : (base + (i + n) * sz + 2 ^ w - sz) % 2 ^ w = base + (i + n) * sz - sz := by
      rw [show base + (i + n) * sz + 2 ^ w - sz = (base + (i + n) * sz - sz) + 2 ^ w by omega, Nat.add_mod_right,
        Nat.mod_eq_of_lt (by omega)]
    rw [hm]
    by_cases hin : 0 < i + n
    · exact sLoop_iter w sz base hw hs body n i fuel s hf ho hin
    · obtain ⟨rfl, rfl⟩ : i = 0 ∧ n = 0 := ⟨by omega, by omega⟩
      obtain ⟨fuel, rfl⟩ : ∃ f, fuel = f + 1 := ⟨fuel - 1, by omega⟩
      refine sLoop_stop _ _ _ _ _ _ _ _ ?_
      simp only [Nat.zero_add, Nat.zero_mul, Nat.add_zero] at *
      rcases ho with ho | ⟨hb, h2, h3⟩
      · rw [signed_low (by omega), signed_low (by omega)]; omega
      · rw [signed_high (by omega), signed_high (by omega)]; omega
  · have hm : (base + (i + n) * sz + 2 ^ w - sz) % 2 ^ w = base + (i + n) * sz + 2 ^ w - sz :=
      Nat.mod_eq_of_lt (by omega)
    have hz0 : i + n = 0 := by
      rcases Nat.eq_zero_or_pos (i + n) with h | h
      · exact h
      · exact absurd (Nat.le_mul_of_pos_left sz h) (by omega)
    obtain ⟨rfl, rfl⟩ : i = 0 ∧ n = 0 := ⟨by omega, by omega⟩
    obtain ⟨fuel, rfl⟩ : ∃ f, fuel = f + 1 := ⟨fuel - 1, by omega⟩
    rw [hm]
    refine sLoop_stop _ _ _ _ _ _ _ _ ?_
    have hpi : ((2 : Int) ^ w) = ((2 ^ w : Nat) : Int) := by push_cast; rfl
    simp only [Nat.zero_add, Nat.zero_mul, Nat.add_zero] at *
    rw [signed_high (by omega), signed_low (by omega), hpi]
    omega

theorem cntLoop_iter (w : Nat) (body : Nat → St α → Res (St α)) (n : Nat) :
    ∀ (k fuel : Nat) (s : St α), n < fuel → n + 1 < 2 ^ w →
      cntLoop w body fuel (n + 1) k s = some (iter body n k s) := by
  induction n with
  | zero =>
    intro k fuel s hf hn
    obtain ⟨fuel, rfl⟩ : ∃ f, fuel = f + 1 := ⟨fuel - 1, by omega⟩
    rw [cntLoop]
    have hm : (0 + 1 + 2 ^ w - 1) % 2 ^ w = 0 := by
      rw [show 0 + 1 + 2 ^ w - 1 = 2 ^ w by omega, Nat.mod_self]
    simp only [hm, ne_eq, not_true_eq_false, if_false]
    rfl
  | succ n ih =>
    intro k fuel s hf hn
    obtain ⟨fuel, rfl⟩ : ∃ f, fuel = f + 1 := ⟨fuel - 1, by omega⟩
    rw [cntLoop]
    have hm : (n + 1 + 1 + 2 ^ w - 1) % 2 ^ w = n + 1 := by
      rw [show n + 1 + 1 + 2 ^ w - 1 = (n + 1) + 2 ^ w by omega, Nat.add_mod_right, Nat.mod_eq_of_lt (by omega)]
    simp only [hm]
    rw [if_pos (by omega), iter]
    cases hb : body k s with
    | threw t => rfl
    | ub => rfl
    | ret t => simp only [Res.andThen]; exact ih _ _ _ (by omega) (by omega)

/-- `++n` followed by the loop, for every `size_t` including the largest. -/
theorem cntLoop_all (w : Nat) (body : Nat → St α → Res (St α)) (n k fuel : Nat) (s : St α) (hf : n < fuel)
    (hn : n < 2 ^ w) : cntLoop w body fuel ((n + 1) % 2 ^ w) k s = some (iter body n k s) := by
  by_cases h : n + 1 < 2 ^ w
  · rw [Nat.mod_eq_of_lt h]; exact cntLoop_iter w body n k fuel s hf h
  · have hW : 2 ^ w = n + 1 := by omega
    have h0 : (n + 1) % 2 ^ w = 0 := by rw [hW, Nat.mod_self]
    obtain ⟨fuel, rfl⟩ : ∃ f, fuel = f + 1 := ⟨fuel - 1, by omega⟩
    rw [h0, cntLoop]
    have hm : (0 + 2 ^ w - 1) % 2 ^ w = n := by
      rw [hW, show 0 + (n + 1) - 1 = n by omega, Nat.mod_eq_of_lt (by omega)]
    simp only [hm]
    rcases n with _ | n
    · simp only [ne_eq, not_true_eq_false, if_false]; rfl
    · rw [if_pos (by omega), iter]
      cases hb : body k s with
      | threw t => rfl
      | ub => rfl
      | ret t => simp only [Res.andThen]; exact cntLoop_iter w body n _ _ _ (by omega) (by omega)

theorem set_get (l : List (Slot α)) (i j : Nat) (x : Slot α) (h : i < l.length) :
    (l.set i x)[j]? = if j = i then some x else l[j]? := by
  rw [List.getElem?_set]
  by_cases hj : i = j
  · rw [if_pos hj, if_pos hj.symm, if_pos (by omega)]
  · rw [if_neg hj, if_neg (Ne.symm hj)]

theorem lt_of_get {l : List (Slot α)} {i : Nat} {x : Slot α} (h : l[i]? = some x) : i < l.length := by
  rcases Nat.lt_or_ge i l.length with h' | h'
  · exact h'
  · rw [List.getElem?_eq_none h'] at h; cases h

/-- Turns that construct: `n` empty slots from `d` receive `f 0`, `f 1`, ... -/
theorem iter_construct (ok : Nat → Bool) (f : Nat → α) (n : Nat) : ∀ (d k : Nat) (s : St α),
    (∀ j < n, ok (s.calls + j) = true) → (∀ j < n, s.slots[d + k + j]? = some .raw) →
    ∃ s', iter (fun i => constructAt ok (d + i) (f i)) n k s = .ret s' ∧ s'.calls = s.calls + n ∧ s'.lost = s.lost ∧
      ∀ i, s'.slots[i]? = if d + k ≤ i ∧ i < d + k + n then some (.live (f (i - d))) else s.slots[i]? := by
  induction n with
  | zero => exact fun d k s _ _ => ⟨s, rfl, rfl, rfl, fun i => by rw [if_neg (by omega)]⟩
  | succ n ih =>
    intro d k s hok hraw
    have h0 := hraw 0 (by omega)
    rw [Nat.add_zero] at h0
    have hl := lt_of_get h0
    obtain ⟨s', h1, h2, h3, h4⟩ := ih d (k + 1)
      { slots := s.slots.set (d + k) (.live (f k)), calls := s.calls + 1, lost := s.lost } (fun j hj => by
        have := hok (j + 1) (by omega)
        rw [show s.calls + 1 + j = s.calls + (j + 1) by omega]; exact this) (fun j hj => by
        show (s.slots.set (d + k) (.live (f k)))[d + (k + 1) + j]? = _
        rw [set_get _ _ _ _ hl, if_neg (by omega)]
        have := hraw (j + 1) (by omega)
        rw [show d + (k + 1) + j = d + k + (j + 1) by omega]; exact this)
    refine ⟨s', ?_, by rw [h2]; show s.calls + 1 + n = _; omega, h3, fun i => ?_⟩
    · rw [iter]
      have hc : constructAt ok (d + k) (f k) s =
          .ret { slots := s.slots.set (d + k) (.live (f k)), calls := s.calls + 1, lost := s.lost } := by
        unfold constructAt; rw [h0]; dsimp only
        rw [if_pos (show ok s.calls = true from hok 0 (by omega))]; rfl
      simp only [hc, Res.andThen]
      exact h1
    · rw [h4]
      show (if _ then _ else (s.slots.set (d + k) (.live (f k)))[i]?) = _
      by_cases hi : d + (k + 1) ≤ i ∧ i < d + (k + 1) + n
      · rw [if_pos hi, if_pos (by omega)]
      · rw [if_neg hi, set_get _ _ _ _ hl]
        by_cases hi2 : i = d + k
        · rw [if_pos hi2, if_pos (by omega), hi2, Nat.add_sub_cancel_left]
        · rw [if_neg hi2, if_neg (by omega)]

/-- Turns that destroy: `n` objects from slot `k` are destroyed. -/
theorem iter_destroy (n : Nat) : ∀ (k : Nat) (s : St α), (∀ j < n, ∃ x, s.slots[k + j]? = some (.live x)) →
    ∃ s', iter destroyAt n k s = .ret s' ∧ s'.calls = s.calls ∧ s'.lost = s.lost ∧
      ∀ i, s'.slots[i]? = if k ≤ i ∧ i < k + n then some .raw else s.slots[i]? := by
  induction n with
  | zero => exact fun k s _ => ⟨s, rfl, rfl, rfl, fun i => by rw [if_neg (by omega)]⟩
  | succ n ih =>
    intro k s hlv
    obtain ⟨x, h0⟩ := hlv 0 (by omega)
    rw [Nat.add_zero] at h0
    have hl := lt_of_get h0
    obtain ⟨s', h1, h2, h3, h4⟩ := ih (k + 1) { s with slots := s.slots.set k .raw } (fun j hj => by
      obtain ⟨y, hy⟩ := hlv (j + 1) (by omega)
      refine ⟨y, ?_⟩
      show (s.slots.set k .raw)[k + 1 + j]? = _
      rw [set_get _ _ _ _ hl, if_neg (by omega), show k + 1 + j = k + (j + 1) by omega]; exact hy)
    refine ⟨s', ?_, h2, h3, fun i => ?_⟩
    · rw [iter]
      have hc : destroyAt k s = .ret { s with slots := s.slots.set k .raw } := by
        unfold destroyAt; rw [h0]
      rw [hc]; exact h1
    · rw [h4]
      show (if _ then _ else (s.slots.set k .raw)[i]?) = _
      by_cases hi : k + 1 ≤ i ∧ i < k + 1 + n
      · rw [if_pos hi, if_pos (by omega)]
      · rw [if_neg hi, set_get _ _ _ _ hl]
        by_cases hi2 : i = k
        · rw [if_pos hi2, if_pos (by omega)]
        · rw [if_neg hi2, if_neg (by omega)]

theorem look_live {s : St α} {i : Nat} {x : α} (h : s.slots[i]? = some (.live x)) : look s i = some x := by
  unfold look; rw [h]

/-- Turns that copy or move. -/
theorem iter_copy (ok : Nat → Bool) (mv : α → α) (f : Nat → α) (n : Nat) : ∀ (a d k : Nat) (s : St α),
    (∀ j < n, ok (s.calls + j) = true) → (∀ j < n, s.slots[a + k + j]? = some (.live (f (k + j)))) →
    (∀ j < n, s.slots[d + k + j]? = some .raw) →
    ∃ s', iter (fun i => copyOne ok mv (a + i) (d + i)) n k s = .ret s' ∧ s'.calls = s.calls + n ∧ s'.lost = s.lost ∧
      ∀ i, s'.slots[i]? = if d + k ≤ i ∧ i < d + k + n then some (.live (f (i - d)))
        else if a + k ≤ i ∧ i < a + k + n then some (.live (mv (f (i - a)))) else s.slots[i]? := by
  induction n with
  | zero => exact fun a d k s _ _ _ => ⟨s, rfl, rfl, rfl, fun i => by rw [if_neg (by omega), if_neg (by omega)]⟩
  | succ n ih =>
    intro a d k s hok hsrc hraw
    have h0 := hraw 0 (by omega)
    rw [Nat.add_zero] at h0
    have hl := lt_of_get h0
    have hs0 := hsrc 0 (by omega)
    rw [Nat.add_zero, Nat.add_zero] at hs0
    have hls := lt_of_get hs0
    -- source and destination slots differ
    have hne : ∀ i j, i < n + 1 → j < n + 1 → a + k + i ≠ d + k + j := by
      intro i j hi hj e
      have e1 := hsrc i hi
      have e2 := hraw j hj
      rw [e, e2] at e1; cases e1
    have hne0 : a + k ≠ d + k := hne 0 0 (by omega) (by omega)
    let s1 : St α := St.mk ((s.slots.set (d + k) (.live (f k))).set (a + k) (.live (mv (f k)))) (s.calls + 1) s.lost
    have hg : ∀ i, s1.slots[i]? = if i = a + k then some (.live (mv (f k))) else if i = d + k then some (.live (f k))
        else s.slots[i]? := by
      intro i
      show ((s.slots.set (d + k) (.live (f k))).set (a + k) (.live (mv (f k))))[i]? = _
      rw [set_get _ _ _ _ (by rw [List.length_set]; exact hls), set_get _ _ _ _ hl]
    obtain ⟨s', h1, h2, h3, h4⟩ := ih a d (k + 1) s1 (fun j hj => by
        have := hok (j + 1) (by omega)
        show ok (s.calls + 1 + j) = true
        rw [show s.calls + 1 + j = s.calls + (j + 1) by omega]; exact this) (fun j hj => by
        rw [hg, if_neg (by omega), if_neg (by have := hne (j + 1) 0 (by omega) (by omega); omega)]
        have := hsrc (j + 1) (by omega)
        rw [show a + (k + 1) + j = a + k + (j + 1) by omega, show k + 1 + j = k + (j + 1) by omega]; exact this)
      (fun j hj => by
        rw [hg, if_neg (by have := hne 0 (j + 1) (by omega) (by omega); omega), if_neg (by omega)]
        have := hraw (j + 1) (by omega)
        rw [show d + (k + 1) + j = d + k + (j + 1) by omega]; exact this)
    refine ⟨s', ?_, by rw [h2]; show s.calls + 1 + n = _; omega, h3, fun i => ?_⟩
    · rw [iter]
      have hc : copyOne ok mv (a + k) (d + k) s = .ret s1 := by
        unfold copyOne; rw [look_live hs0]
        dsimp only
        have hc : constructAt ok (d + k) (f k) s =
            .ret { slots := s.slots.set (d + k) (.live (f k)), calls := s.calls + 1, lost := s.lost } := by
          unfold constructAt; rw [h0]; dsimp only
          rw [if_pos (show ok s.calls = true from hok 0 (by omega))]; rfl
        rw [hc]; rfl
      simp only [hc, Res.andThen]
      exact h1
    · rw [h4, hg]
      by_cases hi : d + (k + 1) ≤ i ∧ i < d + (k + 1) + n
      · rw [if_pos hi, if_pos (by omega)]
      · rw [if_neg hi]
        by_cases hi2 : a + (k + 1) ≤ i ∧ i < a + (k + 1) + n
        · have := hne (i - (a + k)) 0 (by omega) (by omega)
          rw [if_pos hi2, if_neg (by omega), if_pos (by omega)]
        · rw [if_neg hi2]
          by_cases hi3 : i = a + k
          · rw [if_pos hi3, if_neg, if_pos (by omega), hi3, Nat.add_sub_cancel_left]
            intro hh
            have := hne 0 (i - (d + k)) (by omega) (by omega); omega
          · rw [if_neg hi3]
            by_cases hi4 : i = d + k
            · rw [if_pos hi4, if_pos (by omega), hi4, Nat.add_sub_cancel_left]
            · rw [if_neg hi4, if_neg (by omega), if_neg (by omega)]

theorem uninitCopy_ret (ok : Nat → Bool) (mv : α → α) (a d n : Nat) : ∀ (k : Nat) (s s' : St α),
    iter (fun i => copyOne ok mv (a + i) (d + i)) n k s = .ret s' →
    uninitCopy ok mv (a + k) (a + k + n) (d + k) s = .ret (s', d + k + n) := by
  induction n with
  | zero => intro k s s' h; cases h; rw [uninitCopy, if_neg (by omega)]; rfl
  | succ n ih =>
    intro k s s' h
    rw [uninitCopy, if_pos (by omega)]
    rw [iter] at h
    cases hb : copyOne ok mv (a + k) (d + k) s with
    | threw t => rw [hb] at h; cases h
    | ub => rw [hb] at h; cases h
    | ret t =>
      rw [hb] at h
      have h := ih (k + 1) t s' h
      rw [show a + (k + 1) + n = a + k + (n + 1) by omega, show a + (k + 1) = a + k + 1 by omega,
        show d + (k + 1) = d + k + 1 by omega, show d + k + 1 + n = d + k + (n + 1) by omega] at h
      exact h

theorem uninitCopy_threw (ok : Nat → Bool) (mv : α → α) (a d n : Nat) : ∀ (k : Nat) (s s' : St α),
    iter (fun i => copyOne ok mv (a + i) (d + i)) n k s = .threw s' →
    ∃ r, uninitCopy ok mv (a + k) (a + k + n) (d + k) s = .threw (s', r) := by
  induction n with
  | zero => intro k s s' h; cases h
  | succ n ih =>
    intro k s s' h
    rw [uninitCopy, if_pos (by omega)]
    rw [iter] at h
    cases hb : copyOne ok mv (a + k) (d + k) s with
    | threw t => rw [hb] at h; cases h; exact ⟨_, rfl⟩
    | ub => rw [hb] at h; cases h
    | ret t =>
      rw [hb] at h
      obtain ⟨r, h⟩ := ih (k + 1) t s' h
      rw [show a + (k + 1) + n = a + k + (n + 1) by omega, show a + (k + 1) = a + k + 1 by omega,
        show d + (k + 1) = d + k + 1 by omega] at h
      exact ⟨r, h⟩

end Ustl.Raw
