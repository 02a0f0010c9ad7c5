import Verif.Bitset.Lemmas
/-! # bitset (C37) -/
namespace Ustl.Bitset

/-- The words represent the bit vector below the size. -/
def Rep (size : Nat) (ws : List Word) (c : Nat → Bool) : Prop :=
  ws.length = nWords size ∧ ∀ n, n < size → bit ws n = c n

/-- The bits of the last word beyond the size are clear. -/
def Padded (size : Nat) (ws : List Word) : Prop := ∀ n, size ≤ n → bit ws n = false

variable {size : Nat}

theorem Rep.lt {ws : List Word} {c : Nat → Bool} (h : Rep size ws c) (h0 : 0 < size) {n : Nat} (hn : n < size) :
    n < 32 * ws.length ∧ n / 32 < ws.length := by
  have := nWords_spec size h0
  rw [h.1]
  constructor
  · omega
  · omega

/-- A change of one word that changes only bit `n`. -/
theorem one_bit {ws : List Word} {c : Nat → Bool} (h0 : 0 < size) (h : Rep size ws c) {n : Nat} (hn : n < size) (x : Word) (b : Bool)
    (hx : ∀ k, k < 32 → x.getLsbD k = if k = n % 32 then b else (ws.getD (n / 32) 0#32).getLsbD k) :
    ∃ ws', wr ws (n / 32) x = some ws' ∧ Rep size ws' (fun m => if m = n then b else c m) ∧
      (Padded size ws → Padded size ws') := by
  obtain ⟨h1, h2⟩ := h.lt h0 hn
  have key : ∀ m, bit (ws.set (n / 32) x) m = if m = n then b else bit ws m := by
    intro m
    rw [bit_set h2]
    by_cases e : m / 32 = n / 32
    · rw [if_pos e, hx _ (Nat.mod_lt _ (by omega))]
      by_cases e2 : m % 32 = n % 32
      · rw [if_pos e2, if_pos (div_mod_eq.1 ⟨e, e2⟩)]
      · rw [if_neg e2, if_neg (fun e3 => e2 (by rw [e3]))]
        unfold bit
        rw [e]
    · rw [if_neg e, if_neg (fun e3 => e (by rw [e3]))]
  refine ⟨ws.set (n / 32) x, ?_, ⟨by simp [h.1], fun m hm => ?_⟩, fun hp m hm => ?_⟩
  · unfold wr; rw [if_pos h2]
  · rw [key, h.2 m hm]
  · rw [key, if_neg (by omega), hp m hm]

theorem set_rep {ws : List Word} {c : Nat → Bool} (h0 : 0 < size) (h : Rep size ws c) {n : Nat} (hn : n < size) (val : Bool) :
    ∃ ws', set ws n val = some ws' ∧ Rep size ws' (fun m => if m = n then val else c m) ∧
      (Padded size ws → Padded size ws') := by
  obtain ⟨h1, h2⟩ := h.lt h0 hn
  unfold set
  rw [rd_getD h2]
  apply one_bit h0 h hn
  intro k hk
  cases val with
  | true =>
    rw [if_pos rfl, BitVec.getLsbD_or, mask_bit n k hk]
    by_cases e : k = n % 32 <;> simp [e]
  | false =>
    rw [if_neg (by simp), BitVec.getLsbD_and, BitVec.getLsbD_not, mask_bit n k hk]
    by_cases e : k = n % 32
    · simp [e]
    · simp [e, hk]

theorem flip_rep {ws : List Word} {c : Nat → Bool} (h0 : 0 < size) (h : Rep size ws c) {n : Nat} (hn : n < size) :
    ∃ ws', flip ws n = some ws' ∧ Rep size ws' (fun m => if m = n then !c m else c m) ∧
      (Padded size ws → Padded size ws') := by
  obtain ⟨h1, h2⟩ := h.lt h0 hn
  unfold flip
  rw [rd_getD h2]
  obtain ⟨ws', e, r, p⟩ := one_bit h0 h hn (ws.getD (n / 32) 0#32 ^^^ mask n) (!c n) (by
    intro k hk
    rw [BitVec.getLsbD_xor, mask_bit n k hk]
    by_cases e : k = n % 32
    · rw [if_pos e, ← h.2 n hn]
      simp [e, bit]
    · simp [e])
  refine ⟨ws', e, ⟨r.1, fun m hm => ?_⟩, p⟩
  rw [r.2 m hm]
  by_cases e : m = n <;> simp [e]

theorem setRange_bit {ws : List Word} {first last : Nat} {v : Word} (h2 : first / 32 < ws.length) (h3 : first < last)
    (h4 : first % 32 + (last - first) ≤ 32) (h5 : v.toNat < 2 ^ (last - first)) :
    ∃ ws', setRange ws first v = some ws' ∧ ws'.length = ws.length ∧
      ∀ m, bit ws' m = (bit ws m || (decide (first ≤ m ∧ m < last) && v.toNat.testBit (m - first))) := by
  unfold setRange
  rw [rd_getD h2]
  refine ⟨ws.set (first / 32) _, by simp only [wr]; rw [if_pos h2], by simp, fun m => ?_⟩
  rw [bit_set h2]
  have hm : m % 32 < 32 := Nat.mod_lt _ (by omega)
  by_cases e : m / 32 = first / 32
  · rw [if_pos e, BitVec.getLsbD_or, BitVec.getLsbD_shiftLeft]
    have e0 : (ws.getD (first / 32) 0#32).getLsbD (m % 32) = bit ws m := by unfold bit; rw [e]
    rw [e0]
    congr 1
    rcases Nat.lt_or_ge (m % 32) (first % 32) with hlt | hge
    · have : ¬ (first ≤ m ∧ m < last) := by omega
      simp [hlt, this]
    · have e1 : m % 32 - first % 32 = m - first := by omega
      have hfm : first ≤ m := by omega
      rw [e1]
      rcases Nat.lt_or_ge m last with hml | hml
      · simp [hm, hml, hfm, BitVec.getLsbD]; omega
      · have hz : v.toNat.testBit (m - first) = false := by
          apply Nat.testBit_lt_two_pow
          exact Nat.lt_of_lt_of_le h5 (Nat.pow_le_pow_right (by omega) (by omega))
        have hnot : ¬ (first ≤ m ∧ m < last) := by omega
        simp [BitVec.getLsbD, hz, hnot]
  · rw [if_neg e]
    have : ¬ (first ≤ m ∧ m < last) := by
      rintro ⟨a, b⟩
      apply e
      omega
    simp [this]

theorem step_rep (h0 : 0 < size) {w : Nat → List Word} {c : Nat → Nat → Bool} (hr : ∀ k, Rep size (w k) (c k)) (op : Op)
    (hp : op.Pre size) : ∃ w', step size w op = some w' ∧ (∀ k, Rep size (w' k) (op.apply c k)) ∧
      (op.Clean size → (∀ k, Padded size (w k)) → ∀ k, Padded size (w' k)) := by
  have hw := nWords_spec size h0
  have one : ∀ (i : Nat) (x : List Word) (f : Nat → Bool), Rep size x f → ∀ k, Rep size (upd w i x k) (upd c i f k) := by
    intro i x f hx k
    unfold upd
    by_cases e : k = i
    · rw [if_pos e, if_pos e]; exact hx
    · rw [if_neg e, if_neg e]; exact hr k
  have pad : ∀ (i : Nat) (x : List Word), Padded size x → (∀ k, Padded size (w k)) → ∀ k, Padded size (upd w i x k) := by
    intro i x hx hk k
    unfold upd
    by_cases e : k = i
    · rw [if_pos e]; exact hx
    · rw [if_neg e]; exact hk k
  have len : ∀ i n, n < size → n < 32 * (w i).length := fun i n hn => ((hr i).lt h0 hn).1
  have zip : ∀ (f : Word → Word → Word) (g : Bool → Bool → Bool),
      (∀ v w k, k < 32 → (f v w).getLsbD k = g (v.getLsbD k) (w.getLsbD k)) → g false false = false →
      ∀ i j, Rep size (List.zipWith f (w i) (w j)) (fun n => g (c i n) (c j n)) ∧
        ((∀ k, Padded size (w k)) → Padded size (List.zipWith f (w i) (w j))) := by
    intro f g hf hg i j
    have hl : (w i).length = (w j).length := by rw [(hr i).1, (hr j).1]
    refine ⟨⟨by simp [hl, (hr j).1], fun n hn => ?_⟩, fun hk n hn => ?_⟩
    · rw [bit_zip f g hf _ _ n (len i n hn) hl, (hr i).2 n hn, (hr j).2 n hn]
    · rcases Nat.lt_or_ge n (32 * (w i).length) with h | h
      · rw [bit_zip f g hf _ _ n h hl, hk i n hn, hk j n hn, hg]
      · exact bit_beyond (by simp [← hl]; omega)
  cases op with
  | init i v =>
    refine ⟨_, rfl, one i _ _ ⟨?_, fun n _ => bit_init size v n⟩, fun hc hk => pad i _ (fun n hn => ?_) hk⟩
    · simp [init]; omega
    · rw [bit_init, Nat.testBit_lt_two_pow (Nat.lt_of_lt_of_le hc (Nat.pow_le_pow_right (by omega) hn))]
      simp
  | ofString i s =>
    obtain ⟨ws', e, hl, hb⟩ := fromStr_spec s (w i) s.length (Nat.le_refl _)
    have ht : ∀ n, n < 32 * (w i).length → bit ws' n = ofText s n := by
      intro n hn
      rw [hb n hn]
      unfold ofText
      by_cases hs : n < s.length
      · rw [if_pos hs, List.getElem?_reverse hs, List.getElem?_eq_getElem (by omega)]
        simp
      · rw [if_neg hs, List.getElem?_eq_none (by simp; omega)]
    refine ⟨upd w i ws', by simp [step, ofString, e], one i _ _ ⟨by rw [hl, (hr i).1], fun n hn => ht n (len i n hn)⟩,
      fun hc hk => pad i _ (fun n hn => ?_) hk⟩
    rcases Nat.lt_or_ge n (32 * (w i).length) with h | h
    · rw [hb n h, if_neg]
      have : s.length ≤ size := hc
      omega
    · exact bit_beyond (by rw [hl]; omega)
  | set i n val =>
    obtain ⟨ws', e, r, p⟩ := set_rep h0 (hr i) hp val
    exact ⟨upd w i ws', by simp [step, e], one i _ _ r, fun _ hk => pad i _ (p (hk i)) hk⟩
  | flip i n =>
    obtain ⟨ws', e, r, p⟩ := flip_rep h0 (hr i) hp
    exact ⟨upd w i ws', by simp [step, e], one i _ _ r, fun _ hk => pad i _ (p (hk i)) hk⟩
  | resetAll i =>
    refine ⟨_, rfl, one i _ _ ⟨by simp [resetAll], fun n hn => ?_⟩, fun _ hk => pad i _ (fun n _ => ?_) hk⟩
    · unfold resetAll; rw [bit_replicate _ _ _ (by omega)]; simp
    · unfold resetAll
      rcases Nat.lt_or_ge n (32 * nWords size) with h | h
      · rw [bit_replicate _ _ _ h]; simp
      · exact bit_beyond (by simpa using h)
  | setAll i =>
    refine ⟨_, rfl, one i _ _ ⟨by simp [setAll], fun n hn => ?_⟩, fun hc hk => pad i _ (fun n hn => ?_) hk⟩
    · unfold setAll; rw [bit_replicate _ _ _ (by omega), BitVec.getLsbD_allOnes]
      simp; omega
    · have := hw.2.2.2 hc
      exact bit_beyond (by simp [setAll]; omega)
  | flipAll i j =>
    refine ⟨_, rfl, one j _ _ ⟨by simp [flipAll, (hr i).1], fun n hn => ?_⟩, fun hc hk => pad j _ (fun n hn => ?_) hk⟩
    · unfold flipAll
      rw [bit_map _ (!·) (fun w k hk => by simp [hk]) _ _ (len i n hn), (hr i).2 n hn]
    · have := hw.2.2.2 hc
      exact bit_beyond (by simp [flipAll, (hr i).1]; omega)
  | band i j k =>
    obtain ⟨a, b⟩ := zip (· &&& ·) (· && ·) (fun v w k _ => BitVec.getLsbD_and) rfl i j
    exact ⟨_, rfl, one k _ _ a, fun _ hk => pad k _ (b hk) hk⟩
  | bor i j k =>
    obtain ⟨a, b⟩ := zip (· ||| ·) (· || ·) (fun v w k _ => BitVec.getLsbD_or) rfl i j
    exact ⟨_, rfl, one k _ _ a, fun _ hk => pad k _ (b hk) hk⟩
  | bxor i j k =>
    obtain ⟨a, b⟩ := zip (· ^^^ ·) (· != ·) (fun v w k _ => by simp) rfl i j
    exact ⟨_, rfl, one k _ _ a, fun _ hk => pad k _ (b hk) hk⟩
  | setRange i first last v =>
    obtain ⟨h1, h2, h3, h4⟩ : first < last ∧ last ≤ size ∧ first % 32 + (last - first) ≤ 32 ∧ v.toNat < 2 ^ (last - first) := hp
    obtain ⟨ws', e, hl, hb⟩ := setRange_bit ((hr i).lt h0 (n := first) (by omega)).2 h1 h3 h4
    refine ⟨upd w i ws', by simp [step, e], one i _ _ ⟨by rw [hl, (hr i).1], fun n hn => ?_⟩,
      fun _ hk => pad i _ (fun n hn => ?_) hk⟩
    · rw [hb, (hr i).2 n hn]
    · rw [hb, hk i n hn]
      have : ¬ (first ≤ n ∧ n < last) := by omega
      simp [this]

theorem hist_rep (h0 : 0 < size) {P : Op → Prop} {w : Nat → List Word} {c : Nat → Nat → Bool} (h : Hist size P w c) :
    (∀ k, Rep size (w k) (c k)) ∧ ((∀ op, P op → op.Clean size) → ∀ k, Padded size (w k)) := by
  induction h with
  | nil =>
    have hw := nWords_spec size h0
    refine ⟨fun _ => ⟨by simp [init]; omega, fun n _ => by rw [bit_init]; simp⟩, fun _ _ n _ => by rw [bit_init]; simp⟩
  | step op _ hp hP he ih =>
    obtain ⟨w', e, r, p⟩ := step_rep h0 ih.1 op hp
    rw [he] at e
    cases e
    exact ⟨r, fun hc => p (hc op hP) (ih.2 hc)⟩

theorem Rep.test_eq (h0 : 0 < size) {ws : List Word} {c : Nat → Bool} (h : Rep size ws c) {n : Nat} (hn : n < size) :
    test ws n = some (c n) := by
  obtain ⟨_, h2⟩ := h.lt h0 hn
  unfold test mask
  rw [rd_getD h2]
  simp only
  rw [and_shl_ne _ _ (Nat.mod_lt _ (by omega))]
  exact congrArg some (h.2 n hn)

/-- **C37** after any history whatever, `test` gives every bit its value, and `to_string` is the bits, most significant
first. -/
theorem bitset_bits (h0 : 0 < size) {P : Op → Prop} {w : Nat → List Word} {c : Nat → Nat → Bool} (h : Hist size P w c) (k : Nat) :
    (∀ n, n < size → test (w k) n = some (c k n)) ∧
    ∃ s, toString' size (w k) = some s ∧ s.length = size ∧
      ∀ n, n < size → s[size - 1 - n]? = some (if c k n then '1' else '0') := by
  have hr := (hist_rep h0 h).1 k
  have hw := nWords_spec size h0
  refine ⟨fun n hn => hr.test_eq h0 hn, chars (c k) 0 size, ?_, chars_length _ _ _, fun n hn => ?_⟩
  · unfold toString'
    obtain ⟨e, he⟩ := toStr_spec (w k) (List.replicate size '0') []
    simp only [List.append_nil, List.length_replicate] at he
    rw [he, hr.1, show min (32 * nWords size) size = size by omega, show size - 32 * nWords size = 0 by omega]
    simp only [List.take_zero, List.nil_append, Option.map_some]
    exact congrArg some (chars_congr _ _ _ fun i hi => by rw [Nat.zero_add, hr.2 i hi])
  · have e1 : size = n + ((size - 1 - n) + 1) := by omega
    have e2 : chars (c k) 0 size = chars (c k) (n + 1) (size - 1 - n) ++ ([if c k n then '1' else '0'] ++ chars (c k) 0 n) := by
      rw (occs := .pos [1]) [e1]
      rw [chars_add]
      simp only [chars, Nat.zero_add, List.append_assoc]
    rw [e2, List.getElem?_append_right (by rw [chars_length]; omega), chars_length]
    simp

/-- **C37** ranges: `at (first, last)` is the number with those bits, within one word. -/
theorem bitset_at_range (h0 : 0 < size) {P : Op → Prop} {w : Nat → List Word} {c : Nat → Nat → Bool} (h : Hist size P w c)
    (k first last : Nat) (h1 : first < last) (h2 : last ≤ size) (h3 : first % 32 + (last - first) ≤ 32) :
    ∃ v, atRange (w k) first last = some v ∧
      ∀ i, v.toNat.testBit i = (decide (i < last - first) && c k (first + i)) := by
  have hr := (hist_rep h0 h).1 k
  obtain ⟨_, hlt⟩ := hr.lt h0 (n := first) (by omega)
  unfold atRange bitMask
  rw [rd_getD hlt, if_pos (by omega)]
  refine ⟨_, rfl, fun i => ?_⟩
  show BitVec.getLsbD _ i = _
  rw [BitVec.getLsbD_and, BitVec.getLsbD_ushiftRight, BitVec.getLsbD_ushiftRight, BitVec.getLsbD_allOnes]
  rcases Nat.lt_or_ge i (last - first) with hi | hi
  · rw [← hr.2 (first + i) (by omega)]
    unfold bit
    rw [show (first + i) / 32 = first / 32 by omega, show (first + i) % 32 = first % 32 + i by omega]
    have : 32 - (last - first) + i < 32 := by omega
    simp [hi, this]
  · have : ¬ (32 - (last - first) + i < 32) := by omega
    have h4 : ¬ i < last - first := by omega
    simp [this, h4]

/-- Agreement of the whole-set operations with the bit vectors. -/
def WholeAgree (size : Nat) (w : Nat → List Word) (c : Nat → Nat → Bool) : Prop :=
  ∀ k, (any (w k) = true ↔ ∃ n, n < size ∧ c k n = true) ∧ none' (w k) = !any (w k) ∧
    count (w k) = (List.range size).countP (c k) ∧
    (∀ j, eq (w k) (w j) = true ↔ ∀ n, n < size → c k n = c j n) ∧
    ∃ v, toValue (w k) = some v ∧ ∀ i, v.toNat.testBit i = (decide (i < 32) && (decide (i < size) && c k i))

theorem whole_of_padded (h0 : 0 < size) {w : Nat → List Word} {c : Nat → Nat → Bool} (hr : ∀ k, Rep size (w k) (c k))
    (hp : ∀ k, Padded size (w k)) : WholeAgree size w c := by
  have hw := nWords_spec size h0
  intro k
  refine ⟨?_, rfl, ?_, fun j => ?_, ?_⟩
  · rw [any_iff]
    constructor
    · rintro ⟨n, _, hb⟩
      rcases Nat.lt_or_ge n size with h | h
      · exact ⟨n, h, by rw [← (hr k).2 n h]; exact hb⟩
      · rw [hp k n h] at hb; cases hb
    · rintro ⟨n, hn, hb⟩
      exact ⟨n, ((hr k).lt h0 hn).1, by rw [(hr k).2 n hn]; exact hb⟩
  · unfold count
    rw [count_acc, Nat.zero_add, (hr k).1, show 32 * nWords size = size + (32 * nWords size - size) by omega, List.range_add,
      List.countP_append]
    have e1 : (List.range size).countP (bit (w k)) = (List.range size).countP (c k) :=
      List.countP_congr fun x hx => by rw [(hr k).2 x (List.mem_range.1 hx)]
    have e2 : ((List.range (32 * nWords size - size)).map (size + ·)).countP (bit (w k)) = 0 := by
      rw [List.countP_eq_zero]
      intro x hx
      obtain ⟨y, _, rfl⟩ := List.mem_map.1 hx
      rw [hp k _ (by omega)]
      simp
    rw [e1, e2, Nat.add_zero]
  · unfold eq
    rw [decide_eq_true_iff]
    constructor
    · intro e n hn
      rw [← (hr k).2 n hn, ← (hr j).2 n hn, e]
    · intro h
      apply bits_ext (by rw [(hr k).1, (hr j).1])
      intro n _
      rcases Nat.lt_or_ge n size with hn | hn
      · rw [(hr k).2 n hn, (hr j).2 n hn, h n hn]
      · rw [hp k n hn, hp j n hn]
  · have hl : 0 < (w k).length := by rw [(hr k).1]; omega
    refine ⟨_, rd_getD hl, fun i => ?_⟩
    show BitVec.getLsbD _ i = _
    rcases Nat.lt_or_ge i 32 with hi | hi
    · have e : ((w k).getD 0 0#32).getLsbD i = bit (w k) i := by
        unfold bit; rw [Nat.div_eq_of_lt hi, Nat.mod_eq_of_lt hi]
      rw [e]
      rcases Nat.lt_or_ge i size with h | h
      · rw [(hr k).2 i h]; simp [hi, h]
      · rw [hp k i h]; simp; omega
    · rw [getLsbD_beyond _ hi]; simp; omega

/-- **C37** for sizes that are a multiple of 32: after any history whatever, the whole-set operations agree with the
bit vector. -/
theorem bitset_whole_words (h0 : 0 < size) (h32 : size % 32 = 0) {P : Op → Prop} {w : Nat → List Word} {c : Nat → Nat → Bool}
    (h : Hist size P w c) : WholeAgree size w c := by
  have hr := (hist_rep h0 h).1
  refine whole_of_padded h0 hr fun k n hn => bit_beyond ?_
  rw [(hr k).1, (nWords_spec size h0).2.2.2 h32]
  exact hn

/-- **C37** for every size, after histories without whole-set `set()`, `flip()` and `~` and with initial values that fit.
Missing: those operations at sizes that are not a multiple of 32, see `bitset_padding_violated`. -/
theorem bitset_whole_partial (h0 : 0 < size) {w : Nat → List Word} {c : Nat → Nat → Bool}
    (h : Hist size (·.Clean size) w c) : WholeAgree size w c :=
  whole_of_padded h0 (hist_rep h0 h).1 ((hist_rep h0 h).2 fun _ h => h)

/-- **C37** no call within the contract is undefined after any history. -/
theorem bitset_progress (h0 : 0 < size) {P : Op → Prop} {w : Nat → List Word} {c : Nat → Nat → Bool} (h : Hist size P w c)
    (op : Op) (hp : op.Pre size) (hP : P op) : ∃ w', step size w op = some w' ∧ Hist size P w' (op.apply c) := by
  obtain ⟨w', e, _⟩ := step_rep h0 (hist_rep h0 h).1 op hp
  exact ⟨w', e, h.step op hp hP e⟩

/-- **C37** violated at sizes that are not a multiple of 32: after `set()` on a `bitset<5>`, `count()` is 32, and after
resetting all five bits `none()` is false. -/
theorem bitset_padding_violated : ∃ (w1 w2 : Nat → List Word) (c1 c2 : Nat → Nat → Bool),
    Hist 5 (fun _ => True) w1 c1 ∧ Hist 5 (fun _ => True) w2 c2 ∧ (List.range 5).countP (c1 0) = 5 ∧ count (w1 0) = 32 ∧
    (∀ n, n < 5 → c2 0 n = false) ∧ none' (w2 0) = false := by
  refine ⟨_, _, _, _, Hist.nil.step (.setAll 0) trivial trivial rfl,
    (((((Hist.nil.step (.setAll 0) trivial trivial rfl).step (.set 0 0 false) (by decide : 0 < 5) trivial rfl).step
      (.set 0 1 false) (by decide : 1 < 5) trivial rfl).step (.set 0 2 false) (by decide : 2 < 5) trivial rfl).step
      (.set 0 3 false) (by decide : 3 < 5) trivial rfl).step (.set 0 4 false) (by decide : 4 < 5) trivial rfl,
    ?_, ?_, ?_, ?_⟩
  · rfl
  · decide +kernel
  · decide
  · decide +kernel

/-- `set (first, last, v)`, documented to set the value of the range, only adds bits: storing 2 over 1 gives 3. -/
theorem setRange_violated : ∃ ws ws1 ws2, init 8 0#32 = ws ∧ setRange ws 0 1#32 = some ws1 ∧ setRange ws1 0 2#32 = some ws2 ∧
    atRange ws2 0 2 = some 3#32 := ⟨_, _, _, rfl, rfl, rfl, by decide +kernel⟩

example : ∃ w c, Hist 40 (·.Clean 40) w c ∧ c 2 37 = true ∧ c 2 36 = false ∧ c 2 1 = true := by
  have h2 := (Hist.nil.step (P := (·.Clean 40)) (.init 0 5#32) trivial (by decide +kernel : (5#32).toNat < 2 ^ 40) rfl).step
    (.set 1 37 true) (by decide : 37 < 40) trivial rfl
  obtain ⟨w3, _, h3⟩ := bitset_progress (by decide) h2 (.ofString 2 ['1', '0']) trivial (by decide : 2 ≤ 40)
  obtain ⟨w4, _, h4⟩ := bitset_progress (by decide) h3 (.bor 1 2 2) trivial trivial
  exact ⟨w4, _, h4, by decide, by decide, by decide⟩

end Ustl.Bitset
