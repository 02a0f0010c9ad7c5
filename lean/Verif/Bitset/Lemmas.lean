import Verif.Bitset.Spec
/-! # Bits of lists of words -/
namespace Ustl.Bitset

/-- Bit `n` of the array. -/
def bit (ws : List Word) (n : Nat) : Bool := (ws.getD (n / 32) 0#32).getLsbD (n % 32)

theorem rd_getD {ws : List Word} {i : Nat} (h : i < ws.length) : rd ws i = some (ws.getD i 0#32) := by
  simp [rd, List.getD, List.getElem?_eq_getElem h]

theorem bit_set {ws : List Word} {i : Nat} (h : i < ws.length) (x : Word) (m : Nat) :
    bit (ws.set i x) m = if m / 32 = i then x.getLsbD (m % 32) else bit ws m := by
  unfold bit
  by_cases e : m / 32 = i
  · rw [if_pos e, e]
    simp [List.getD, h]
  · rw [if_neg e]
    simp only [List.getD]
    rw [List.getElem?_set_ne (fun e' => e e'.symm)]

theorem mask_bit (n k : Nat) (hk : k < 32) : (mask n).getLsbD k = decide (k = n % 32) := by
  unfold mask
  have : n % 32 < 32 := Nat.mod_lt _ (by omega)
  rw [BitVec.getLsbD_shiftLeft, BitVec.getLsbD_one]
  by_cases e : k = n % 32
  · subst e; simp [hk]
  · rcases Nat.lt_or_ge k (n % 32) with h | h
    · simp [hk, h, e]
    · have : k - n % 32 ≠ 0 := by omega
      simp [hk, e, this]

theorem shl_bit (n k : Nat) (hn : n < 32) (hk : k < 32) : ((1#32) <<< n).getLsbD k = decide (k = n) := by
  have := mask_bit n k hk
  unfold mask at this
  rw [Nat.mod_eq_of_lt hn] at this
  exact this

theorem div_mod_eq {m n : Nat} : (m / 32 = n / 32 ∧ m % 32 = n % 32) ↔ m = n := by
  constructor
  · rintro ⟨h1, h2⟩; omega
  · rintro rfl; exact ⟨rfl, rfl⟩

theorem and_shl_ne (w : Word) (k : Nat) (hk : k < 32) : decide (w &&& ((1#32) <<< k) ≠ 0#32) = w.getLsbD k := by
  by_cases h : w.getLsbD k = true
  · rw [h, decide_eq_true_iff]
    intro e
    have : (w &&& ((1#32) <<< k)).getLsbD k = false := by rw [e]; simp
    rw [BitVec.getLsbD_and, shl_bit k k hk hk, h] at this
    simp at this
  · have h : w.getLsbD k = false := by simpa using h
    rw [h, decide_eq_false_iff_not, Classical.not_not]
    apply BitVec.eq_of_getLsbD_eq
    intro i hi
    rw [BitVec.getLsbD_and, shl_bit k i hk hi]
    by_cases e : i = k
    · subst e; simp [h]
    · simp [e]

theorem nWords_spec (size : Nat) (h : 0 < size) : size ≤ 32 * nWords size ∧ 32 * nWords size < size + 32 ∧ 0 < nWords size ∧
    (size % 32 = 0 → 32 * nWords size = size) := by
  unfold nWords
  by_cases e : size % 32 = 0
  · rw [if_neg (by omega)]; omega
  · rw [if_pos e]; omega

theorem bit_beyond {ws : List Word} {n : Nat} (h : 32 * ws.length ≤ n) : bit ws n = false := by
  unfold bit
  have : ws.length ≤ n / 32 := by omega
  simp [List.getD, List.getElem?_eq_none this]

theorem getLsbD_beyond (x : Word) {k : Nat} (h : 32 ≤ k) : x.getLsbD k = false := BitVec.getLsbD_of_ge x k h

theorem bit_cons_lt (w : Word) (ws : List Word) {n : Nat} (h : n < 32) : bit (w :: ws) n = w.getLsbD n := by
  unfold bit
  rw [Nat.div_eq_of_lt h, Nat.mod_eq_of_lt h]; rfl

theorem bit_cons_add (w : Word) (ws : List Word) (n : Nat) : bit (w :: ws) (32 + n) = bit ws n := by
  unfold bit
  rw [show (32 + n) / 32 = n / 32 + 1 by omega, show (32 + n) % 32 = n % 32 by omega]; rfl

theorem bit_init (size : Nat) (v : Word) (n : Nat) : bit (init size v) n = (decide (n < 32) && v.toNat.testBit n) := by
  unfold init
  rcases Nat.lt_or_ge n 32 with h | h
  · rw [bit_cons_lt _ _ h]
    simp [h, BitVec.getLsbD]
  · obtain ⟨m, rfl⟩ := Nat.exists_eq_add_of_le h
    rw [bit_cons_add]
    unfold bit
    simp only [List.getD, List.getElem?_replicate]
    split <;> (simp; omega)

theorem bit_replicate (k : Nat) (x : Word) (n : Nat) (h : n < 32 * k) : bit (List.replicate k x) n = x.getLsbD (n % 32) := by
  unfold bit
  have : n / 32 < k := by omega
  simp [List.getD, this]

theorem bit_map (f : Word → Word) (g : Bool → Bool) (hf : ∀ w k, k < 32 → (f w).getLsbD k = g (w.getLsbD k))
    (ws : List Word) (n : Nat) (h : n < 32 * ws.length) : bit (ws.map f) n = g (bit ws n) := by
  unfold bit
  have : n / 32 < ws.length := by omega
  simp only [List.getD, List.getElem?_map, List.getElem?_eq_getElem this, Option.map_some, Option.getD_some]
  exact hf _ _ (Nat.mod_lt _ (by omega))

theorem bit_zip (f : Word → Word → Word) (g : Bool → Bool → Bool)
    (hf : ∀ v w k, k < 32 → (f v w).getLsbD k = g (v.getLsbD k) (w.getLsbD k))
    (a b : List Word) (n : Nat) (h : n < 32 * a.length) (hab : a.length = b.length) :
    bit (List.zipWith f a b) n = g (bit a n) (bit b n) := by
  unfold bit
  have h1 : n / 32 < a.length := by omega
  have h2 : n / 32 < b.length := by omega
  simp only [List.getD, List.getElem?_zipWith, List.getElem?_eq_getElem h1, List.getElem?_eq_getElem h2,
    Option.getD_some]
  exact hf _ _ _ (Nat.mod_lt _ (by omega))

theorem bits_ext {a b : List Word} (hl : a.length = b.length) (h : ∀ n, n < 32 * a.length → bit a n = bit b n) : a = b := by
  apply List.ext_getElem hl
  intro i h1 h2
  apply BitVec.eq_of_getLsbD_eq
  intro k hk
  have := h (32 * i + k) (by omega)
  unfold bit at this
  rw [show (32 * i + k) / 32 = i by omega, show (32 * i + k) % 32 = k by omega] at this
  simpa [List.getD, h1, h2] using this

theorem count_acc : ∀ (ws : List Word) (s : Nat),
    ws.foldl (fun sum w => sum + popcount w) s = s + (List.range (32 * ws.length)).countP (bit ws)
  | [], s => by simp
  | w :: ws, s => by
    rw [List.foldl_cons, count_acc ws]
    rw [List.length_cons, show 32 * (ws.length + 1) = 32 + 32 * ws.length by omega, List.range_add, List.countP_append,
      List.countP_map, Nat.add_assoc]
    have e1 : popcount w = (List.range 32).countP (bit (w :: ws)) := by
      unfold popcount
      apply List.countP_congr
      intro x hx
      rw [bit_cons_lt _ _ (List.mem_range.1 hx)]
    have e2 : (List.range (32 * ws.length)).countP (bit ws) =
        (List.range (32 * ws.length)).countP (bit (w :: ws) ∘ fun x => 32 + x) := by
      apply List.countP_congr
      intro x _
      simp only [Function.comp_apply, bit_cons_add]
    rw [e1, e2]

theorem any_acc : ∀ (ws : List Word) (s : Word) (k : Nat),
    (ws.foldl (· ||| ·) s).getLsbD k = true ↔ s.getLsbD k = true ∨ ∃ w ∈ ws, w.getLsbD k = true
  | [], s, k => by simp
  | w :: ws, s, k => by
    rw [List.foldl_cons, any_acc ws, BitVec.getLsbD_or, Bool.or_eq_true]
    constructor
    · rintro ((h | h) | ⟨w', h1, h2⟩)
      · exact Or.inl h
      · exact Or.inr ⟨w, by simp, h⟩
      · exact Or.inr ⟨w', by simp [h1], h2⟩
    · rintro (h | ⟨w', h1, h2⟩)
      · exact Or.inl (Or.inl h)
      · rcases List.mem_cons.1 h1 with e | e
        · subst e; exact Or.inl (Or.inr h2)
        · exact Or.inr ⟨w', e, h2⟩

theorem any_iff (ws : List Word) : any ws = true ↔ ∃ n, n < 32 * ws.length ∧ bit ws n = true := by
  unfold any
  rw [decide_eq_true_iff]
  constructor
  · intro h
    apply Classical.byContradiction
    intro hn
    apply h
    apply BitVec.eq_of_getLsbD_eq
    intro k hk
    cases e : (ws.foldl (· ||| ·) 0#32).getLsbD k with
    | false => simp
    | true =>
      exfalso
      rcases (any_acc ws _ k).1 e with h0 | ⟨w, hw, hb⟩
      · simp at h0
      · obtain ⟨i, hi, e⟩ := List.getElem_of_mem hw
        apply hn
        refine ⟨32 * i + k, by omega, ?_⟩
        unfold bit
        rw [show (32 * i + k) / 32 = i by omega, show (32 * i + k) % 32 = k by omega]
        simpa [List.getD, hi, e] using hb
  · rintro ⟨n, hn, hb⟩ e
    have h1 : n / 32 < ws.length := by omega
    have := (any_acc ws 0#32 (n % 32)).2 (Or.inr ⟨ws[n / 32], List.getElem_mem h1, by
      unfold bit at hb
      simpa [List.getD, h1] using hb⟩)
    rw [e] at this
    simp at this

/-! ## Strings -/

/-- The characters of the bits `[lo, hi)`, most significant first. -/
def chars (f : Nat → Bool) (lo : Nat) : Nat → List Char
  | 0 => []
  | n + 1 => chars f (lo + 1) n ++ [if f lo then '1' else '0']

theorem chars_length (f : Nat → Bool) : ∀ (n lo : Nat), (chars f lo n).length = n
  | 0, _ => rfl
  | n + 1, lo => by simp [chars, chars_length f n]

theorem chars_add (f : Nat → Bool) : ∀ (m n lo : Nat), chars f lo (m + n) = chars f (lo + m) n ++ chars f lo m
  | 0, n, lo => by simp [chars]
  | m + 1, n, lo => by
    rw [show m + 1 + n = (m + n) + 1 by omega]
    simp only [chars]
    rw [chars_add f m n (lo + 1), show lo + 1 + m = lo + (m + 1) by omega, List.append_assoc]

theorem chars_congr {f g : Nat → Bool} : ∀ (n lo lo' : Nat), (∀ i, i < n → f (lo + i) = g (lo' + i)) →
    chars f lo n = chars g lo' n
  | 0, _, _, _ => rfl
  | n + 1, lo, lo', h => by
    simp only [chars]
    rw [chars_congr n (lo + 1) (lo' + 1) fun i hi => by
      have := h (i + 1) (by omega)
      rw [show lo + 1 + i = lo + (i + 1) by omega, show lo' + 1 + i = lo' + (i + 1) by omega]; exact this]
    have := h 0 (by omega)
    simp only [Nat.add_zero] at this
    rw [this]

theorem toStrInner_spec (w : Word) : ∀ (j : Nat) (pre post : List Char) (k : Nat), 32 - k = j →
    toStrInner w (pre ++ post) pre.length k =
      some (pre.take (pre.length - (32 - k)) ++ chars w.getLsbD k (min (32 - k) pre.length) ++ post,
        pre.length - (32 - k))
  | 0, pre, post, k, hj => by
    unfold toStrInner
    rw [if_neg (by omega), hj]
    simp [chars]
  | j + 1, pre, post, k, hj => by
    unfold toStrInner
    rcases List.eq_nil_or_concat pre with rfl | ⟨pre', c, rfl⟩
    · rw [if_neg (by simp)]
      simp [chars]
    · rw [List.concat_eq_append, if_pos ⟨by omega, by simp⟩]
      have hw : ∀ x, wr (pre' ++ [c] ++ post) ((pre' ++ [c]).length - 1) x = some (pre' ++ ([x] ++ post)) := by
        intro x
        unfold wr
        rw [if_pos (by simp)]
        simp
      rw [hw]
      simp only
      have := toStrInner_spec w j pre' ([if w &&& ((1#32) <<< k) ≠ 0#32 then '1' else '0'] ++ post) (k + 1) (by omega)
      rw [show (pre' ++ [c]).length - 1 = pre'.length by simp, this]
      have hb := and_shl_ne w k (by omega)
      have hif : (if w &&& ((1#32) <<< k) ≠ 0#32 then '1' else '0') = if w.getLsbD k = true then '1' else '0' := by
        rw [← hb]; simp
      rw [hif]
      have e1 : (pre' ++ [c]).length - (32 - k) = pre'.length - (32 - (k + 1)) := by simp; omega
      have e2 : min (32 - k) (pre' ++ [c]).length = min (32 - (k + 1)) pre'.length + 1 := by
        simp only [List.length_append, List.length_singleton]; omega
      rw [e1, e2, List.take_append_of_le_length (by omega)]
      simp only [chars]
      simp

theorem toStr_spec : ∀ (ws : List Word) (pre post : List Char),
    ∃ e, toStr ws (pre ++ post) pre.length =
      some (pre.take (pre.length - 32 * ws.length) ++ chars (bit ws) 0 (min (32 * ws.length) pre.length) ++ post, e)
  | [], pre, post => ⟨_, by simp [toStr, chars]; rfl⟩
  | w :: ws, pre, post => by
    unfold toStr
    by_cases hp : pre.length > 0
    · rw [if_pos hp, toStrInner_spec w 32 pre post 0 rfl]
      simp only [Nat.sub_zero]
      have hlen : (pre.take (pre.length - 32)).length = pre.length - 32 := by simp
      obtain ⟨e, he⟩ := toStr_spec ws (pre.take (pre.length - 32)) (chars w.getLsbD 0 (min 32 pre.length) ++ post)
      rw [hlen, ← List.append_assoc] at he
      refine ⟨e, ?_⟩
      rw [he]
      congr 1
      congr 1
      rw [List.take_take, ← List.append_assoc]
      have e1 : min (pre.length - 32 - 32 * ws.length) (pre.length - 32) = pre.length - 32 * (w :: ws).length := by
        simp only [List.length_cons]; omega
      rw [e1]
      rw [List.append_assoc (pre.take _)]
      have e2 : chars (bit ws) 0 (min (32 * ws.length) (pre.length - 32)) ++ chars w.getLsbD 0 (min 32 pre.length) =
          chars (bit (w :: ws)) 0 (min (32 * (w :: ws).length) pre.length) := by
        rcases Nat.lt_or_ge pre.length 32 with h | h
        · have e3 : min (32 * ws.length) (pre.length - 32) = 0 := by omega
          have e4 : min (32 * (w :: ws).length) pre.length = pre.length := by simp only [List.length_cons]; omega
          rw [e3, e4, show min 32 pre.length = pre.length by omega]
          simp only [chars, List.nil_append]
          exact chars_congr _ _ _ fun i hi => by
            rw [Nat.zero_add, bit_cons_lt _ _ (by omega)]
        · have e4 : min (32 * (w :: ws).length) pre.length = 32 + min (32 * ws.length) (pre.length - 32) := by
            simp only [List.length_cons]; omega
          rw [e4, chars_add, show min 32 pre.length = 32 by omega]
          have e5 : chars (bit ws) 0 (min (32 * ws.length) (pre.length - 32)) =
              chars (bit (w :: ws)) (0 + 32) (min (32 * ws.length) (pre.length - 32)) :=
            chars_congr _ _ _ fun i hi => by rw [Nat.zero_add, Nat.zero_add, bit_cons_add]
          have e6 : chars w.getLsbD 0 32 = chars (bit (w :: ws)) 0 32 :=
            chars_congr _ _ _ fun i hi => by rw [Nat.zero_add, bit_cons_lt _ _ hi]
          rw [e5, e6]
      rw [e2]
    · have : pre = [] := List.length_eq_zero_iff.1 (by omega)
      subst this
      refine ⟨0, ?_⟩
      simp [chars]

theorem fromStrInner_spec (buf : List Char) : ∀ (j : Nat) (w : Word) (stri k : Nat), 32 - k = j → k ≤ 32 → stri ≤ buf.length →
    ∃ w', fromStrInner buf w stri k = some (w', stri - (32 - k)) ∧
      ∀ i, i < 32 → w'.getLsbD i = if i < k then w.getLsbD i else
        (if i - k < stri then decide (buf[stri - 1 - (i - k)]? ≠ some '0') else false)
  | 0, w, stri, k, hj, hk, hs => by
    refine ⟨w, ?_, fun i hi => ?_⟩
    · unfold fromStrInner
      rw [if_neg (by omega), hj]; rfl
    · rw [if_pos (by omega)]
  | j + 1, w, stri, k, hj, hk, hs => by
    unfold fromStrInner
    rw [if_pos (by omega)]
    have hclr : ∀ i, i < 32 → (w &&& ~~~((1#32) <<< k)).getLsbD i = if i = k then false else w.getLsbD i := by
      intro i hi
      rw [BitVec.getLsbD_and, BitVec.getLsbD_not, shl_bit k i (by omega) hi]
      by_cases e : i = k <;> simp [e, hi]
    have hset : ∀ i, i < 32 → (w ||| ((1#32) <<< k)).getLsbD i = if i = k then true else w.getLsbD i := by
      intro i hi
      rw [BitVec.getLsbD_or, shl_bit k i (by omega) hi]
      by_cases e : i = k <;> simp [e]
    by_cases h0 : stri = 0
    · subst h0
      rw [if_pos rfl]
      obtain ⟨w', e, hb⟩ := fromStrInner_spec buf j (w &&& ~~~((1#32) <<< k)) 0 (k + 1) (by omega) (by omega) hs
      refine ⟨w', ?_, fun i hi => ?_⟩
      · rw [e]; simp
      · rw [hb i hi, hclr i hi]
        by_cases e1 : i < k
        · rw [if_pos (by omega), if_neg (by omega), if_pos e1]
        · rw [if_neg e1]
          by_cases e2 : i = k
          · subst e2; simp
          · rw [if_neg (by omega)]; simp
    · rw [if_neg h0]
      have hlt : stri - 1 < buf.length := by omega
      have hrd : rd buf (stri - 1) = some buf[stri - 1] := by simp [rd, hlt]
      rw [hrd]
      simp only
      have main : ∀ (w1 : Word) (b : Bool), (∀ i, i < 32 → w1.getLsbD i = if i = k then b else w.getLsbD i) →
          b = decide (buf[stri - 1]? ≠ some '0') →
          ∃ w', fromStrInner buf w1 (stri - 1) (k + 1) = some (w', stri - (32 - k)) ∧
            ∀ i, i < 32 → w'.getLsbD i = if i < k then w.getLsbD i else
              (if i - k < stri then decide (buf[stri - 1 - (i - k)]? ≠ some '0') else false) := by
        intro w1 b h1 h2
        obtain ⟨w', e, hb⟩ := fromStrInner_spec buf j w1 (stri - 1) (k + 1) (by omega) (by omega) (by omega)
        refine ⟨w', ?_, fun i hi => ?_⟩
        · rw [e, show stri - 1 - (32 - (k + 1)) = stri - (32 - k) by omega]
        · rw [hb i hi]
          by_cases e1 : i < k
          · rw [if_pos (by omega), h1 i hi, if_neg (by omega), if_pos e1]
          · rw [if_neg e1]
            by_cases e2 : i = k
            · subst e2
              rw [if_pos (by omega), h1 i hi, if_pos rfl, if_pos (by omega), h2]
              simp
            · rw [if_neg (by omega)]
              by_cases e3 : i - k < stri
              · rw [if_pos e3, if_pos (by omega), show stri - 1 - 1 - (i - (k + 1)) = stri - 1 - (i - k) by omega]
              · rw [if_neg e3, if_neg (by omega)]
      by_cases hc : buf[stri - 1] = '0'
      · rw [if_pos hc]
        exact main _ false hclr (by simp [List.getElem?_eq_getElem hlt, hc])
      · rw [if_neg hc]
        exact main _ true hset (by simp [List.getElem?_eq_getElem hlt, hc])

theorem fromStr_spec (buf : List Char) : ∀ (ws : List Word) (stri : Nat), stri ≤ buf.length →
    ∃ ws', fromStr buf ws stri = some ws' ∧ ws'.length = ws.length ∧
      ∀ n, n < 32 * ws.length → bit ws' n = if n < stri then decide (buf[stri - 1 - n]? ≠ some '0') else false
  | [], stri, _ => ⟨[], rfl, rfl, fun n hn => by simp at hn⟩
  | w :: ws, stri, hs => by
    obtain ⟨w', e, hb⟩ := fromStrInner_spec buf 32 w stri 0 rfl (by omega) hs
    obtain ⟨ws', e2, hl, hb2⟩ := fromStr_spec buf ws (stri - 32) (by omega)
    refine ⟨w' :: ws', ?_, by simp [hl], fun n hn => ?_⟩
    · unfold fromStr
      rw [e]
      simp only [Nat.sub_zero]
      rw [e2]; rfl
    · rcases Nat.lt_or_ge n 32 with h | h
      · rw [bit_cons_lt _ _ h, hb n h, if_neg (by omega), Nat.sub_zero]
      · obtain ⟨m, rfl⟩ := Nat.exists_eq_add_of_le h
        rw [bit_cons_add, hb2 m (by simp at hn; omega)]
        by_cases e3 : m < stri - 32
        · rw [if_pos e3, if_pos (by omega), show stri - 32 - 1 - m = stri - 1 - (32 + m) by omega]
        · rw [if_neg e3, if_neg (by omega)]

end Ustl.Bitset
