import Verif.Util.Model
/-! # Bit helpers: theorems for C46 -/
namespace Ustl.Util

/-! ## Byte swapping -/

theorem bytesOf_length : ∀ n v, (bytesOf n v).length = n
  | 0, _ => rfl
  | n + 1, v => by simp [bytesOf, bytesOf_length n]

theorem bytesOf_lt : ∀ n v, ∀ b ∈ bytesOf n v, b < 256
  | 0, _, _, h => by simp [bytesOf] at h
  | n + 1, v, b, h => by
    rcases List.mem_cons.1 h with h | h
    · subst h; omega
    · exact bytesOf_lt n _ b h

theorem ofBytes_bytesOf : ∀ n v, v < 256 ^ n → ofBytes (bytesOf n v) = v
  | 0, v, h => by
    have : v = 0 := by simpa using h
    subst this; rfl
  | n + 1, v, h => by
    have : v / 256 < 256 ^ n := by rw [Nat.pow_succ] at h; omega
    simp only [bytesOf, ofBytes]
    rw [ofBytes_bytesOf n _ this]
    omega

theorem bytesOf_ofBytes : ∀ l : List Nat, (∀ b ∈ l, b < 256) → bytesOf l.length (ofBytes l) = l
  | [], _ => rfl
  | b :: bs, h => by
    have hb := h b (List.mem_cons_self ..)
    have e1 : (b + 256 * ofBytes bs) % 256 = b := by omega
    have e2 : (b + 256 * ofBytes bs) / 256 = ofBytes bs := by omega
    simp only [List.length_cons, bytesOf, ofBytes]
    rw [e1, e2, bytesOf_ofBytes bs (fun x hx => h x (List.mem_cons_of_mem _ hx))]

theorem ofBytes_lt : ∀ l : List Nat, (∀ b ∈ l, b < 256) → ofBytes l < 256 ^ l.length
  | [], _ => by simp [ofBytes]
  | b :: bs, h => by
    have hb := h b (List.mem_cons_self ..)
    have := ofBytes_lt bs (fun x hx => h x (List.mem_cons_of_mem _ hx))
    simp only [List.length_cons, ofBytes, Nat.pow_succ]
    omega

/-- **C46** `bswap` of a value of `n` bytes reverses its bytes, and twice gives back the value. Byte `i` of a number is
`v / 256^i % 256`. -/
theorem bswap_spec (n v : Nat) (h : v < 256 ^ n) :
    bswap n v < 256 ^ n ∧ bytesOf n (bswap n v) = (bytesOf n v).reverse ∧ bswap n (bswap n v) = v := by
  have hl : (bytesOf n v).reverse.length = n := by rw [List.length_reverse, bytesOf_length]
  have hb : ∀ b ∈ (bytesOf n v).reverse, b < 256 := fun b hb => bytesOf_lt n v b (List.mem_reverse.1 hb)
  have e : bytesOf n (bswap n v) = (bytesOf n v).reverse := by
    have := bytesOf_ofBytes _ hb
    rw [hl] at this
    exact this
  refine ⟨?_, e, ?_⟩
  · have := ofBytes_lt _ hb
    rw [hl] at this
    exact this
  · show ofBytes (bytesOf n (bswap n v)).reverse = v
    rw [e, List.reverse_reverse, ofBytes_bytesOf n v h]

theorem bytesOf_get : ∀ n v i, i < n → (bytesOf n v)[i]? = some (v / 256 ^ i % 256)
  | 0, _, _, h => by omega
  | n + 1, v, 0, _ => by simp [bytesOf]
  | n + 1, v, i + 1, h => by
    simp only [bytesOf, List.getElem?_cons_succ]
    rw [bytesOf_get n _ i (by omega), Nat.div_div_eq_div_mul, Nat.pow_succ, Nat.mul_comm 256]

/-- **C46** byte `i` of `bswap (v)` is byte `n - 1 - i` of `v`. -/
theorem bswap_byte (n v i : Nat) (h : v < 256 ^ n) (hi : i < n) :
    bswap n v / 256 ^ i % 256 = v / 256 ^ (n - 1 - i) % 256 := by
  have h1 := bytesOf_get n (bswap n v) i hi
  rw [(bswap_spec n v h).2.1, List.getElem?_reverse (by rw [bytesOf_length]; exact hi), bytesOf_length,
    bytesOf_get n v _ (by omega)] at h1
  exact (Option.some.inj h1).symm

example : bswap 4 0x12345678 = 0x78563412 := by decide +kernel

/-! ## Rotations -/

theorem rol_bits {w v n : Nat} (hv : v < 2 ^ w) (hn : n < w) (i : Nat) :
    ((v <<< n ||| v >>> (w - n)) % 2 ^ w).testBit i = (decide (i < w) && v.testBit ((i + (w - n)) % w)) := by
  rw [Nat.testBit_mod_two_pow, Nat.testBit_or, Nat.testBit_shiftLeft, Nat.testBit_shiftRight]
  by_cases hi : i < w
  · simp only [hi, decide_true, Bool.true_and]
    rcases Nat.lt_or_ge i n with h | h
    · rw [Nat.mod_eq_of_lt (by omega), decide_eq_false (by omega), Bool.false_and, Bool.false_or, Nat.add_comm]
    · have e : (i + (w - n)) % w = i - n := by
        have : i + (w - n) = (i - n) + w := by omega
        rw [this, Nat.add_mod_right, Nat.mod_eq_of_lt (by omega)]
      have hz : v.testBit (w - n + i) = false :=
        Nat.testBit_lt_two_pow (Nat.lt_of_lt_of_le hv (Nat.pow_le_pow_right (by decide) (by omega)))
      rw [e, hz, decide_eq_true h, Bool.true_and, Bool.or_false]
  · simp only [hi, decide_false, Bool.false_and]

theorem ror_bits {w v n : Nat} (hv : v < 2 ^ w) (hn : n < w) (hn0 : 0 < n) (i : Nat) :
    ((v >>> n ||| v <<< (w - n)) % 2 ^ w).testBit i = (decide (i < w) && v.testBit ((i + n) % w)) := by
  have h := rol_bits (n := w - n) hv (by omega) i
  have e : w - (w - n) = n := by omega
  rw [e, Nat.or_comm] at h
  exact h

theorem rol_some {w v n : Nat} (hw : w ≤ 64) (hn0 : 0 < n) (hn : n < w) :
    rol w v n = some ((v <<< n ||| v >>> (w - n)) % 2 ^ w) ∧ ror w v n = some ((v >>> n ||| v <<< (w - n)) % 2 ^ w) := by
  have e : (w + W - n) % W = w - n := by
    have : w + W - n = (w - n) + W := by omega
    have h2 : w - n < W := Nat.lt_of_lt_of_le (by omega : w - n < 65) (by simp [W])
    rw [this, Nat.add_mod_right, Nat.mod_eq_of_lt h2]
  have h1 : shiftOk w n = true := by unfold shiftOk; exact decide_eq_true (by omega)
  have h2 : shiftOk w (w - n) = true := by unfold shiftOk; exact decide_eq_true (by omega)
  unfold rol ror
  simp only [e, h1, h2, Bool.and_self, if_true]
  exact ⟨trivial, trivial⟩

/-- **C46** `Rol (v, n)` moves each bit up by `n` positions, round the end; `Ror` moves it down. -/
theorem rotate_bits (w v n : Nat) (hw : w ≤ 64) (hv : v < 2 ^ w) (hn0 : 0 < n) (hn : n < w) :
    ∃ l r, rol w v n = some l ∧ ror w v n = some r ∧ l < 2 ^ w ∧ r < 2 ^ w ∧
      ∀ i, i < w → l.testBit ((i + n) % w) = v.testBit i ∧ r.testBit i = v.testBit ((i + n) % w) := by
  obtain ⟨h1, h2⟩ := rol_some (v := v) hw hn0 hn
  refine ⟨_, _, h1, h2, Nat.mod_lt _ (Nat.pow_pos (by decide)), Nat.mod_lt _ (Nat.pow_pos (by decide)), fun i hi => ⟨?_, ?_⟩⟩
  · have hm : (i + n) % w < w := Nat.mod_lt _ (by omega)
    rw [rol_bits hv hn, decide_eq_true hm, Bool.true_and]
    congr 1
    rw [Nat.mod_add_mod, show i + n + (w - n) = i + w by omega, Nat.add_mod_right, Nat.mod_eq_of_lt hi]
  · rw [ror_bits hv hn hn0, decide_eq_true hi, Bool.true_and]

/-- **C46** `Rol` and `Ror` by the same amount undo each other. -/
theorem rol_ror_inverse (w v n : Nat) (hw : w ≤ 64) (hv : v < 2 ^ w) (hn0 : 0 < n) (hn : n < w) :
    (∃ l, rol w v n = some l ∧ ror w l n = some v) ∧ (∃ r, ror w v n = some r ∧ rol w r n = some v) := by
  have hp : 0 < 2 ^ w := Nat.pow_pos (by decide)
  constructor
  · refine ⟨_, (rol_some (v := v) hw hn0 hn).1, ?_⟩
    rw [(rol_some hw hn0 hn).2]
    congr 1
    apply Nat.eq_of_testBit_eq
    intro i
    rw [ror_bits (Nat.mod_lt _ hp) hn hn0]
    by_cases hi : i < w
    · rw [decide_eq_true hi, Bool.true_and, rol_bits hv hn, decide_eq_true (Nat.mod_lt _ (by omega)), Bool.true_and]
      rw [Nat.mod_add_mod, show i + n + (w - n) = i + w by omega, Nat.add_mod_right, Nat.mod_eq_of_lt hi]
    · rw [decide_eq_false hi, Bool.false_and,
        Nat.testBit_lt_two_pow (Nat.lt_of_lt_of_le hv (Nat.pow_le_pow_right (by decide) (by omega)))]
  · refine ⟨_, (rol_some (v := v) hw hn0 hn).2, ?_⟩
    rw [(rol_some hw hn0 hn).1]
    congr 1
    apply Nat.eq_of_testBit_eq
    intro i
    rw [rol_bits (Nat.mod_lt _ hp) hn]
    by_cases hi : i < w
    · rw [decide_eq_true hi, Bool.true_and, ror_bits hv hn hn0, decide_eq_true (Nat.mod_lt _ (by omega)), Bool.true_and]
      rw [Nat.mod_add_mod, show i + (w - n) + n = i + w by omega, Nat.add_mod_right, Nat.mod_eq_of_lt hi]
    · rw [decide_eq_false hi, Bool.false_and,
        Nat.testBit_lt_two_pow (Nat.lt_of_lt_of_le hv (Nat.pow_le_pow_right (by decide) (by omega)))]

example : rol 32 0x80000001 4 = some 0x18 ∧ ror 32 0x18 4 = some 0x80000001 ∧ rol 8 0x81 1 = some 3 := by decide +kernel

/-- **C46 fails** for a rotation of a 32- or 64-bit value by 0: the other shift is by the full width, which is
undefined. -/
theorem rotate_zero_violated (v : Nat) : rol 32 v 0 = none ∧ ror 32 v 0 = none ∧ rol 64 v 0 = none ∧ ror 64 v 0 = none := by
  have h1 : (shiftOk 32 0 && shiftOk 32 ((32 + W - 0) % W)) = false := by decide +kernel
  have h2 : (shiftOk 64 0 && shiftOk 64 ((64 + W - 0) % W)) = false := by decide +kernel
  unfold rol ror
  simp only [h1, h2, Bool.false_eq_true, if_false]
  exact ⟨trivial, trivial, trivial, trivial⟩

/-! ## pack_type -/

theorem packLoop_bits (m k s : Nat) (hm : 0 < m) : ∀ (fuel j b : Nat), j ≤ k → k - j ≤ fuel → b < 2 ^ (m * 2 ^ k) →
    (∀ i, b.testBit i = (decide (i < m * 2 ^ j) && s.testBit (i % m))) →
    ∀ i, (packLoop (m * 2 ^ k) (m * 2 ^ j) b fuel).testBit i = (decide (i < m * 2 ^ k) && s.testBit (i % m))
  | 0, j, b, hj, hf, _, hb, i => by
    have : j = k := by omega
    subst this
    exact hb i
  | f + 1, j, b, hj, hf, hlt, hb, i => by
    unfold packLoop
    by_cases hjk : j = k
    · subst hjk; rw [if_neg (Nat.lt_irrefl _)]; exact hb i
    · have h2 : m * 2 ^ j * 2 = m * 2 ^ (j + 1) := by rw [Nat.pow_succ, Nat.mul_assoc]
      have hle : m * 2 ^ (j + 1) ≤ m * 2 ^ k := Nat.mul_le_mul_left _ (Nat.pow_le_pow_right (by decide) (by omega))
      have hpos : 0 < m * 2 ^ j := Nat.mul_pos hm (Nat.pow_pos (by decide))
      rw [if_pos (by omega), h2]
      apply packLoop_bits m k s hm f (j + 1) _ (by omega) (by omega) (Nat.mod_lt _ (Nat.pow_pos (by decide)))
      intro i
      rw [Nat.testBit_mod_two_pow, Nat.testBit_or, Nat.testBit_shiftLeft, hb, hb]
      have hmod : i ≥ m * 2 ^ j → (i - m * 2 ^ j) % m = i % m := by
        intro h
        have e : i = (i - m * 2 ^ j) + m * 2 ^ j := by omega
        conv => rhs; rw [e, Nat.add_mul_mod_self_left]
      rcases Nat.lt_or_ge i (m * 2 ^ j) with h | h
      · rw [decide_eq_true (show i < m * 2 ^ k by omega), decide_eq_false (show ¬ i ≥ m * 2 ^ j by omega),
          decide_eq_true h, decide_eq_true (show i < m * 2 ^ (j + 1) by omega)]
        simp
      · rw [decide_eq_true h, decide_eq_false (show ¬ i < m * 2 ^ j by omega), hmod h]
        rcases Nat.lt_or_ge i (m * 2 ^ (j + 1)) with h3 | h3
        · rw [decide_eq_true (show i < m * 2 ^ k by omega), decide_eq_true (show i - m * 2 ^ j < m * 2 ^ j by omega),
            decide_eq_true h3]
          simp
        · rw [decide_eq_false (show ¬ i - m * 2 ^ j < m * 2 ^ j by omega), decide_eq_false (show ¬ i < m * 2 ^ (j + 1) by omega)]
          simp

theorem lt_pow_two (m k : Nat) (hm : 0 < m) : k ≤ m * 2 ^ k := by
  have := @Nat.lt_two_pow_self k
  have h2 : 2 ^ k ≤ m * 2 ^ k := Nat.le_mul_of_pos_left _ hm
  omega

/-- **C46** `pack_type` from an unsigned type of `m` bits to one of `m * 2^k` bits replicates the value: each of the
`2^k` fields of `m` bits is `s`. -/
theorem packType_spec (m k s : Nat) (hm : 0 < m) (hs : s < 2 ^ m) :
    packType m (m * 2 ^ k) s < 2 ^ (m * 2 ^ k) ∧
    ∀ j, j < 2 ^ k → packType m (m * 2 ^ k) s / 2 ^ (m * j) % 2 ^ m = s := by
  have h1 : m ≤ m * 2 ^ k := Nat.le_mul_of_pos_right _ (Nat.pow_pos (by decide))
  have hlt : s < 2 ^ (m * 2 ^ k) := Nat.lt_of_lt_of_le hs (Nat.pow_le_pow_right (by decide) h1)
  have hb : ∀ i, (packType m (m * 2 ^ k) s).testBit i = (decide (i < m * 2 ^ k) && s.testBit (i % m)) := by
    have := packLoop_bits m k s hm (m * 2 ^ k) 0 (s % 2 ^ (m * 2 ^ k)) (Nat.zero_le _)
      (by have := lt_pow_two m k hm; omega) (Nat.mod_lt _ (Nat.pow_pos (by decide))) (by
        intro i
        rw [Nat.mod_eq_of_lt hlt, Nat.pow_zero, Nat.mul_one]
        by_cases h : i < m
        · rw [decide_eq_true h, Nat.mod_eq_of_lt h, Bool.true_and]
        · rw [decide_eq_false h, Bool.false_and,
            Nat.testBit_lt_two_pow (Nat.lt_of_lt_of_le hs (Nat.pow_le_pow_right (by decide) (by omega)))])
    rw [Nat.pow_zero, Nat.mul_one] at this
    exact this
  constructor
  · apply Nat.lt_pow_two_of_testBit
    intro i hi
    rw [hb, decide_eq_false (by omega), Bool.false_and]
  · intro j hj
    apply Nat.eq_of_testBit_eq
    intro i
    rw [Nat.testBit_mod_two_pow, ← Nat.shiftRight_eq_div_pow, Nat.testBit_shiftRight, hb]
    by_cases h : i < m
    · have h3 : m * j + i < m * 2 ^ k := by
        have : m * (j + 1) ≤ m * 2 ^ k := Nat.mul_le_mul_left _ hj
        rw [Nat.mul_add, Nat.mul_one] at this
        omega
      rw [decide_eq_true h, decide_eq_true h3, Nat.mul_add_mod, Nat.mod_eq_of_lt h, Bool.true_and, Bool.true_and]
    · rw [decide_eq_false h, Bool.false_and,
        Nat.testBit_lt_two_pow (Nat.lt_of_lt_of_le hs (Nat.pow_le_pow_right (by decide) (by omega)))]

example : packType 8 64 0xAB = 0xABABABABABABABAB ∧ 64 = 8 * 2 ^ 3 := by decide +kernel

/-! ## popcount -/

/-- The mask with every byte equal to `m`. -/
theorem ofBytes_and (m : Nat) (hm : m < 256) : ∀ l : List Nat, (∀ b ∈ l, b < 256) →
    ofBytes l &&& ofBytes (List.replicate l.length m) = ofBytes (l.map (· &&& m))
  | [], _ => by simp [ofBytes]
  | b :: bs, h => by
    have hb := h b (List.mem_cons_self ..)
    have ih := ofBytes_and m hm bs (fun x hx => h x (List.mem_cons_of_mem _ hx))
    simp only [List.length_cons, List.replicate_succ, ofBytes, List.map_cons]
    rw [← ih]
    generalize ofBytes bs = x
    generalize ofBytes (List.replicate bs.length m) = y
    have h1 : ((b + 256 * x) &&& (m + 256 * y)) % 2 ^ 8 = b &&& m := by
      rw [Nat.and_mod_two_pow]; congr 1 <;> omega
    have h2 : ((b + 256 * x) &&& (m + 256 * y)) / 2 ^ 8 = x &&& y := by
      rw [Nat.and_div_two_pow]; congr 1 <;> omega
    omega

theorem ofBytes_shr_and (s k m : Nat) (hs : s = 1 ∧ k = 7 ∨ s = 2 ∧ k = 6) (hm : m < 2 ^ k) : ∀ l : List Nat, (∀ b ∈ l, b < 256) →
    (ofBytes l >>> s) &&& ofBytes (List.replicate l.length m) = ofBytes (l.map fun b => b >>> s &&& m)
  | [], _ => by simp [ofBytes]
  | b :: bs, h => by
    have hb := h b (List.mem_cons_self ..)
    have ih := ofBytes_shr_and s k m hs hm bs (fun x hx => h x (List.mem_cons_of_mem _ hx))
    simp only [List.length_cons, List.replicate_succ, ofBytes, List.map_cons]
    rw [← ih]
    generalize ofBytes bs = x
    generalize ofBytes (List.replicate bs.length m) = y
    have hm8 : m < 256 := by rcases hs with ⟨rfl, rfl⟩ | ⟨rfl, rfl⟩ <;> omega
    have e : m % 2 ^ k = m := Nat.mod_eq_of_lt hm
    have hlow : ∀ z, z % 2 ^ 8 &&& m = z % 2 ^ k &&& m := by
      intro z
      have h1 : (z % 2 ^ 8 &&& m) % 2 ^ k = z % 2 ^ 8 &&& m :=
        Nat.mod_eq_of_lt (Nat.lt_of_le_of_lt Nat.and_le_right hm)
      rw [← h1, Nat.and_mod_two_pow, e]
      congr 1
      rcases hs with ⟨rfl, rfl⟩ | ⟨rfl, rfl⟩ <;> omega
    have hlow2 : ∀ z, z &&& m = z % 2 ^ k &&& m := by
      intro z
      have h1 : (z &&& m) % 2 ^ k = z &&& m :=
        Nat.mod_eq_of_lt (Nat.lt_of_le_of_lt Nat.and_le_right hm)
      rw [← h1, Nat.and_mod_two_pow, e]
    have h1 : (((b + 256 * x) >>> s) &&& (m + 256 * y)) % 2 ^ 8 = b >>> s &&& m := by
      rw [Nat.and_mod_two_pow, show (m + 256 * y) % 2 ^ 8 = m by clear e hlow hlow2; omega, hlow, hlow2 (b >>> s)]
      congr 1
      rw [Nat.shiftRight_eq_div_pow, Nat.shiftRight_eq_div_pow]
      rcases hs with ⟨rfl, rfl⟩ | ⟨rfl, rfl⟩ <;> omega
    have h2 : (((b + 256 * x) >>> s) &&& (m + 256 * y)) / 2 ^ 8 = x >>> s &&& y := by
      rw [Nat.and_div_two_pow, show (m + 256 * y) / 2 ^ 8 = y by clear e hlow hlow2 h1; omega]
      congr 1
      rw [Nat.shiftRight_eq_div_pow, Nat.shiftRight_eq_div_pow]
      rcases hs with ⟨rfl, rfl⟩ | ⟨rfl, rfl⟩ <;> omega
    omega

theorem ofBytes_sub (f : Nat → Nat) : ∀ l : List Nat, (∀ b ∈ l, f b ≤ b) →
    ofBytes (l.map f) ≤ ofBytes l ∧ ofBytes l - ofBytes (l.map f) = ofBytes (l.map fun b => b - f b)
  | [], _ => by simp [ofBytes]
  | b :: bs, h => by
    have hb := h b (List.mem_cons_self ..)
    have ih := ofBytes_sub f bs (fun x hx => h x (List.mem_cons_of_mem _ hx))
    simp only [ofBytes, List.map_cons]
    omega

theorem ofBytes_add (f g : Nat → Nat) : ∀ l : List Nat,
    ofBytes (l.map f) + ofBytes (l.map g) = ofBytes (l.map fun b => f b + g b)
  | [] => by simp [ofBytes]
  | b :: bs => by
    have ih := ofBytes_add f g bs
    simp only [ofBytes, List.map_cons]
    omega

theorem ofBytes_mod16 (l : List Nat) (h : ∀ b ∈ l, b % 16 ≤ 4) : ofBytes l % 16 ≤ 4 := by
  cases l with
  | nil => simp [ofBytes]
  | cons b bs =>
    have := h b (List.mem_cons_self ..)
    simp only [ofBytes]
    omega

theorem ofBytes_nib : ∀ l : List Nat, (∀ b ∈ l, b % 16 ≤ 4 ∧ b / 16 ≤ 4) →
    ofBytes l + ofBytes l >>> 4 < 256 ^ l.length ∧
    (ofBytes l + ofBytes l >>> 4) &&& ofBytes (List.replicate l.length 15) = ofBytes (l.map fun b => b % 16 + b / 16)
  | [], _ => by simp [ofBytes]
  | b :: bs, h => by
    have hb := h b (List.mem_cons_self ..)
    have hbs : ∀ x ∈ bs, x % 16 ≤ 4 ∧ x / 16 ≤ 4 := fun x hx => h x (List.mem_cons_of_mem _ hx)
    have ih := ofBytes_nib bs hbs
    have hx := ofBytes_mod16 bs (fun x hx => (hbs x hx).1)
    simp only [List.length_cons, List.replicate_succ, ofBytes, List.map_cons, Nat.pow_succ]
    rw [← ih.2]
    have ih1 := ih.1
    rw [Nat.shiftRight_eq_div_pow] at ih1 ⊢
    generalize ofBytes bs = x at *
    generalize ofBytes (List.replicate bs.length 15) = y
    rw [Nat.shiftRight_eq_div_pow]
    refine ⟨by omega, ?_⟩
    have h1 : ((b + 256 * x + (b + 256 * x) / 2 ^ 4) &&& (15 + 256 * y)) % 2 ^ 8 = b % 16 + b / 16 := by
      rw [Nat.and_mod_two_pow, show (15 + 256 * y) % 2 ^ 8 = 2 ^ 4 - 1 by omega, Nat.and_two_pow_sub_one_eq_mod]
      omega
    have h2 : ((b + 256 * x + (b + 256 * x) / 2 ^ 4) &&& (15 + 256 * y)) / 2 ^ 8 = (x + x / 2 ^ 4) &&& y := by
      rw [Nat.and_div_two_pow, show (15 + 256 * y) / 2 ^ 8 = y by omega]
      congr 1
      omega
    omega

/-- The number of set bits among the low `w` bits of `v`. -/
def ones (w v : Nat) : Nat := ((List.range w).filter fun i => v.testBit i).length

theorem ones_eq (w v : Nat) : ones w v = (List.range w).countP fun i => v.testBit i := by
  rw [ones, List.countP_eq_length_filter]

theorem ones_bytes : ∀ l : List Nat, (∀ b ∈ l, b < 256) →
    ones (8 * l.length) (ofBytes l) = (l.map (ones 8)).sum
  | [], _ => by simp [ones]
  | b :: bs, h => by
    have hb := h b (List.mem_cons_self ..)
    rw [List.map_cons, List.sum_cons, ← ones_bytes bs (fun x hx => h x (List.mem_cons_of_mem _ hx))]
    rw [ones_eq, ones_eq, ones_eq, List.length_cons, show 8 * (bs.length + 1) = 8 + 8 * bs.length by omega, List.range_add,
      List.countP_append, List.countP_map]
    have e1 : ∀ i, i < 8 → (ofBytes (b :: bs)).testBit i = b.testBit i := by
      intro i hi
      have h1 : ofBytes (b :: bs) % 2 ^ 8 = b := by simp only [ofBytes]; omega
      have h2 := Nat.testBit_mod_two_pow (ofBytes (b :: bs)) 8 i
      rw [h1, decide_eq_true hi, Bool.true_and] at h2
      exact h2.symm
    have e2 : ∀ i, (ofBytes (b :: bs)).testBit (8 + i) = (ofBytes bs).testBit i := by
      intro i
      have h1 : ofBytes (b :: bs) / 2 ^ 8 = ofBytes bs := by simp only [ofBytes]; omega
      rw [← h1, Nat.testBit_div_two_pow, Nat.add_comm]
    congr 1
    · apply List.countP_congr
      intro i hi
      rw [e1 i (List.mem_range.1 hi)]
    · apply List.countP_congr
      intro i _
      show (ofBytes (b :: bs)).testBit (8 + i) = true ↔ _
      rw [e2]

/-- What the first two steps do to one byte. -/
def step1 (b : Nat) : Nat := b - (b >>> 1 &&& 0x55)
/-- What the first two steps do to one byte. -/
def step2 (b : Nat) : Nat := (b &&& 0x33) + (b >>> 2 &&& 0x33)

theorem byte_steps : ∀ b, b < 256 → (b >>> 1 &&& 0x55) ≤ b ∧ step1 b < 256 ∧ step2 (step1 b) < 256 ∧
    step2 (step1 b) % 16 ≤ 4 ∧ step2 (step1 b) / 16 ≤ 4 ∧
    step2 (step1 b) % 16 + step2 (step1 b) / 16 = ones 8 b := by decide +kernel

theorem popSteps (l : List Nat) (h : ∀ b ∈ l, b < 256) :
    ∃ w x, w = ofBytes l - (ofBytes l >>> 1 &&& ofBytes (List.replicate l.length 0x55)) ∧
      (ofBytes l >>> 1 &&& ofBytes (List.replicate l.length 0x55)) ≤ ofBytes l ∧
      x = (w &&& ofBytes (List.replicate l.length 0x33)) + (w >>> 2 &&& ofBytes (List.replicate l.length 0x33)) ∧
      x < 256 ^ l.length ∧ x + x >>> 4 < 256 ^ l.length ∧
      (x + x >>> 4) &&& ofBytes (List.replicate l.length 15) = ofBytes (l.map (ones 8)) := by
  have hs := fun b hb => byte_steps b (h b hb)
  have a1 := ofBytes_shr_and 1 7 0x55 (Or.inl ⟨rfl, rfl⟩) (by decide) l h
  have a2 := ofBytes_sub (fun b => b >>> 1 &&& 0x55) l (fun b hb => (hs b hb).1)
  have a3 : ∀ b ∈ l.map step1, b < 256 := by
    intro b hb; obtain ⟨c, hc, rfl⟩ := List.mem_map.1 hb; exact (hs c hc).2.1
  have a4 := ofBytes_and 0x33 (by decide) (l.map step1) a3
  have a5 := ofBytes_shr_and 2 6 0x33 (Or.inr ⟨rfl, rfl⟩) (by decide) (l.map step1) a3
  have a6 := ofBytes_add (fun b => b &&& 0x33) (fun b => b >>> 2 &&& 0x33) (l.map step1)
  have a7 : (l.map step1).map (fun b => (b &&& 0x33) + (b >>> 2 &&& 0x33)) = l.map fun b => step2 (step1 b) := by
    rw [List.map_map]; rfl
  have a8 : ∀ b ∈ l.map (fun b => step2 (step1 b)), b % 16 ≤ 4 ∧ b / 16 ≤ 4 := by
    intro b hb; obtain ⟨c, hc, rfl⟩ := List.mem_map.1 hb; exact ⟨(hs c hc).2.2.2.1, (hs c hc).2.2.2.2.1⟩
  have a9 := ofBytes_nib _ a8
  have a10 : ∀ b ∈ l.map (fun b => step2 (step1 b)), b < 256 := by
    intro b hb; obtain ⟨c, hc, rfl⟩ := List.mem_map.1 hb; exact (hs c hc).2.2.1
  have a11 := ofBytes_lt _ a10
  rw [List.length_map] at a4 a5 a9 a11
  refine ⟨ofBytes (l.map step1), ofBytes (l.map fun b => step2 (step1 b)), ?_, ?_, ?_, a11, a9.1, ?_⟩
  · rw [a1, a2.2]; rfl
  · rw [a1]; exact a2.1
  · rw [a4, a5, a6, a7]
  · rw [a9.2, List.map_map]
    congr 1
    exact List.map_congr_left fun b hb => (hs b hb).2.2.2.2.2

theorem ones8_le (b : Nat) : ones 8 b ≤ 8 := by
  have := List.length_filter_le (fun i => b.testBit i) (List.range 8)
  rw [List.length_range] at this
  exact this

theorem mod_sub (v u m : Nat) (h : u ≤ v) (hv : v < m) : (v + m - u) % m = v - u := by
  rw [show v + m - u = (v - u) + m by omega, Nat.add_mod_right, Nat.mod_eq_of_lt (by omega)]

theorem pop_fin32 (low S H : Nat) (h1 : low < 2 ^ 24) (h2 : S < 256) :
    (low + 2 ^ 24 * (S + 256 * H)) % 2 ^ 32 / 2 ^ 24 = S := by omega

theorem pop_fin64 (low S H : Nat) (h1 : low < 2 ^ 56) (h2 : S < 256) :
    (low + 2 ^ 56 * (S + 256 * H)) % 2 ^ 64 / 2 ^ 56 = S := by omega

theorem popcount32_bytes (a b c d : Nat) (h : ∀ x ∈ [a, b, c, d], x < 256) :
    popcount32 (ofBytes [a, b, c, d]) = ones 8 a + ones 8 b + ones 8 c + ones 8 d := by
  obtain ⟨w, x, hw, hle, hx, hx1, hx2, hx3⟩ := popSteps _ h
  have hv := ofBytes_lt _ h
  have m1 : ofBytes (List.replicate 4 0x55) = 0x55555555 := by decide +kernel
  have m2 : ofBytes (List.replicate 4 0x33) = 0x33333333 := by decide +kernel
  have m3 : ofBytes (List.replicate 4 15) = 0x0F0F0F0F := by decide +kernel
  rw [show [a, b, c, d].length = 4 from rfl] at *
  rw [m1] at hw hle
  rw [m2] at hx
  rw [m3] at hx3
  rw [show (256 : Nat) ^ 4 = 2 ^ 32 by decide] at *
  generalize ofBytes [a, b, c, d] = v at *
  unfold popcount32
  simp only
  rw [mod_sub _ _ _ hle hv, ← hw, ← hx, Nat.mod_eq_of_lt hx1, Nat.mod_eq_of_lt hx2, hx3, Nat.shiftRight_eq_div_pow]
  have := ones8_le a; have := ones8_le b; have := ones8_le c; have := ones8_le d
  simp only [List.map_cons, List.map_nil, ofBytes]
  generalize ones 8 a = p0 at *
  generalize ones 8 b = p1 at *
  generalize ones 8 c = p2 at *
  generalize ones 8 d = p3 at *
  refine Eq.trans ?_ (pop_fin32 (256 ^ 0 * (p0) + 256 ^ 1 * (p0 + p1) + 256 ^ 2 * (p0 + p1 + p2)) (p0 + p1 + p2 + p3) (256 ^ 0 * (p1 + p2 + p3) + 256 ^ 1 * (p2 + p3) + 256 ^ 2 * (p3)) (by omega) (by omega))
  congr 2
  omega

theorem pop_mul64 (p0 p1 p2 p3 p4 p5 p6 p7 : Nat) (h0 : p0 ≤ 8) (h1 : p1 ≤ 8) (h2 : p2 ≤ 8) (h3 : p3 ≤ 8) (h4 : p4 ≤ 8) (h5 : p5 ≤ 8) (h6 : p6 ≤ 8) (h7 : p7 ≤ 8) :
    ((p0 + 256 * (p1 + 256 * (p2 + 256 * (p3 + 256 * (p4 + 256 * (p5 + 256 * (p6 + 256 * (p7 + 256 * (0))))))))) * 0x0101010101010101) % 2 ^ 64 / 2 ^ 56 =
      p0 + p1 + p2 + p3 + p4 + p5 + p6 + p7 := by
  have h : (p0 + 256 * (p1 + 256 * (p2 + 256 * (p3 + 256 * (p4 + 256 * (p5 + 256 * (p6 + 256 * (p7 + 256 * (0))))))))) * 0x0101010101010101 =
      (256 ^ 0 * (p0) + 256 ^ 1 * (p0 + p1) + 256 ^ 2 * (p0 + p1 + p2) + 256 ^ 3 * (p0 + p1 + p2 + p3) + 256 ^ 4 * (p0 + p1 + p2 + p3 + p4) + 256 ^ 5 * (p0 + p1 + p2 + p3 + p4 + p5) + 256 ^ 6 * (p0 + p1 + p2 + p3 + p4 + p5 + p6)) +
        2 ^ 56 * ((p0 + p1 + p2 + p3 + p4 + p5 + p6 + p7) + 256 * (256 ^ 0 * (p1 + p2 + p3 + p4 + p5 + p6 + p7) + 256 ^ 1 * (p2 + p3 + p4 + p5 + p6 + p7) + 256 ^ 2 * (p3 + p4 + p5 + p6 + p7) + 256 ^ 3 * (p4 + p5 + p6 + p7) + 256 ^ 4 * (p5 + p6 + p7) + 256 ^ 5 * (p6 + p7) + 256 ^ 6 * (p7))) := by
    clear h0 h1 h2 h3 h4 h5 h6 h7
    omega
  rw [h]
  exact pop_fin64 _ _ _ (by omega) (by omega)

theorem popcount64_bytes (a b c d e f g k : Nat) (h : ∀ x ∈ [a, b, c, d, e, f, g, k], x < 256) :
    popcount64 (ofBytes [a, b, c, d, e, f, g, k]) =
      ones 8 a + ones 8 b + ones 8 c + ones 8 d + ones 8 e + ones 8 f + ones 8 g + ones 8 k := by
  obtain ⟨w, x, hw, hle, hx, hx1, hx2, hx3⟩ := popSteps _ h
  have hv := ofBytes_lt _ h
  have m1 : ofBytes (List.replicate 8 0x55) = 0x5555555555555555 := by decide +kernel
  have m2 : ofBytes (List.replicate 8 0x33) = 0x3333333333333333 := by decide +kernel
  have m3 : ofBytes (List.replicate 8 15) = 0x0F0F0F0F0F0F0F0F := by decide +kernel
  rw [show [a, b, c, d, e, f, g, k].length = 8 from rfl] at *
  rw [m1] at hw hle
  rw [m2] at hx
  rw [m3] at hx3
  rw [show (256 : Nat) ^ 8 = 2 ^ 64 by decide] at *
  generalize ofBytes [a, b, c, d, e, f, g, k] = v at *
  unfold popcount64
  simp only
  rw [mod_sub _ _ _ hle hv, ← hw, ← hx, Nat.mod_eq_of_lt hx1, Nat.mod_eq_of_lt hx2, hx3, Nat.shiftRight_eq_div_pow]
  simp only [List.map_cons, List.map_nil, ofBytes]
  exact pop_mul64 _ _ _ _ _ _ _ _ (ones8_le a) (ones8_le b) (ones8_le c) (ones8_le d)
    (ones8_le e) (ones8_le f) (ones8_le g) (ones8_le k)

/-- **C46** `popcount (v)` of a 32-bit value is the number of its bits that are set. -/
theorem popcount32_spec (v : Nat) (hv : v < 2 ^ 32) :
    popcount32 v = ((List.range 32).filter fun i => v.testBit i).length := by
  have h := ofBytes_bytesOf 4 v (by rw [show (256 : Nat) ^ 4 = 2 ^ 32 by decide]; exact hv)
  have hb := bytesOf_lt 4 v
  have h2 := ones_bytes _ hb
  rw [h] at h2
  have h3 := popcount32_bytes _ _ _ _ hb
  rw [show [v % 256, v / 256 % 256, v / 256 / 256 % 256, v / 256 / 256 / 256 % 256] = bytesOf 4 v from rfl, h] at h3
  rw [h3]
  rw [bytesOf_length] at h2
  show _ = ones 32 v
  rw [show (32 : Nat) = 8 * 4 from rfl, h2]
  simp only [bytesOf, List.map_cons, List.map_nil, List.sum_cons, List.sum_nil]
  omega

/-- **C46** `popcount (v)` of a 64-bit value is the number of its bits that are set. -/
theorem popcount64_spec (v : Nat) (hv : v < 2 ^ 64) :
    popcount64 v = ((List.range 64).filter fun i => v.testBit i).length := by
  have h := ofBytes_bytesOf 8 v (by rw [show (256 : Nat) ^ 8 = 2 ^ 64 by decide]; exact hv)
  have hb := bytesOf_lt 8 v
  have h2 := ones_bytes _ hb
  rw [h] at h2
  have h3 := popcount64_bytes _ _ _ _ _ _ _ _ hb
  rw [show [v % 256, v / 256 % 256, v / 256 / 256 % 256, v / 256 / 256 / 256 % 256, v / 256 / 256 / 256 / 256 % 256,
    v / 256 / 256 / 256 / 256 / 256 % 256, v / 256 / 256 / 256 / 256 / 256 / 256 % 256,
    v / 256 / 256 / 256 / 256 / 256 / 256 / 256 % 256] = bytesOf 8 v from rfl, h] at h3
  rw [h3]
  rw [bytesOf_length] at h2
  show _ = ones 64 v
  rw [show (64 : Nat) = 8 * 8 from rfl, h2]
  simp only [bytesOf, List.map_cons, List.map_nil, List.sum_cons, List.sum_nil]
  omega

example : popcount32 0xF0F01234 = 13 ∧ popcount64 0xFFFFFFFFFFFFFFFF = 64 ∧ (0xF0F01234 : Nat) < 2 ^ 32 := by decide +kernel

end Ustl.Util
