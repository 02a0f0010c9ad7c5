import Verif.Util.Model
/-! # Integer helpers: theorems for C45 and C46 -/
namespace Ustl.Util

/-! ## Alignment -/

/-- **C45** `AlignDown (n, g)` is the largest multiple of `g` not above `n`. -/
theorem alignDown_spec (n g : Nat) (hg : 0 < g) :
    ∃ r, alignDown n g = some r ∧ g ∣ r ∧ r ≤ n ∧ ∀ m, g ∣ m → m ≤ n → m ≤ r := by
  refine ⟨n - n % g, ?_, Nat.dvd_sub_mod n, Nat.sub_le _ _, ?_⟩
  · unfold alignDown; rw [if_neg (by omega)]
  · rintro m ⟨k, rfl⟩ hm
    have h1 : n - n % g = g * (n / g) := by have := Nat.div_add_mod n g; omega
    rw [h1]
    exact Nat.mul_le_mul_left g ((Nat.le_div_iff_mul_le hg).2 (by rw [Nat.mul_comm]; exact hm))

example : alignDown 17 8 = some 16 := by decide

theorem align_nowrap {w n g : Nat} (hg : 0 < g) (h : n + g - 1 < W) :
    align w n g = some (((n + g - 1) - (n + g - 1) % g) % 2 ^ w) := by
  have e : (n + g + (W - 1)) % W = n + g - 1 := by
    have : n + g + (W - 1) = (n + g - 1) + W := by have : 1 ≤ W := by simp [W]
                                                   omega
    rw [this, Nat.add_mod_right, Nat.mod_eq_of_lt h]
  unfold align
  rw [e]
  unfold alignDown
  rw [if_neg (by omega)]

theorem roundup_spec {n g : Nat} (hg : 0 < g) :
    g ∣ (n + g - 1) - (n + g - 1) % g ∧ n ≤ (n + g - 1) - (n + g - 1) % g ∧
      ∀ m, g ∣ m → n ≤ m → (n + g - 1) - (n + g - 1) % g ≤ m := by
  refine ⟨Nat.dvd_sub_mod _, ?_, ?_⟩
  · have := Nat.mod_lt (n + g - 1) hg; omega
  · rintro m ⟨k, rfl⟩ hm
    have h1 : (n + g - 1) - (n + g - 1) % g = g * ((n + g - 1) / g) := by have := Nat.div_add_mod (n + g - 1) g; omega
    rw [h1]
    apply Nat.mul_le_mul_left
    have : (n + g - 1) / g < k + 1 := by
      rw [Nat.div_lt_iff_lt_mul hg, Nat.add_mul, Nat.one_mul, Nat.mul_comm k g]
      omega
    omega

/-- **C45** `Align (n, g)` of an unsigned `n` of `w` bits is the least multiple of `g` not below `n`, if there is one in
the type and either `n + g - 1` fits `size_t` or `g` is a power of two (divides 2^64). -/
theorem align_spec (w n g : Nat) (hw : w ≤ 64) (hg : 0 < g) (hs : n + g - 1 < W ∨ g ∣ W)
    (hfit : ∃ m, g ∣ m ∧ n ≤ m ∧ m < 2 ^ w) :
    ∃ r, align w n g = some r ∧ g ∣ r ∧ n ≤ r ∧ ∀ m, g ∣ m → n ≤ m → r ≤ m := by
  obtain ⟨m, hm1, hm2, hm3⟩ := hfit
  have hW : 2 ^ w ≤ W := Nat.pow_le_pow_right (by decide) hw
  have hno : n + g - 1 < W := by
    rcases hs with h | h
    · exact h
    · rcases Nat.lt_or_ge (n + g - 1) W with h2 | h2
      · exact h2
      · exfalso
        obtain ⟨a, ha⟩ := h
        obtain ⟨b, hb⟩ := hm1
        have h3 : g * b < g * a := by rw [← ha, ← hb]; omega
        have h4 : b < a := Nat.lt_of_mul_lt_mul_left h3
        have h5 : g * (b + 1) ≤ g * a := Nat.mul_le_mul_left g h4
        rw [Nat.mul_add, ← ha, ← hb] at h5
        omega
  obtain ⟨h1, h2, h3⟩ := roundup_spec (n := n) hg
  refine ⟨_, align_nowrap hg hno, ?_⟩
  rw [Nat.mod_eq_of_lt (Nat.lt_of_le_of_lt (h3 m hm1 hm2) hm3)]
  exact ⟨h1, h2, h3⟩

example : align 32 17 8 = some 24 ∧ (∃ m, 8 ∣ m ∧ 17 ≤ m ∧ m < 2 ^ 32) ∧ align 16 10 3 = some 12 :=
  ⟨by decide +kernel, ⟨24, by decide, by decide, by decide⟩, by decide +kernel⟩

/-- **C45 fails** near the top of `size_t` for a grain that is not a power of two: 2^64 - 1 is a multiple of 3, but
`Align (2^64 - 1, 3)` is 0. And when the multiple is not representable, the result is below `n`. -/
theorem align_violated : 3 ∣ W - 1 ∧ align 64 (W - 1) 3 = some 0 ∧ align 64 (W - 1) 8 = some 0 ∧
    align 8 250 8 = some 0 := by decide +kernel

theorem toU_eq (n : Int) : ((toU n : Nat) : Int) = n % (W : Int) := by
  unfold toU
  exact Int.toNat_of_nonneg (Int.emod_nonneg _ (by simp [W]))

theorem toS_of_mod {w : Nat} {x : Nat} {y : Int} (hw : 0 < w) (hy1 : -2 ^ (w - 1) ≤ y) (hy2 : y < 2 ^ (w - 1))
    (h : ((x % 2 ^ w : Nat) : Int) = y % ((2 ^ w : Nat) : Int)) : toS w x = y := by
  obtain ⟨v, rfl⟩ : ∃ v, w = v + 1 := ⟨w - 1, by omega⟩
  simp only [Nat.add_sub_cancel] at *
  unfold toS
  simp only [Nat.add_sub_cancel]
  have hp : (2 : Nat) ^ (v + 1) = 2 ^ v + 2 ^ v := by rw [Nat.pow_succ]; omega
  have hpi : ((2 : Int) ^ v) = ((2 ^ v : Nat) : Int) := by simp
  have hpi2 : ((2 : Int) ^ (v + 1)) = ((2 ^ (v + 1) : Nat) : Int) := by simp
  rw [hpi] at hy1 hy2
  rw [hpi2]
  rw [hp] at h ⊢
  generalize (2 : Nat) ^ v = p at *
  generalize x % (p + p) = r at *
  rcases Int.lt_or_le y 0 with hneg | hpos
  · have : y % ((p + p : Nat) : Int) = y + (p + p : Nat) := by
      rw [← Int.add_emod_right, Int.emod_eq_of_lt (by omega) (by omega)]
    rw [this] at h
    rw [if_neg (by omega)]
    omega
  · rw [Int.emod_eq_of_lt hpos (by omega)] at h
    rw [if_pos (by omega)]
    omega

/-- **C45** `AlignDown (n, g)` of a signed `n` of `w` bits, for a grain that is a power of two: the largest multiple of
`g` not above `n`, also for negative `n`. -/
theorem alignDown_signed (w k : Nat) (n : Int) (hw : w ≤ 64) (hk : k < w) (h1 : -2 ^ (w - 1) ≤ n) (h2 : n < 2 ^ (w - 1)) :
    ∃ r, alignDownS w n (2 ^ k) = some r ∧ ((2 ^ k : Nat) : Int) ∣ r ∧ r ≤ n ∧
      ∀ m : Int, ((2 ^ k : Nat) : Int) ∣ m → m ≤ n → m ≤ r := by
  have hg : 0 < 2 ^ k := Nat.pow_pos (by decide)
  generalize hgd : 2 ^ k = g at *
  have hgw : (g : Int) ∣ (W : Int) := by
    rw [← hgd]; exact Int.natCast_dvd_natCast.2 (Nat.pow_dvd_pow 2 (by omega))
  have hgh : (g : Int) ∣ (2 ^ (w - 1) : Int) := by
    have : (2 ^ (w - 1) : Int) = ((2 ^ (w - 1) : Nat) : Int) := by simp
    rw [this, ← hgd]; exact Int.natCast_dvd_natCast.2 (Nat.pow_dvd_pow 2 (by omega))
  have hwW : ((2 ^ w : Nat) : Int) ∣ (W : Int) := Int.natCast_dvd_natCast.2 (Nat.pow_dvd_pow 2 hw)
  have hr1 : n % (g : Int) < g := Int.emod_lt_of_pos _ (by omega)
  have hr0 : 0 ≤ n % (g : Int) := Int.emod_nonneg _ (by omega)
  have hdvd : (g : Int) ∣ n - n % g := Int.dvd_self_sub_emod
  have hbest : ∀ m : Int, (g : Int) ∣ m → m ≤ n → m ≤ n - n % g := by
    intro m hm hle
    have h3 : m / g ≤ n / g := Int.ediv_le_ediv (by omega) hle
    have h4 : (g : Int) * (m / g) = m := Int.mul_ediv_cancel' hm
    have h5 : (g : Int) * (n / g) = n - n % g := by have := Int.mul_ediv_add_emod n g; omega
    rw [← h4, ← h5]
    exact Int.mul_le_mul_of_nonneg_left h3 (by omega)
  refine ⟨n - n % g, ?_, hdvd, by omega, hbest⟩
  unfold alignDownS alignDown
  rw [if_neg (by omega)]
  simp only [Option.some.injEq]
  apply toS_of_mod (by omega)
  · apply hbest
    · exact Int.dvd_neg.2 hgh
    · exact h1
  · omega
  · have e1 : ((toU n - toU n % g : Nat) : Int) = n % W - n % g := by
      rw [Int.natCast_sub (Nat.mod_le _ _), Int.natCast_emod, toU_eq, Int.emod_emod_of_dvd n hgw]
    rw [Int.natCast_emod, e1, Int.sub_emod, Int.emod_emod_of_dvd n hwW, ← Int.sub_emod]

example : alignDownS 32 (-5) 8 = some (-8) := by decide +kernel

/-- **C45 fails** for a negative argument and a grain that is not a power of two: `AlignDown (-5, 3)` is -7, which is
not a multiple of 3. -/
theorem alignDown_signed_violated : alignDownS 32 (-5) 3 = some (-7) ∧ ¬ (3 : Int) ∣ -7 := by decide +kernel

/-! ## DivRU -/

/-- **C45** `DivRU (n1, n2)` of signed, nonnegative arguments is the quotient rounded up, if `n1 + n2 - 1` fits. -/
theorem divRU_nonneg (w : Nat) (n1 n2 : Int) (h1 : 0 ≤ n1) (h2 : 0 < n2) (hfit : n1 + n2 - 1 < 2 ^ (w - 1)) :
    ∃ q, divRU w n1 n2 = some q ∧ n1 ≤ q * n2 ∧ ∀ p, n1 ≤ p * n2 → q ≤ p := by
  have hpos : (0 : Int) < 2 ^ (w - 1) := Int.pow_pos (by decide)
  have hq0 : 0 ≤ (n1 + (n2 - 1)) / n2 := Int.ediv_nonneg (by omega) (by omega)
  have hqle : (n1 + (n2 - 1)) / n2 ≤ n1 + (n2 - 1) := Int.ediv_le_self _ (by omega)
  have e1 : inRange w (n2 - 1) = some (n2 - 1) := by unfold inRange; rw [if_pos (by omega)]
  have e2 : inRange w (n1 + (n2 - 1)) = some (n1 + (n2 - 1)) := by unfold inRange; rw [if_pos (by omega)]
  have e3 : (n1 + (n2 - 1)).tdiv n2 = (n1 + (n2 - 1)) / n2 := Int.tdiv_eq_ediv_of_nonneg (by omega)
  have e4 : inRange w ((n1 + (n2 - 1)) / n2) = some ((n1 + (n2 - 1)) / n2) := by unfold inRange; rw [if_pos (by omega)]
  refine ⟨(n1 + (n2 - 1)) / n2, ?_, ?_, ?_⟩
  · unfold divRU
    rw [e1]
    simp only
    rw [if_neg (by omega), e2]
    simp only
    rw [if_neg (by omega), e3, e4]
  · have h3 := Int.mul_ediv_add_emod (n1 + (n2 - 1)) n2
    have h4 := Int.emod_lt_of_pos (n1 + (n2 - 1)) h2
    rw [Int.mul_comm] at h3
    omega
  · intro p hp
    have h5 : (n1 + (n2 - 1)) / n2 < p + 1 := by
      rw [Int.ediv_lt_iff_lt_mul h2, Int.add_mul]
      omega
    omega

example : divRU 32 7 3 = some 3 ∧ (7 : Int) + 3 - 1 < 2 ^ (32 - 1) := by decide +kernel

/-- **C45** `DivRU` of a negative `n1` rounds away from zero: minus the rounded-up quotient of the absolute value. -/
theorem divRU_neg (w : Nat) (n1 n2 : Int) (h1 : n1 < 0) (h2 : 0 < n2) (h3 : n2 ≤ 2 ^ (w - 1))
    (hfit : -2 ^ (w - 1) ≤ n1 - n2 + 1) :
    ∃ q, divRU w n1 n2 = some q ∧ q * n2 ≤ n1 ∧ ∀ p, p * n2 ≤ n1 → p ≤ q := by
  have hpos : (0 : Int) < 2 ^ (w - 1) := Int.pow_pos (by decide)
  have hq0 : 0 ≤ (-n1 + (n2 - 1)) / n2 := Int.ediv_nonneg (by omega) (by omega)
  have hqle : (-n1 + (n2 - 1)) / n2 ≤ -n1 + (n2 - 1) := Int.ediv_le_self _ (by omega)
  have e1 : inRange w (n2 - 1) = some (n2 - 1) := by unfold inRange; rw [if_pos (by omega)]
  have e2 : inRange w (n1 + -(n2 - 1)) = some (-(-n1 + (n2 - 1))) := by
    unfold inRange; rw [if_pos (by omega)]; congr 1; omega
  have e3 : (-(-n1 + (n2 - 1))).tdiv n2 = -((-n1 + (n2 - 1)) / n2) := by
    rw [Int.neg_tdiv, Int.tdiv_eq_ediv_of_nonneg (by omega)]
  have e4 : inRange w (-((-n1 + (n2 - 1)) / n2)) = some (-((-n1 + (n2 - 1)) / n2)) := by
    unfold inRange; rw [if_pos (by omega)]
  refine ⟨-((-n1 + (n2 - 1)) / n2), ?_, ?_, ?_⟩
  · unfold divRU
    rw [e1]
    simp only
    rw [if_pos h1, e2]
    simp only
    rw [if_neg (by omega), e3, e4]
  · have h3 := Int.mul_ediv_add_emod (-n1 + (n2 - 1)) n2
    have h4 := Int.emod_lt_of_pos (-n1 + (n2 - 1)) h2
    rw [Int.mul_comm] at h3
    rw [Int.neg_mul]
    omega
  · intro p hp
    have h5 : (-n1 + (n2 - 1)) / n2 < -p + 1 := by
      rw [Int.ediv_lt_iff_lt_mul h2, Int.add_mul, Int.neg_mul]
      omega
    omega

example : divRU 32 (-7) 3 = some (-3) := by decide +kernel

/-- **C45** `DivRU` of unsigned arguments is the quotient rounded up, if `n1 + n2 - 1` fits. -/
theorem divRU_unsigned (w n1 n2 : Nat) (h2 : 0 < n2) (hfit : n1 + n2 - 1 < 2 ^ w) :
    ∃ q, divRUu w n1 n2 = some q ∧ n1 ≤ q * n2 ∧ ∀ p, n1 ≤ p * n2 → q ≤ p := by
  have hp : 0 < 2 ^ w := Nat.pow_pos (by decide)
  have e1 : (n2 + (2 ^ w - 1)) % 2 ^ w = n2 - 1 := by
    have : n2 + (2 ^ w - 1) = (n2 - 1) + 2 ^ w := by omega
    rw [this, Nat.add_mod_right, Nat.mod_eq_of_lt (by omega)]
  refine ⟨(n1 + (n2 - 1)) / n2, ?_, ?_, ?_⟩
  · unfold divRUu
    rw [if_neg (by omega), e1, Nat.mod_eq_of_lt (by omega)]
  · have h3 := Nat.div_add_mod (n1 + (n2 - 1)) n2
    have h4 := Nat.mod_lt (n1 + (n2 - 1)) h2
    rw [Nat.mul_comm] at h3
    omega
  · intro p hp
    have h5 : (n1 + (n2 - 1)) / n2 < p + 1 := by
      rw [Nat.div_lt_iff_lt_mul h2, Nat.add_mul]
      omega
    omega

example : divRUu 32 7 3 = some 3 := by decide +kernel

/-- **C45 fails** for `DivRU` of a negative number as "rounds up" (the ceiling of -5/3 is -1), of a negative divisor
(the ceiling of 6 divided by -3 is -2), and for unsigned arguments whose sum wraps. -/
theorem divRU_violated : divRU 32 (-5) 3 = some (-2) ∧ (-5 : Int) ≤ -1 * 3 ∧ divRU 32 6 (-3) = some 0 ∧
    divRUu 32 (2 ^ 32 - 1) 2 = some 0 := by
  decide +kernel

/-! ## FirstBit and NextPow2 -/

/-- **C45** `FirstBit (v, nbv)` is the index of the highest set bit, or `nbv` if there is none. -/
theorem firstBit_spec (v nbv : Nat) :
    (v = 0 → firstBit v nbv = nbv) ∧ (v ≠ 0 → 2 ^ firstBit v nbv ≤ v ∧ v < 2 ^ (firstBit v nbv + 1)) := by
  unfold firstBit bsr
  refine ⟨fun h => by rw [if_pos h], fun h => ?_⟩
  rw [if_neg h]
  exact ⟨Nat.log2_self_le h, Nat.lt_log2_self⟩

example : firstBit 3827 75 = 11 ∧ firstBit 0 75 = 75 := by decide +kernel

theorem nextPow2_eq {v : Nat} (h1 : 2 ≤ v) (h2 : v ≤ 2 ^ 31) :
    nextPow2 v = some (2 ^ (1 + (v - 1).log2)) ∧ nextPow2c v = some (2 ^ (1 + (v - 1).log2)) := by
  have e : (v + (2 ^ 32 - 1)) % 2 ^ 32 = v - 1 := by omega
  have h3 : v - 1 ≠ 0 := by omega
  have hl : (v - 1).log2 < 31 := (Nat.log2_lt h3).2 (by omega)
  constructor
  · unfold nextPow2
    simp only
    rw [e]
    unfold bsr
    rw [if_neg h3]
    unfold shl1
    rw [if_pos (by omega)]
  · unfold nextPow2c
    simp only
    rw [e]
    unfold firstBit bsr
    rw [if_neg h3, if_neg (by omega)]
    unfold shl1
    rw [Nat.mod_eq_of_lt (by omega), if_pos (by omega)]

/-- **C45** `NextPow2 (v)` for `2 <= v <= 2^31` is the least power of two not below `v`. -/
theorem nextPow2_spec (v : Nat) (h1 : 2 ≤ v) (h2 : v ≤ 2 ^ 31) :
    ∃ k, nextPow2 v = some (2 ^ k) ∧ nextPow2c v = some (2 ^ k) ∧ v ≤ 2 ^ k ∧ ∀ j, v ≤ 2 ^ j → 2 ^ k ≤ 2 ^ j := by
  obtain ⟨e1, e2⟩ := nextPow2_eq h1 h2
  refine ⟨_, e1, e2, ?_, ?_⟩
  · have := @Nat.lt_log2_self (v - 1)
    rw [Nat.add_comm] at this
    omega
  · intro j hj
    apply Nat.pow_le_pow_right (by decide)
    have h3 := Nat.log2_self_le (show v - 1 ≠ 0 by omega)
    have h4 : 2 ^ (v - 1).log2 < 2 ^ j := by omega
    have := (Nat.pow_lt_pow_iff_right (by decide : 1 < 2)).1 h4
    omega

example : nextPow2 3827 = some 4096 := by decide +kernel

/-- **C45 fails** for `NextPow2 (1)`, which is 2 and not 1, and above 2^31 (and for 0), where the shift is by 32: a
constant argument gives 1, as documented, any other is undefined. -/
theorem nextPow2_violated : nextPow2 1 = some 2 ∧ nextPow2c 1 = some 2 ∧
    ∀ v, v = 0 ∨ 2 ^ 31 < v → v < 2 ^ 32 → nextPow2 v = none ∧ nextPow2c v = some 1 := by
  refine ⟨by decide +kernel, by decide +kernel, ?_⟩
  intro v h1 h2
  have hr : 2 ^ 31 ≤ (v + (2 ^ 32 - 1)) % 2 ^ 32 ∧ (v + (2 ^ 32 - 1)) % 2 ^ 32 < 2 ^ 32 := by omega
  unfold nextPow2 nextPow2c
  simp only
  generalize (v + (2 ^ 32 - 1)) % 2 ^ 32 = r at *
  have h3 : r ≠ 0 := by omega
  have h4 : r.log2 = 31 := by
    have a := (Nat.log2_lt h3).2 hr.2
    have b := (Nat.le_log2 h3).2 hr.1
    omega
  unfold firstBit bsr
  rw [if_neg h3, h4]
  decide +kernel

/-! ## gcd and lcm -/

/-- **C46** `gcd (a, b)` is the greatest common divisor (nonnegative), for all arguments but the least value of the
type. -/
theorem gcd_spec (w : Nat) (a b : Int) (ha : -2 ^ (w - 1) < a) (hb : -2 ^ (w - 1) < b) (ha' : a < 2 ^ (w - 1))
    (hb' : b < 2 ^ (w - 1)) : gcd w a b = some (Int.gcd a b : Int) := by
  have key : ∀ (n : Nat) (a b : Int), b.natAbs ≤ n → -2 ^ (w - 1) < a → -2 ^ (w - 1) < b → a < 2 ^ (w - 1) →
      b < 2 ^ (w - 1) → gcd w a b = some (Int.gcd a b : Int) := by
    intro n
    induction n with
    | zero =>
      intro a b hn ha hb ha' hb'
      have : b = 0 := by omega
      subst this
      unfold gcd absv inRange
      rw [dif_pos rfl, Int.gcd_zero_right]
      by_cases h : a < 0
      · rw [if_pos h, if_pos (by omega)]; congr 1; omega
      · rw [if_neg h]; congr 1; omega
    | succ n ih =>
      intro a b hn ha hb ha' hb'
      by_cases h : b = 0
      · subst h; exact ih a 0 (by simp) ha hb ha' hb'
      · have h1 : (a.tmod b).natAbs < b.natAbs := by rw [Int.natAbs_tmod]; exact Nat.mod_lt _ (by omega)
        rw [gcd, dif_neg h, if_neg (by omega), ih b (a.tmod b) (by omega) hb (by omega) hb' (by omega)]
        congr 2
        rw [Int.gcd_eq_natAbs_gcd_natAbs, Int.gcd_eq_natAbs_gcd_natAbs, Int.natAbs_tmod, Nat.gcd_comm, ← Nat.gcd_rec,
          Nat.gcd_comm]
  exact key _ a b (Nat.le_refl _) ha hb ha' hb'

example : gcd 32 (-12) 18 = some 6 := by
  rw [gcd_spec 32 (-12) 18 (by decide) (by decide) (by decide) (by decide)]; rfl

/-- **C46** `lcm (a, b)` of arguments not both zero is the least common multiple, with the sign of `a * b`, if it
fits. -/
theorem lcm_spec (w : Nat) (a b : Int) (ha : -2 ^ (w - 1) < a) (hb : -2 ^ (w - 1) < b) (ha' : a < 2 ^ (w - 1))
    (hb' : b < 2 ^ (w - 1)) (hz : a ≠ 0 ∨ b ≠ 0) (hfit : (Int.lcm a b : Int) < 2 ^ (w - 1)) :
    lcm w a b = some (Int.sign (a * b) * Int.lcm a b) := by
  have hg : (Int.gcd a b : Int) ≠ 0 := by
    intro h
    have h2 := Int.gcd_eq_zero_iff.1 (Int.natCast_eq_zero.1 h)
    omega
  have hval : a.tdiv (Int.gcd a b) * b = Int.sign (a * b) * Int.lcm a b := by
    rw [Int.tdiv_eq_ediv_of_dvd (Int.gcd_dvd_left ..)]
    have h1 : (Int.gcd a b : Int) * (a / Int.gcd a b * b) = a * b := by
      rw [← Int.mul_assoc, Int.mul_ediv_cancel' (Int.gcd_dvd_left ..)]
    have h2 : (Int.gcd a b : Int) * (Int.sign (a * b) * Int.lcm a b) = a * b := by
      have h3 : (Int.gcd a b : Int) * (Int.lcm a b : Int) = (a * b).natAbs := by
        rw [← Int.natCast_mul, Int.gcd_mul_lcm, Int.natAbs_mul]
      rw [← Int.mul_assoc, Int.mul_comm (Int.gcd a b : Int), Int.mul_assoc, h3, Int.sign_mul_natAbs]
    exact Int.eq_of_mul_eq_mul_left hg (h1.trans h2.symm)
  unfold lcm
  rw [gcd_spec w a b ha hb ha' hb']
  simp only
  rw [if_neg hg, hval]
  unfold inRange
  rw [if_pos]
  have hl0 : (0 : Int) ≤ Int.lcm a b := Int.natCast_nonneg _
  rcases Int.lt_trichotomy (a * b) 0 with h | h | h
  · rw [Int.sign_eq_neg_one_of_neg h]; omega
  · have hp : (0 : Int) < 2 ^ (w - 1) := Int.pow_pos (by decide)
    rw [h]; simp only [Int.sign_zero, Int.zero_mul]; omega
  · rw [Int.sign_eq_one_of_pos h]; omega

example : lcm 32 4 6 = some 12 := by
  rw [lcm_spec 32 4 6 (by decide) (by decide) (by decide) (by decide) (by decide) (by decide)]; rfl

/-- **C46 fails** for the least common multiple of numbers of opposite signs, which is negative, and of 0 and 0, a
division by zero. -/
theorem lcm_violated : lcm 32 (-4) 6 = some (-12) ∧ lcm 32 0 0 = none := by
  refine ⟨?_, ?_⟩
  · rw [lcm_spec 32 (-4) 6 (by decide) (by decide) (by decide) (by decide) (by decide) (by decide)]; rfl
  · unfold lcm
    rw [gcd_spec 32 0 0 (by decide) (by decide) (by decide) (by decide)]
    rfl

/-- **C46** `absv` is the absolute value (the least value has none), `sign` is -1, 0 or 1. -/
theorem absv_spec (w : Nat) (v : Int) (h1 : -2 ^ (w - 1) < v) (h2 : v < 2 ^ (w - 1)) :
    absv w v = some (v.natAbs : Int) ∧ sign v = Int.sign v := by
  unfold absv inRange sign
  constructor
  · by_cases h : v < 0
    · rw [if_pos h, if_pos (by omega)]; congr 1; omega
    · rw [if_neg h]; congr 1; omega
  · rcases Int.lt_trichotomy v 0 with h | h | h
    · rw [Int.sign_eq_neg_one_of_neg h, if_neg (by omega), if_pos h]; rfl
    · subst h; rfl
    · rw [Int.sign_eq_one_of_pos h, if_pos h, if_neg (by omega)]; rfl

example : absv 8 (-128) = none ∧ absv 8 (-127) = some 127 := by decide

end Ustl.Util
