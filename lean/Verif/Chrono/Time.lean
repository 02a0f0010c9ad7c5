import Verif.Chrono.Props
/-! # hrtime_t and duration: theorems for C48 -/
namespace Ustl.Chrono
open Ustl.Util (inRange gcd absv sign toS toU)

/-- The time in nanoseconds. -/
def HrTime.total (t : HrTime) : Int := t.sec * 1000000000 + t.nsec

/-- Normalised: the nanoseconds are a fraction of a second. -/
def HrTime.Norm (t : HrTime) : Prop := 0 ≤ t.nsec ∧ t.nsec < 1000000000

/-- In range for the sums to be defined: within 2^62 seconds of the epoch. -/
def HrTime.Near (t : HrTime) : Prop := -2 ^ 62 < t.sec ∧ t.sec < 2 ^ 62

theorem fit_some {s n : Int} {r : HrTime} (h : HrTime.fit s n = some r) : r = ⟨s, n⟩ := by
  unfold HrTime.fit at h
  split at h
  · rename_i a b ha hb
    rw [← inRange_some ha, ← inRange_some hb]
    exact (Option.some.inj h).symm
  · exact absurd h (by simp)

theorem fit_eq {s n : Int} (h1 : -2 ^ 63 ≤ s) (h2 : s < 2 ^ 63) (h3 : -2 ^ 63 ≤ n) (h4 : n < 2 ^ 63) :
    HrTime.fit s n = some ⟨s, n⟩ := by
  unfold HrTime.fit
  rw [inRange_eq h1 h2, inRange_eq h3 h4]

/-- **C48** `a + b` is the sum of the times, normalised. -/
theorem add_spec (a b r : HrTime) (ha : a.Norm) (hb : b.Norm) (h : a.add b = some r) :
    r.Norm ∧ r.total = a.total + b.total := by
  unfold HrTime.Norm HrTime.total at *
  unfold HrTime.add nanoDen at h
  split at h
  · exact absurd h (by simp)
  · rename_i n hn
    have hn := inRange_some hn
    split at h
    · split at h
      · exact absurd h (by simp)
      · rename_i q hq
        have hq := fit_some hq
        have hr := fit_some h
        subst hr hq
        simp only
        omega
    · have hr := fit_some h
      subst hr
      simp only
      omega

/-- **C48** `a - b` is the difference of the times, normalised. -/
theorem sub_spec (a b r : HrTime) (ha : a.Norm) (hb : b.Norm) (h : a.sub b = some r) :
    r.Norm ∧ r.total = a.total - b.total := by
  unfold HrTime.Norm HrTime.total at *
  unfold HrTime.sub nanoDen at h
  split at h
  · exact absurd h (by simp)
  · rename_i n hn
    have hn := inRange_some hn
    split at h
    · split at h
      · exact absurd h (by simp)
      · rename_i q hq
        have hq := fit_some hq
        have hr := fit_some h
        subst hr hq
        simp only
        omega
    · have hr := fit_some h
      subst hr
      simp only
      omega

/-- **C48** `--a` is the time one nanosecond earlier, normalised. -/
theorem dec_spec (a r : HrTime) (ha : a.Norm) (h : a.dec = some r) : r.Norm ∧ r.total = a.total - 1 := by
  unfold HrTime.Norm HrTime.total at *
  unfold HrTime.dec nanoDen at h
  split at h
  · have hr := fit_some h
    subst hr
    simp only
    omega
  · have hr := fit_some h
    subst hr
    simp only
    omega

/-- **C48** sums, differences and decrements within 2^62 seconds are defined. -/
theorem add_sub_total (a b : HrTime) (ha : a.Norm) (hb : b.Norm) (ha' : a.Near) (hb' : b.Near) :
    (a.add b).isSome ∧ (a.sub b).isSome ∧ a.dec.isSome ∧ a.inc.isSome := by
  unfold HrTime.Norm HrTime.Near at *
  refine ⟨?_, ?_, ?_, ?_⟩
  · unfold HrTime.add nanoDen
    rw [inRange_eq (by omega) (by omega)]
    simp only
    split
    · rw [fit_eq (by omega) (by omega) (by omega) (by omega)]
      simp only
      rw [fit_eq (by omega) (by omega) (by omega) (by omega)]
      rfl
    · rw [fit_eq (by omega) (by omega) (by omega) (by omega)]
      rfl
  · unfold HrTime.sub nanoDen
    rw [inRange_eq (by omega) (by omega)]
    simp only
    split
    · rw [fit_eq (by omega) (by omega) (by omega) (by omega)]
      simp only
      rw [fit_eq (by omega) (by omega) (by omega) (by omega)]
      rfl
    · rw [fit_eq (by omega) (by omega) (by omega) (by omega)]
      rfl
  · unfold HrTime.dec nanoDen
    split
    · rw [fit_eq (by omega) (by omega) (by omega) (by omega)]; rfl
    · rw [fit_eq (by omega) (by omega) (by omega) (by omega)]; rfl
  · unfold HrTime.inc nanoDen
    rw [inRange_eq (by omega) (by omega)]
    simp only
    split
    · rw [fit_eq (by omega) (by omega) (by omega) (by omega)]; rfl
    · rfl

example : (HrTime.mk 5 999999999).Norm ∧ (HrTime.mk 5 999999999).add ⟨-3, 2⟩ = some ⟨3, 1⟩ ∧
    (HrTime.mk 5 1).sub ⟨3, 2⟩ = some ⟨1, 999999999⟩ ∧ (HrTime.mk 5 0).dec = some ⟨4, 999999999⟩ := by
  refine ⟨⟨by decide, by decide⟩, by decide +kernel, by decide +kernel, by decide +kernel⟩

/-- **C48** `++a` is the time one nanosecond later; it is normalised unless `a` is the last nanosecond of a second. -/
theorem inc_spec_partial (a r : HrTime) (ha : a.Norm) (h : a.inc = some r) :
    r.total = a.total + 1 ∧ (a.nsec ≠ 999999999 → r.Norm) := by
  unfold HrTime.Norm HrTime.total at *
  unfold HrTime.inc nanoDen at h
  split at h
  · exact absurd h (by simp)
  · rename_i n hn
    have hn := inRange_some hn
    split at h
    · have hr := fit_some h
      subst hr
      simp only
      omega
    · have hr := (Option.some.inj h).symm
      subst hr
      simp only
      omega

/-- **C48** counting with `++`: from any normalised time, however many steps are taken, each counts one nanosecond, also across
the ends of seconds, and the nanoseconds never exceed 10^9. -/
theorem inc_many_partial (a : HrTime) (ha : a.Norm) : ∀ (n : Nat) (r : HrTime),
    Nat.rec (some a) (fun _ t => t.bind HrTime.inc) n = some r → r.total = a.total + n ∧ 0 ≤ r.nsec ∧ r.nsec ≤ 1000000000 := by
  intro n
  induction n with
  | zero =>
    intro r h
    have := Option.some.inj h
    subst this
    unfold HrTime.Norm at ha
    refine ⟨by simp, by omega, by omega⟩
  | succ n ih =>
    intro r h
    have h : (Nat.rec (motive := fun _ => Option HrTime) (some a) (fun _ t => t.bind HrTime.inc) n).bind HrTime.inc = some r := h
    obtain ⟨t, ht, hr⟩ := Option.bind_eq_some_iff.1 h
    obtain ⟨h1, h2, h3⟩ := ih t ht
    unfold HrTime.total at *
    unfold HrTime.inc nanoDen at hr
    split at hr
    · exact absurd hr (by simp)
    · rename_i n hn
      have hn := inRange_some hn
      split at hr
      · have hr := fit_some hr
        subst hr
        simp only
        omega
      · have hr := (Option.some.inj hr).symm
        subst hr
        simp only
        omega

example : Nat.rec (motive := fun _ => Option HrTime) (some ⟨7, 999999998⟩) (fun _ t => t.bind HrTime.inc) 4 = some ⟨8, 2⟩ := by
  decide +kernel

/-- **C48 fails** for `++` at the end of every second: it gives 10^9 nanoseconds, which is not normalised and does not
equal the beginning of the next second. -/
theorem inc_violated (s : Int) : (HrTime.mk s 999999999).Norm ∧ (HrTime.mk s 999999999).inc = some ⟨s, 1000000000⟩ ∧
    ¬ (HrTime.mk s 1000000000).Norm ∧ (HrTime.mk s 1000000000).eq ⟨s + 1, 0⟩ = false ∧
    (HrTime.mk s 1000000000).lt ⟨s + 1, 0⟩ = true := by
  refine ⟨⟨by simp, by simp⟩, by simp [HrTime.inc, inRange, nanoDen], fun h => absurd h.2 (by simp), ?_, ?_⟩
  · simp [HrTime.eq]
  · simp [HrTime.lt]

/-- **C48** `a * v` is the product; it is normalised if `v` is not negative. -/
theorem mul_spec_partial (a r : HrTime) (v : Int) (ha : a.Norm) (h : a.mul v = some r) :
    r.total = a.total * v ∧ (0 ≤ v → r.Norm) := by
  unfold HrTime.Norm HrTime.total at *
  unfold HrTime.mul nanoDen at h
  split at h
  · exact absurd h (by simp)
  · rename_i q hq
    have hq := fit_some hq
    subst hq
    simp only at h
    have hd := Int.mul_tdiv_add_tmod (a.nsec * v) 1000000000
    split at h
    · rename_i hge
      have hr := fit_some h
      subst hr
      simp only
      refine ⟨?_, fun _ => ?_⟩
      · rw [add_mul, add_mul]
        have : a.sec * v * 1000000000 = a.sec * 1000000000 * v := by ring
        omega
      · rw [Int.tmod_eq_emod_of_nonneg (by omega)]
        omega
    · have hr := (Option.some.inj h).symm
      subst hr
      simp only
      refine ⟨by ring, fun hv => ?_⟩
      have := Int.mul_nonneg ha.1 hv
      omega

/-- **C48 fails** for `*` by a negative number: minus half a second is `(0, -500000000)`. -/
theorem mul_violated : (HrTime.mk 0 500000000).Norm ∧ (HrTime.mk 0 500000000).mul (-1) = some ⟨0, -500000000⟩ ∧
    ¬ (HrTime.mk 0 (-500000000)).Norm := by
  refine ⟨⟨by decide, by decide⟩, by decide +kernel, fun h => absurd h.1 (by decide)⟩

example : (HrTime.mk 1 500000000).mul 3 = some ⟨4, 500000000⟩ := by decide +kernel

/-- **C48** unary minus negates the time; the result is normalised only for whole seconds. -/
theorem neg_spec_partial (a r : HrTime) (ha : a.Norm) (h : a.neg = some r) :
    r.total = -a.total ∧ (r.Norm ↔ a.nsec = 0) := by
  unfold HrTime.Norm HrTime.total at *
  unfold HrTime.neg at h
  have hr := fit_some h
  subst hr
  simp only
  omega

/-- **C48** `a / v` is the quotient, rounded down to nanoseconds, if `v` divides the seconds. -/
theorem div_spec_partial (a r : HrTime) (v : Int) (ha : a.Norm) (hv : 0 < v) (hd : v ∣ a.sec) (h : a.div v = some r) :
    r.Norm ∧ r.total = a.total / v := by
  obtain ⟨k, hk⟩ := hd
  unfold HrTime.Norm HrTime.total at *
  unfold HrTime.div at h
  rw [if_neg (by omega)] at h
  split at h
  · rename_i n k' s hn hk' hs
    have hn := inRange_some hn
    have hk' := inRange_some hk'
    have hs := inRange_some hs
    have hr := fit_some h
    subst hr
    have e1 : a.sec.tmod v = 0 := by rw [hk, Int.mul_tmod_right]
    have e2 : a.sec.tdiv v = k := by rw [hk, Int.mul_tdiv_cancel_left _ (by omega)]
    have e3 : a.nsec.tdiv v = a.nsec / v := Int.tdiv_eq_ediv_of_nonneg ha.1
    rw [e1, zero_mul] at hk'
    simp only
    have h1 : 0 ≤ a.nsec / v := Int.ediv_nonneg ha.1 (by omega)
    have h2 : a.nsec / v ≤ a.nsec := Int.ediv_le_self v ha.1
    have e4 : (a.sec * 1000000000 + a.nsec) / v = k * 1000000000 + a.nsec / v := by
      rw [hk, show v * k * 1000000000 = v * (k * 1000000000) by ring, Int.mul_add_ediv_left _ _ (by omega)]
    rw [e4]
    omega
  · exact absurd h (by simp)

example : (HrTime.mk 6 500000000).div 3 = some ⟨2, 166666666⟩ ∧ (3 : Int) ∣ 6 := by decide +kernel

/-- **C48 fails** for `/` whenever the seconds are not a multiple of the divisor: the remainder of the seconds is added
undivided. -/
theorem div_violated (a r : HrTime) (v : Int) (ha : a.Norm) (hs : 0 ≤ a.sec) (hv : 2 ≤ v) (hd : ¬ v ∣ a.sec)
    (h : a.div v = some r) : ¬ r.Norm ∧ r.total ≠ a.total / v := by
  unfold HrTime.Norm HrTime.total at *
  unfold HrTime.div nanoDen at h
  rw [if_neg (by omega)] at h
  split at h
  · rename_i n k' s hn hk' hs'
    have hn := inRange_some hn
    have hk' := inRange_some hk'
    have hs' := inRange_some hs'
    have hr := fit_some h
    subst hr
    simp only
    rw [Int.tdiv_eq_ediv_of_nonneg ha.1] at hn
    rw [Int.tdiv_eq_ediv_of_nonneg hs] at hs'
    rw [Int.tmod_eq_emod_of_nonneg hs] at hk'
    have h0 : a.sec % v ≠ 0 := fun h => hd (Int.dvd_of_emod_eq_zero h)
    have h1 : 0 ≤ a.sec % v := Int.emod_nonneg _ (by omega)
    have h3 : 0 ≤ a.nsec / v := Int.ediv_nonneg ha.1 (by omega)
    have e : a.sec = v * (a.sec / v) + a.sec % v := (Int.mul_ediv_add_emod _ _).symm
    generalize a.sec / v = q at *
    generalize a.sec % v = k at *
    refine ⟨by omega, ?_⟩
    have e2 : (a.sec * 1000000000 + a.nsec) / v = q * 1000000000 + (k * 1000000000 + a.nsec) / v := by
      rw [e, show (v * q + k) * 1000000000 + a.nsec = v * (q * 1000000000) + (k * 1000000000 + a.nsec) by ring,
        Int.mul_add_ediv_left _ _ (by omega)]
    rw [e2]
    intro hc
    have h4 : (k * 1000000000 + a.nsec) / v = a.nsec / v + k * 1000000000 := by omega
    have h5 : (k * 1000000000 + a.nsec) / v * v ≤ k * 1000000000 + a.nsec := Int.ediv_mul_le _ (by omega)
    have h6 : a.nsec < (a.nsec / v + 1) * v := Int.lt_ediv_add_one_mul_self _ (by omega)
    rw [h4] at h5
    have h7 := Int.mul_nonneg (show 0 ≤ k - 1 by omega) (show 0 ≤ v - 1 by omega)
    generalize a.nsec / v = p at *
    nlinarith
  · exact absurd h (by simp)

example : (HrTime.mk 1 0).div 2 = some ⟨0, 1000000000⟩ ∧ ¬ (2 : Int) ∣ 1 := by decide +kernel

/-- **C48** comparisons of normalised times compare the times. -/
theorem compare_spec (a b : HrTime) (ha : a.Norm) (hb : b.Norm) :
    (a.eq b = true ↔ a.total = b.total) ∧ (a.lt b = true ↔ a.total < b.total) := by
  unfold HrTime.Norm HrTime.total at *
  unfold HrTime.eq HrTime.lt
  simp only [Bool.and_eq_true, Bool.or_eq_true, beq_iff_eq, decide_eq_true_eq]
  omega

theorem tmod_nonpos {v : Int} (b : Int) (hb : b ≠ 0) (h : v ≤ 0) : v.tmod b ≤ 0 := by
  have e : v.tmod b = -((-v).tmod b) := by rw [Int.neg_tmod, neg_neg]
  rw [e, Int.tmod_eq_emod_of_nonneg (by omega)]
  have := Int.emod_nonneg (-v) hb
  omega

/-- **C48** conversion from nanoseconds and back gives back the number; the time is normalised if it is not negative. -/
theorem ofInt_spec (v : Int) (h1 : -2 ^ 63 ≤ v) (h2 : v < 2 ^ 63) :
    (HrTime.ofInt v).total = v ∧ (HrTime.ofInt v).toInt = some v ∧ (0 ≤ v → (HrTime.ofInt v).Norm) ∧
    (v < 0 → v % 1000000000 ≠ 0 → ¬ (HrTime.ofInt v).Norm) := by
  have hd := Int.mul_tdiv_add_tmod v 1000000000
  have e : (HrTime.ofInt v).total = v := by
    show v.tdiv 1000000000 * 1000000000 + v.tmod 1000000000 = v
    omega
  refine ⟨e, ?_, ?_, ?_⟩
  · show (match inRange 64 (v.tdiv 1000000000 * 1000000000) with
      | none => none
      | some s => inRange 64 (s + v.tmod 1000000000)) = some v
    have hb : -2 ^ 63 ≤ v.tdiv 1000000000 * 1000000000 ∧ v.tdiv 1000000000 * 1000000000 < 2 ^ 63 := by
      rcases Int.lt_or_le v 0 with h | h
      · have h3 := tmod_nonpos 1000000000 (by decide) (le_of_lt h)
        have h5 : v.tdiv 1000000000 = -((-v) / 1000000000) := by
          rw [← Int.tdiv_eq_ediv_of_nonneg (by omega), Int.neg_tdiv, neg_neg]
        omega
      · rw [Int.tdiv_eq_ediv_of_nonneg h]
        omega
    rw [inRange_eq hb.1 hb.2]
    simp only
    rw [show v.tdiv 1000000000 * 1000000000 + v.tmod 1000000000 = v by omega]
    exact inRange_eq h1 h2
  · intro h
    show 0 ≤ v.tmod 1000000000 ∧ v.tmod 1000000000 < 1000000000
    rw [Int.tmod_eq_emod_of_nonneg h]
    omega
  · intro h hz hn
    have h3 := tmod_nonpos 1000000000 (by decide) (le_of_lt h)
    have h4 : 0 ≤ v.tmod 1000000000 := hn.1
    have h5 : v.tmod 1000000000 = 0 := by omega
    omega

/-! ## duration_cast -/

/-- A rational rounded toward zero. -/
def truncQ (x : ℚ) : Int := if 0 ≤ x then ⌊x⌋ else ⌈x⌉

theorem floor_div (n d : Int) (hd : 0 < d) : ⌊(n : ℚ) / d⌋ = n / d := by
  obtain ⟨k, rfl⟩ := Int.eq_ofNat_of_zero_le (le_of_lt hd)
  exact_mod_cast Rat.floor_intCast_div_natCast n k

theorem truncQ_div (n d : Int) (hd : 0 < d) : truncQ ((n : ℚ) / d) = n.tdiv d := by
  have hd' : (0 : ℚ) < d := by exact_mod_cast hd
  unfold truncQ
  split
  · rename_i h
    rw [le_div_iff₀ hd', zero_mul] at h
    have h : 0 ≤ n := by exact_mod_cast h
    rw [floor_div n d hd, Int.tdiv_eq_ediv_of_nonneg h]
  · rename_i h
    rw [not_le, div_lt_iff₀ hd', zero_mul] at h
    have h : n < 0 := by exact_mod_cast h
    have e : ⌈(n : ℚ) / d⌉ = -⌊((-n : Int) : ℚ) / d⌋ := by
      rw [← Int.ceil_neg]; congr 1; push_cast; ring
    rw [e, floor_div _ d hd, ← Int.tdiv_eq_ediv_of_nonneg (by omega), Int.neg_tdiv, neg_neg]

theorem toS_toU (w : Nat) (hw : 1 ≤ w) (hw' : w ≤ 64) (x : Int) (h1 : -2 ^ (w - 1) ≤ x) (h2 : x < 2 ^ (w - 1)) :
    toS w (toU x) = x := by
  have hp : (2 : Int) ^ w = 2 * 2 ^ (w - 1) := by
    rw [← pow_succ']; congr 1; omega
  have hpos : (0 : Int) < 2 ^ (w - 1) := by positivity
  have hdvd : ((2 : Int) ^ w) ∣ ((Ustl.Util.W : Nat) : Int) := by
    rw [show ((Ustl.Util.W : Nat) : Int) = 2 ^ 64 by decide +kernel]
    exact pow_dvd_pow 2 hw'
  have e : ((toU x % 2 ^ w : Nat) : Int) = x % 2 ^ w := by
    rw [Int.natCast_emod, Ustl.Util.toU_eq]
    push_cast
    exact Int.emod_emod_of_dvd x hdvd
  unfold toS
  simp only
  generalize toU x % 2 ^ w = r at *
  have hr : (r < 2 ^ (w - 1)) ↔ (r : Int) < 2 ^ (w - 1) := by
    constructor
    · intro h; exact_mod_cast h
    · intro h; exact_mod_cast h
  rcases Int.lt_or_le x 0 with h | h
  · have e2 : x % 2 ^ w = x + 2 ^ w := by
      rw [← Int.add_emod_right, Int.emod_eq_of_lt (by omega) (by omega)]
    rw [if_neg (by rw [hr]; omega)]
    omega
  · have e2 : x % 2 ^ w = x := Int.emod_eq_of_lt (by omega) (by omega)
    rw [if_pos (by rw [hr]; omega)]
    omega

/-- **C48** `duration_cast` truncates the exact conversion toward zero, for a count that fits in the new type and a result
that does. -/
theorem durationCast_spec (w : Nat) (hw : 1 ≤ w) (hw' : w ≤ 64) (p q : Ratio) (hp : p.Canon) (hq : q.Canon) (c r : Int)
    (c1 : -2 ^ (w - 1) ≤ c) (c2 : c < 2 ^ (w - 1))
    (r1 : -2 ^ (w - 1) ≤ truncQ (c * p.val / q.val)) (r2 : truncQ (c * p.val / q.val) < 2 ^ (w - 1))
    (h : durationCast w p q c = some r) : r = truncQ (c * p.val / q.val) := by
  unfold durationCast at h
  split at h
  · exact absurd h (by simp)
  · rename_i k hk
    have hk := ratioDiv_spec p q k hp hq hk
    rw [toS_toU w hw hw' c c1 c2] at h
    split at h
    · exact absurd h (by simp)
    · rename_i x hx
      have hx := inRange_some hx
      have hd := hk.1.1
      rw [if_neg (by omega)] at h
      have e : truncQ (c * p.val / q.val) = x.tdiv k.den := by
        rw [mul_div_assoc, ← hk.2.1, hx, ← truncQ_div _ _ hd]
        unfold Ratio.val
        push_cast
        congr 1
        ring
      rw [e] at r1 r2 ⊢
      rw [toS_toU w hw hw' _ r1 r2] at h
      exact (Option.some.inj h).symm

/-- **C48** between 64-bit durations the result is right whenever the multiplication does not overflow, and it does not
for counts and periods of 31 bits. -/
theorem durationCast64 (p q : Ratio) (hp : p.Canon) (hq : q.Canon) (c r : Int) (c1 : -2 ^ 63 ≤ c) (c2 : c < 2 ^ 63)
    (h : durationCast 64 p q c = some r) : r = truncQ (c * p.val / q.val) := by
  unfold durationCast at h
  split at h
  · exact absurd h (by simp)
  · rename_i k hk
    have hk := ratioDiv_spec p q k hp hq hk
    rw [toS_toU 64 (by decide) (by decide) c c1 c2] at h
    split at h
    · exact absurd h (by simp)
    · rename_i x hx
      have hb : -2 ^ 63 ≤ x ∧ x < 2 ^ 63 := by
        have e := inRange_some hx
        unfold inRange at hx
        split at hx
        · rename_i hc; rw [e]; exact hc
        · exact absurd hx (by simp)
      have hx := inRange_some hx
      have hd := hk.1.1
      rw [if_neg (by omega)] at h
      have e : truncQ (c * p.val / q.val) = x.tdiv k.den := by
        rw [mul_div_assoc, ← hk.2.1, hx, ← truncQ_div _ _ hd]
        unfold Ratio.val
        push_cast
        congr 1
        ring
      have hbd : -2 ^ 63 ≤ x.tdiv k.den ∧ x.tdiv k.den < 2 ^ 63 := by
        rcases Int.lt_or_le x 0 with hx0 | hx0
        · have h1 := Int.natAbs_tdiv_le_natAbs x k.den
          have h5 : x.tdiv k.den = -((-x) / k.den) := by
            rw [← Int.tdiv_eq_ediv_of_nonneg (by omega), Int.neg_tdiv, neg_neg]
          have h6 : 0 ≤ (-x) / k.den := Int.ediv_nonneg (by omega) (by omega)
          omega
        · have h1 := Int.natAbs_tdiv_le_natAbs x k.den
          omega
      rw [toS_toU 64 (by decide) (by decide) _ hbd.1 hbd.2] at h
      rw [e]
      exact (Option.some.inj h).symm

theorem ratioDiv_one (a b : Int) (ha : 0 < a) (hb : 0 < b) (hg : Int.gcd a b = 1) (h1 : a < 2 ^ 31) (h2 : b < 2 ^ 31) :
    ratioDiv ⟨a, 1⟩ ⟨b, 1⟩ = some ⟨a, b⟩ := by
  have c1 : (Ratio.mk a 1).Canon := ⟨Int.one_pos, Int.gcd_one_right a⟩
  have c2 : (Ratio.mk b 1).Canon := ⟨Int.one_pos, Int.gcd_one_right b⟩
  have c3 : (Ratio.mk a b).Canon := ⟨hb, hg⟩
  have ht := (ratio_total ⟨a, 1⟩ ⟨b, 1⟩ c1 c2 (by simp only; omega) h1 (by simp) (by simp only; omega) h2 (by simp)).2.2.2
    (by simp only; omega)
  cases h : ratioDiv ⟨a, 1⟩ ⟨b, 1⟩ with
  | none => rw [h] at ht; exact absurd ht (by simp)
  | some r =>
    have hr := ratioDiv_spec _ _ r c1 c2 h
    congr 1
    apply hr.1.ext c3
    rw [hr.2.1]
    simp [Ratio.val]

example : durationCast 64 ⟨60, 1⟩ ⟨7, 1⟩ (-5) = some (-42) ∧ truncQ (-300 / 7) = -42 := by
  constructor
  · unfold durationCast
    rw [ratioDiv_one 60 7 (by decide) (by decide) (by decide) (by decide) (by decide)]
    decide +kernel
  · have := truncQ_div (-300) 7 (by decide)
    push_cast at this
    rw [this]

/-- **C48 fails** for a narrower type: the count is truncated before it is divided. 2^33 seconds are 2386092 hours, but
`duration_cast` to a 32-bit count of hours gives 0. -/
theorem durationCast_violated : durationCast 32 ⟨1, 1⟩ ⟨3600, 1⟩ (2 ^ 33) = some 0 ∧
    truncQ ((2 ^ 33 : Int) * (Ratio.mk 1 1).val / (Ratio.mk 3600 1).val) = 2386092 := by
  constructor
  · unfold durationCast
    rw [ratioDiv_one 1 3600 (by decide) (by decide) (by decide) (by decide) (by decide)]
    decide +kernel
  · have e : ((2 ^ 33 : Int) : ℚ) * (Ratio.mk 1 1).val / (Ratio.mk 3600 1).val = (2 ^ 33 : Int) / (3600 : Int) := by
      norm_num [Ratio.val]
    rw [e, truncQ_div _ _ (by decide)]
    decide

theorem nano_canon : nano.Canon := by constructor <;> decide +kernel

theorem nano_val : nano.val = 1 / 1000000000 := by norm_num [Ratio.val, nano, nanoDen]

/-- The exact conversion of a time to units of `q` seconds. -/
def exactIn (t : HrTime) (q : Ratio) : ℚ := (t.total : ℚ) * (1 / 1000000000) / q.val

theorem hrCast_split (q : Ratio) (hq : q.Canon) (t : HrTime) (r : Int) (h : hrCast nano q t = some r) :
    r = truncQ (t.sec / q.val) + truncQ (t.nsec / 1000000000 / q.val) ∧ q.num ≠ 0 := by
  unfold hrCast at h
  split at h
  · exact absurd h (by simp)
  · rename_i nc hnc
    have hnc := ratioDiv_spec nano q nc nano_canon hq hnc
    split at h
    · exact absurd h (by simp)
    · rename_i sc hsc
      have hsc := ratioDiv_spec nc nano sc hnc.1 nano_canon hsc
      split at h
      · rename_i x y hx hy
        have hx := inRange_some hx
        have hy := inRange_some hy
        have hd1 := hsc.1.1
        have hd2 := hnc.1.1
        rw [if_neg (by omega)] at h
        have hr := inRange_some h
        refine ⟨?_, hnc.2.2⟩
        have hqz : q.val ≠ 0 := by
          unfold Ratio.val
          exact div_ne_zero (by exact_mod_cast hnc.2.2) hq.ne
        have e1 : (t.sec : ℚ) / q.val = (x : ℚ) / (sc.den : ℚ) := by
          have h1 : sc.val = 1 / q.val := by
            rw [hsc.2.1, hnc.2.1, nano_val]; field_simp
          rw [hx, div_eq_mul_one_div (t.sec : ℚ) q.val, ← h1]
          unfold Ratio.val
          push_cast
          ring
        have e2 : (t.nsec : ℚ) / 1000000000 / q.val = (y : ℚ) / (nc.den : ℚ) := by
          have h1 : nc.val = 1 / 1000000000 / q.val := by rw [hnc.2.1, nano_val]
          have h2 : (t.nsec : ℚ) / 1000000000 / q.val = t.nsec * (1 / 1000000000 / q.val) := by ring
          rw [hy, h2, ← h1]
          unfold Ratio.val
          push_cast
          ring
        rw [e1, e2, truncQ_div _ _ hd1, truncQ_div _ _ hd2]
        exact hr
      · exact absurd h (by simp)

/-- **C48** `duration_cast` from `hrtime_t` of a normalised time after the epoch is exact, rounded down, for periods that
are a whole number of seconds or divide a second; for other periods it is that or one less. -/
theorem hrCast_spec_partial (q : Ratio) (hq : q.Canon) (hpos : 0 < q.num) (t : HrTime) (ht : t.Norm) (hs : 0 ≤ t.sec)
    (r : Int) (h : hrCast nano q t = some r) :
    (q.num = 1 ∨ q.den = 1 → r = truncQ (exactIn t q)) ∧
    r ≤ truncQ (exactIn t q) ∧ truncQ (exactIn t q) ≤ r + 1 := by
  have h := (hrCast_split q hq t r h).1
  have hqn : (0 : ℚ) < q.num := by exact_mod_cast hpos
  have hqd : (0 : ℚ) < q.den := by exact_mod_cast hq.1
  have hv : (0 : ℚ) < q.val := div_pos hqn hqd
  have h1 : (0 : ℚ) ≤ t.sec / q.val := div_nonneg (by exact_mod_cast hs) (le_of_lt hv)
  have h2 : (0 : ℚ) ≤ t.nsec / 1000000000 / q.val :=
    div_nonneg (div_nonneg (by exact_mod_cast ht.1) (by norm_num)) (le_of_lt hv)
  have e : exactIn t q = t.sec / q.val + t.nsec / 1000000000 / q.val := by
    unfold exactIn HrTime.total
    push_cast
    ring
  have h3 : truncQ (exactIn t q) = ⌊(t.sec : ℚ) / q.val + t.nsec / 1000000000 / q.val⌋ := by
    unfold truncQ
    rw [e, if_pos (add_nonneg h1 h2)]
  have h4 : r = ⌊(t.sec : ℚ) / q.val⌋ + ⌊(t.nsec : ℚ) / 1000000000 / q.val⌋ := by
    rw [h]; unfold truncQ; rw [if_pos h1, if_pos h2]
  refine ⟨?_, ?_, ?_⟩
  · intro hc
    rw [h3, h4]
    rcases hc with hc | hc
    · have e3 : (t.sec : ℚ) / q.val = ((t.sec * q.den : Int) : ℚ) := by
        unfold Ratio.val
        rw [hc]
        push_cast
        field_simp
      rw [e3, Int.floor_intCast, Int.floor_intCast_add]
    · have e3 : (t.sec : ℚ) / q.val = (t.sec : ℚ) / q.num := by
        unfold Ratio.val; rw [hc]; norm_num
      have e4 : (t.nsec : ℚ) / 1000000000 / q.val = (t.nsec : ℚ) / ((1000000000 * q.num : Int) : ℚ) := by
        unfold Ratio.val; rw [hc]; push_cast; field_simp
      have e5 : (t.sec : ℚ) / q.num + (t.nsec : ℚ) / ((1000000000 * q.num : Int) : ℚ) =
          ((t.sec * 1000000000 + t.nsec : Int) : ℚ) / ((1000000000 * q.num : Int) : ℚ) := by
        push_cast
        field_simp
      rw [e3, e4, e5, floor_div _ _ hpos, floor_div _ _ (by omega), floor_div _ _ (by omega)]
      have z : t.nsec / (1000000000 * q.num) = 0 := Int.ediv_eq_zero_of_lt ht.1 (by have := ht.2; omega)
      rw [z, ← Int.ediv_ediv_of_nonneg (by decide)]
      have : (t.sec * 1000000000 + t.nsec) / 1000000000 = t.sec := by have := ht.1; have := ht.2; omega
      rw [this, add_zero]
  · rw [h3, h4]; exact Int.le_floor_add _ _
  · rw [h3, h4]
    have := Int.le_floor_add_floor ((t.sec : ℚ) / q.val) ((t.nsec : ℚ) / 1000000000 / q.val)
    omega

theorem ratioDiv_val (a b c : Ratio) (ha : a.Canon) (hb : b.Canon) (hc : c.Canon) (a1 : -2 ^ 31 < a.num) (a2 : a.num < 2 ^ 31)
    (a3 : a.den < 2 ^ 31) (b1 : -2 ^ 31 < b.num) (b2 : b.num < 2 ^ 31) (b3 : b.den < 2 ^ 31) (hz : b.num ≠ 0)
    (hv : a.val / b.val = c.val) : ratioDiv a b = some c := by
  have ht := (ratio_total a b ha hb a1 a2 a3 b1 b2 b3).2.2.2 hz
  cases h : ratioDiv a b with
  | none => rw [h] at ht; exact absurd ht (by simp)
  | some r =>
    have hr := ratioDiv_spec _ _ r ha hb h
    congr 1
    apply hr.1.ext hc
    rw [hr.2.1, hv]

example : hrCast nano ⟨1, 1000⟩ ⟨5, 123456789⟩ = some 5123 ∧ (HrTime.mk 5 123456789).Norm := by
  refine ⟨?_, by decide, by decide⟩
  unfold hrCast
  rw [ratioDiv_val nano ⟨1, 1000⟩ ⟨1, 1000000⟩ nano_canon ⟨by decide, by decide⟩ ⟨by decide, by decide⟩ (by decide)
    (by decide) (by decide) (by decide) (by decide) (by decide) (by decide) (by rw [nano_val]; norm_num [Ratio.val])]
  simp only
  rw [ratioDiv_val ⟨1, 1000000⟩ nano ⟨1000, 1⟩ ⟨by decide, by decide⟩ nano_canon ⟨by decide, by decide⟩ (by decide)
    (by decide) (by decide) (by decide) (by decide) (by decide) (by decide) (by rw [nano_val]; norm_num [Ratio.val])]
  decide +kernel

/-- **C48 fails** for times before the epoch: half a second before it is 0 whole seconds, but the cast gives -1. And it
fails for a period of 3/2 seconds: 1.5 s is one such period, but the cast gives 0. -/
theorem hrCast_violated :
    (hrCast nano ⟨1, 1⟩ ⟨-1, 500000000⟩ = some (-1) ∧ truncQ (exactIn ⟨-1, 500000000⟩ ⟨1, 1⟩) = 0) ∧
    (hrCast nano ⟨3, 2⟩ ⟨1, 500000000⟩ = some 0 ∧ truncQ (exactIn ⟨1, 500000000⟩ ⟨3, 2⟩) = 1) := by
  refine ⟨⟨?_, ?_⟩, ?_, ?_⟩
  · unfold hrCast
    rw [ratioDiv_val nano ⟨1, 1⟩ ⟨1, 1000000000⟩ nano_canon ⟨by decide, by decide⟩ ⟨by decide, by decide⟩ (by decide)
      (by decide) (by decide) (by decide) (by decide) (by decide) (by decide) (by rw [nano_val]; norm_num [Ratio.val])]
    simp only
    rw [ratioDiv_val ⟨1, 1000000000⟩ nano ⟨1, 1⟩ ⟨by decide, by decide⟩ nano_canon ⟨by decide, by decide⟩ (by decide)
      (by decide) (by decide) (by decide) (by decide) (by decide) (by decide) (by rw [nano_val]; norm_num [Ratio.val])]
    decide +kernel
  · have e : exactIn ⟨-1, 500000000⟩ ⟨1, 1⟩ = ((-1 : Int) : ℚ) / (2 : Int) := by
      norm_num [exactIn, HrTime.total, Ratio.val]
    rw [e, truncQ_div _ _ (by decide)]; decide
  · unfold hrCast
    rw [ratioDiv_val nano ⟨3, 2⟩ ⟨1, 1500000000⟩ nano_canon ⟨by decide, by decide⟩ ⟨by decide, by decide⟩ (by decide)
      (by decide) (by decide) (by decide) (by decide) (by decide) (by decide) (by rw [nano_val]; norm_num [Ratio.val])]
    simp only
    rw [ratioDiv_val ⟨1, 1500000000⟩ nano ⟨2, 3⟩ ⟨by decide, by decide⟩ nano_canon ⟨by decide, by decide⟩ (by decide)
      (by decide) (by decide) (by decide) (by decide) (by decide) (by decide) (by rw [nano_val]; norm_num [Ratio.val])]
    decide +kernel
  · have e : exactIn ⟨1, 500000000⟩ ⟨3, 2⟩ = ((1 : Int) : ℚ) / (1 : Int) := by
      norm_num [exactIn, HrTime.total, Ratio.val]
    rw [e, truncQ_div _ _ (by decide)]; decide

end Ustl.Chrono
