import Mathlib.Tactic.FieldSimp
import Mathlib.Tactic.Ring
import Mathlib.Tactic.Linarith
import Mathlib.Data.Rat.Floor
import Verif.Util.Props
import Verif.Chrono.Model
/-! # Rationals and durations: theorems for C47 and C48 -/
namespace Ustl.Chrono
open Ustl.Util (inRange gcd absv sign toS toU)

/-- The rational number a `ratio` stands for. -/
def Ratio.val (r : Ratio) : ℚ := (r.num : ℚ) / (r.den : ℚ)

/-- Reduced, with a positive denominator. -/
def Ratio.Canon (r : Ratio) : Prop := 0 < r.den ∧ Int.gcd r.num r.den = 1

theorem inRange_some {w : Nat} {x y : Int} (h : inRange w x = some y) : y = x := by
  unfold inRange at h
  split at h
  · exact (Option.some.inj h).symm
  · exact absurd h (by simp)

theorem inRange_eq {x : Int} (h1 : -2 ^ 63 ≤ x) (h2 : x < 2 ^ 63) : inRange 64 x = some x := by
  unfold inRange
  rw [if_pos ⟨h1, h2⟩]

theorem absv_some {w : Nat} {x y : Int} (h : absv w x = some y) : y = x.natAbs := by
  unfold absv at h
  split at h
  · have := inRange_some h; omega
  · have := Option.some.inj h; omega

theorem gcd_some {w : Nat} : ∀ (n : Nat) (a b g : Int), b.natAbs ≤ n → gcd w a b = some g → g = Int.gcd a b := by
  intro n
  induction n with
  | zero =>
    intro a b g hn h
    have : b = 0 := by omega
    subst this
    unfold gcd at h
    rw [dif_pos rfl] at h
    rw [absv_some h, Int.gcd_zero_right]
  | succ n ih =>
    intro a b g hn h
    unfold gcd at h
    split at h
    · rename_i hb; subst hb; rw [absv_some h, Int.gcd_zero_right]
    · rename_i hb
      split at h
      · exact absurd h (by simp)
      · have hlt : (a.tmod b).natAbs < b.natAbs := by rw [Int.natAbs_tmod]; exact Nat.mod_lt _ (by omega)
        rw [ih b (a.tmod b) g (by omega) h]
        congr 1
        rw [Int.gcd_comm a b]
        unfold Int.gcd
        rw [Int.natAbs_tmod, Nat.gcd_comm, ← Nat.gcd_rec]

theorem gcd_some' {w : Nat} {a b g : Int} (h : gcd w a b = some g) : g = Int.gcd a b := gcd_some _ a b g (le_refl _) h

theorem sign_eq (d : Int) : sign d = Int.sign d := by
  unfold sign
  rcases Int.lt_trichotomy d 0 with h | h | h
  · rw [Int.sign_eq_neg_one_of_neg h, if_neg (by omega), if_pos h]; rfl
  · subst h; rfl
  · rw [Int.sign_eq_one_of_pos h, if_pos h, if_neg (by omega)]; rfl

/-- **C47** `ratio<n,d>`, if it compiles, is `n/d`, in lowest terms with a positive denominator. -/
theorem mkRatio_spec (n d : Int) (r : Ratio) (h : mkRatio n d = some r) : r.Canon ∧ r.val = (n : ℚ) / d := by
  unfold mkRatio at h
  split at h
  · exact absurd h (by simp)
  · rename_i hd
    split at h
    · rename_i g ns ad hg hns had
      have e := (Option.some.inj h).symm
      subst e
      have hg := gcd_some' hg
      have hns := inRange_some hns
      have had := absv_some had
      rw [sign_eq] at hns
      have hgpos : 0 < Int.gcd n d := Int.gcd_pos_of_ne_zero_right n hd
      have hgz : (Int.gcd n d : Int) ≠ 0 := by omega
      have hnd : (Int.gcd n d : Int) ∣ n * Int.sign d := Dvd.dvd.mul_right (Int.gcd_dvd_left ..) _
      have hdd : (Int.gcd n d : Int) ∣ (d.natAbs : Int) := Int.dvd_natAbs.2 (Int.gcd_dvd_right ..)
      subst hg hns had
      obtain ⟨p, hp⟩ := hnd
      obtain ⟨q, hq⟩ := hdd
      have e1 : (n * Int.sign d).tdiv (Int.gcd n d) = p := by rw [hp, Int.mul_tdiv_cancel_left _ hgz]
      have e2 : (d.natAbs : Int).tdiv (Int.gcd n d) = q := by rw [hq, Int.mul_tdiv_cancel_left _ hgz]
      have hgq : (0 : ℚ) ≠ (Int.gcd n d : Int) := by exact_mod_cast hgz.symm
      rw [e1, e2]
      refine ⟨⟨?_, ?_⟩, ?_⟩
      · have h1 : 0 < (d.natAbs : Int) := by omega
        rw [hq] at h1
        exact Int.pos_of_mul_pos_right h1 (by omega)
      · show Int.gcd p q = 1
        have h1 : Int.gcd (n * Int.sign d) (d.natAbs : Int) = Int.gcd n d := by
          unfold Int.gcd
          rw [Int.natAbs_mul, Int.natAbs_sign_of_ne_zero hd, Nat.mul_one, Int.natAbs_natCast]
        have h2 := h1
        rw [hp, hq, Int.gcd_mul_left, Int.natAbs_natCast] at h2
        exact Nat.eq_of_mul_eq_mul_left hgpos (by rw [h2, Nat.mul_one])
      · show (p : ℚ) / q = n / d
        have hdq : (d : ℚ) ≠ 0 := by exact_mod_cast hd
        have h3 : (q : ℚ) ≠ 0 := by
          intro hz
          have : q = 0 := by exact_mod_cast hz
          subst this
          omega
        rw [div_eq_div_iff h3 hdq]
        have h4 : p * d = n * q := by
          have h5 : (Int.gcd n d : Int) * (p * d) = (Int.gcd n d : Int) * (n * q) := by
            rw [← mul_assoc, ← hp, mul_left_comm, ← hq, mul_assoc, Int.sign_mul_self_eq_natAbs]
          exact Int.eq_of_mul_eq_mul_left hgz h5
        exact_mod_cast h4
    · exact absurd h (by simp)

/-- **C47** and `ratio<n,d>` compiles for all `n` and nonzero `d` above the least value. -/
theorem mkRatio_total (n d : Int) (hd : d ≠ 0) (h1 : -2 ^ 63 < n) (h2 : n < 2 ^ 63) (h3 : -2 ^ 63 < d) (h4 : d < 2 ^ 63) :
    (mkRatio n d).isSome := by
  have hg := Ustl.Util.gcd_spec 64 n d h1 h3 h2 h4
  have ha := (Ustl.Util.absv_spec 64 d h3 h4).1
  have hi : inRange 64 (n * sign d) = some (n * sign d) := by
    rw [sign_eq]
    rcases Int.lt_trichotomy d 0 with h | h | h
    · rw [Int.sign_eq_neg_one_of_neg h]; exact inRange_eq (by omega) (by omega)
    · exact absurd h hd
    · rw [Int.sign_eq_one_of_pos h]; exact inRange_eq (by omega) (by omega)
  unfold mkRatio
  rw [if_neg hd, hg, ha, hi]
  rfl

example : mkRatio 6 (-4) = some ⟨-3, 2⟩ := by
  unfold mkRatio
  rw [Ustl.Util.gcd_spec 64 6 (-4) (by decide) (by decide) (by decide) (by decide)]
  decide +kernel

theorem Ratio.Canon.ne {r : Ratio} (h : r.Canon) : (r.den : ℚ) ≠ 0 := by
  have := h.1
  exact_mod_cast (by omega : r.den ≠ 0)

/-- **C47** a value has only one reduced form, so comparing the parts compares the values. -/
theorem Ratio.Canon.ext {a b : Ratio} (ha : a.Canon) (hb : b.Canon) (h : a.val = b.val) : a = b := by
  unfold Ratio.val at h
  rw [div_eq_div_iff ha.ne hb.ne] at h
  have h2 : a.num * b.den = b.num * a.den := by exact_mod_cast h
  have h3 : a.den ∣ b.den := by
    have : a.den ∣ a.num * b.den := ⟨b.num, by rw [h2, mul_comm]⟩
    exact Int.dvd_of_dvd_mul_right_of_gcd_one this (by rw [Int.gcd_comm]; exact ha.2)
  have h4 : b.den ∣ a.den := by
    have : b.den ∣ b.num * a.den := ⟨a.num, by rw [← h2, mul_comm]⟩
    exact Int.dvd_of_dvd_mul_right_of_gcd_one this (by rw [Int.gcd_comm]; exact hb.2)
  have h5 : a.den = b.den := Int.dvd_antisymm (le_of_lt ha.1) (le_of_lt hb.1) h3 h4
  have h6 : a.num = b.num := by
    rw [h5] at h2
    exact Int.eq_of_mul_eq_mul_right (by have := hb.1; omega) h2
  cases a; cases b
  simp_all

theorem gcd_pos_dvd {a b g : Int} (hg : gcd 64 a b = some g) (h : a ≠ 0 ∨ b ≠ 0) :
    0 < g ∧ g ∣ a ∧ g ∣ b := by
  have e := gcd_some' hg
  subst e
  refine ⟨?_, Int.gcd_dvd_left .., Int.gcd_dvd_right ..⟩
  rcases h with h | h
  · exact_mod_cast Int.gcd_pos_of_ne_zero_left b h
  · exact_mod_cast Int.gcd_pos_of_ne_zero_right a h

/-- **C47** `ratio_add` is the sum of rationals, reduced. -/
theorem ratioAdd_spec (a b r : Ratio) (ha : a.Canon) (hb : b.Canon) (h : ratioAdd a b = some r) :
    r.Canon ∧ r.val = a.val + b.val := by
  unfold ratioAdd at h
  split at h
  · exact absurd h (by simp)
  · rename_i g hg
    have hne : a.den ≠ 0 := by have := ha.1; omega
    have hne' : b.den ≠ 0 := by have := hb.1; omega
    obtain ⟨hgp, ⟨p, hp⟩, ⟨q, hq⟩⟩ := gcd_pos_dvd hg (Or.inl hne)
    split at h
    · rename_i n1 n2 nd h1 h2 h3
      split at h
      · exact absurd h (by simp)
      · rename_i nn h4
        have h1 := inRange_some h1
        have h2 := inRange_some h2
        have h3 := inRange_some h3
        have h4 := inRange_some h4
        have hgz : g ≠ 0 := by omega
        have e1 : a.den.tdiv g = p := by rw [hp, Int.mul_tdiv_cancel_left _ hgz]
        have e2 : b.den.tdiv g = q := by rw [hq, Int.mul_tdiv_cancel_left _ hgz]
        rw [e2] at h1
        rw [e1] at h2 h3
        have hm := mkRatio_spec _ _ _ h
        refine ⟨hm.1, ?_⟩
        rw [hm.2, h4, h1, h2, h3]
        have hpz : p ≠ 0 := by rintro rfl; simp at hp; exact hne hp
        have hqz : q ≠ 0 := by rintro rfl; simp at hq; exact hne' hq
        have : (p : ℚ) ≠ 0 := by exact_mod_cast hpz
        have : (q : ℚ) ≠ 0 := by exact_mod_cast hqz
        have : (g : ℚ) ≠ 0 := by exact_mod_cast hgz
        unfold Ratio.val
        rw [hp, hq]
        push_cast
        field_simp
    · exact absurd h (by simp)

/-- **C47** `ratio_multiply` is the product of rationals, reduced. -/
theorem ratioMul_spec (a b r : Ratio) (ha : a.Canon) (hb : b.Canon) (h : ratioMul a b = some r) :
    r.Canon ∧ r.val = a.val * b.val := by
  unfold ratioMul at h
  have hne : a.den ≠ 0 := by have := ha.1; omega
  have hne' : b.den ≠ 0 := by have := hb.1; omega
  split at h
  · rename_i g1 g2 hg1 hg2
    obtain ⟨hp1, ⟨p1, e1⟩, ⟨q1, e2⟩⟩ := gcd_pos_dvd hg1 (Or.inr hne')
    obtain ⟨hp2, ⟨p2, e3⟩, ⟨q2, e4⟩⟩ := gcd_pos_dvd hg2 (Or.inr hne)
    have z1 : g1 ≠ 0 := by omega
    have z2 : g2 ≠ 0 := by omega
    split at h
    · rename_i nn nd h1 h2
      have h1 := inRange_some h1
      have h2 := inRange_some h2
      have f1 : a.num.tdiv g1 = p1 := by rw [e1, Int.mul_tdiv_cancel_left _ z1]
      have f2 : b.den.tdiv g1 = q1 := by rw [e2, Int.mul_tdiv_cancel_left _ z1]
      have f3 : b.num.tdiv g2 = p2 := by rw [e3, Int.mul_tdiv_cancel_left _ z2]
      have f4 : a.den.tdiv g2 = q2 := by rw [e4, Int.mul_tdiv_cancel_left _ z2]
      rw [f1, f3] at h1
      rw [f2, f4] at h2
      have hm := mkRatio_spec _ _ _ h
      refine ⟨hm.1, ?_⟩
      rw [hm.2, h1, h2]
      have hq1 : q1 ≠ 0 := by rintro rfl; simp at e2; exact hne' e2
      have hq2 : q2 ≠ 0 := by rintro rfl; simp at e4; exact hne e4
      have : (q1 : ℚ) ≠ 0 := by exact_mod_cast hq1
      have : (q2 : ℚ) ≠ 0 := by exact_mod_cast hq2
      have : (g1 : ℚ) ≠ 0 := by exact_mod_cast z1
      have : (g2 : ℚ) ≠ 0 := by exact_mod_cast z2
      unfold Ratio.val
      rw [e1, e2, e3, e4]
      push_cast
      field_simp
    · exact absurd h (by simp)
  · exact absurd h (by simp)

/-- **C47** `ratio_subtract` is the difference of rationals, reduced. -/
theorem ratioSub_spec (a b r : Ratio) (ha : a.Canon) (_hb : b.Canon) (h : ratioSub a b = some r) :
    r.Canon ∧ r.val = a.val - b.val := by
  unfold ratioSub at h
  split at h
  · exact absurd h (by simp)
  · rename_i n hn
    split at h
    · exact absurd h (by simp)
    · rename_i nb hnb
      have hn := inRange_some hn
      have h1 := mkRatio_spec _ _ _ hnb
      have h2 := ratioAdd_spec a nb r ha h1.1 h
      refine ⟨h2.1, ?_⟩
      rw [h2.2, h1.2, hn]
      unfold Ratio.val
      push_cast
      ring

/-- **C47** `ratio_divide` is the quotient of rationals, reduced; it does not compile for a zero divisor. -/
theorem ratioDiv_spec (a b r : Ratio) (ha : a.Canon) (_hb : b.Canon) (h : ratioDiv a b = some r) :
    r.Canon ∧ r.val = a.val / b.val ∧ b.num ≠ 0 := by
  unfold ratioDiv at h
  split at h
  · exact absurd h (by simp)
  · rename_i ib hib
    have h1 := mkRatio_spec _ _ _ hib
    have h2 := ratioMul_spec a ib r ha h1.1 h
    refine ⟨h2.1, ?_, ?_⟩
    · rw [h2.2, h1.2]
      unfold Ratio.val
      rw [div_eq_mul_inv (a.num / a.den : ℚ) (b.num / b.den), inv_div]
    · rintro hz
      unfold mkRatio at hib
      rw [if_pos hz] at hib
      exact absurd hib (by simp)

theorem val_sign {r : Ratio} (h : r.Canon) : (r.num < 0 ↔ r.val < 0) ∧ (r.num ≤ 0 ↔ r.val ≤ 0) := by
  have hd : (0 : ℚ) < r.den := by exact_mod_cast h.1
  unfold Ratio.val
  constructor
  · rw [div_lt_iff₀ hd, zero_mul]; norm_cast
  · rw [div_le_iff₀ hd, zero_mul]; norm_cast

/-- **C47** the comparisons of ratios are the comparisons of the rationals. -/
theorem ratio_compare (a b : Ratio) (ha : a.Canon) (hb : b.Canon) :
    (ratioEq a b = true ↔ a.val = b.val) ∧ (ratioNe a b = true ↔ a.val ≠ b.val) ∧
    (∀ v, ratioLt a b = some v → (v = true ↔ a.val < b.val)) ∧ (∀ v, ratioLe a b = some v → (v = true ↔ a.val ≤ b.val)) ∧
    (∀ v, ratioGt a b = some v → (v = true ↔ a.val > b.val)) ∧ (∀ v, ratioGe a b = some v → (v = true ↔ a.val ≥ b.val)) := by
  have heq : ratioEq a b = true ↔ a.val = b.val := by
    constructor
    · intro h
      unfold ratioEq at h
      rw [Bool.and_eq_true, beq_iff_eq, beq_iff_eq] at h
      unfold Ratio.val
      rw [h.1, h.2]
    · intro h
      rw [ha.ext hb h]
      simp [ratioEq]
  have hlt : ∀ v, ratioLt a b = some v → (v = true ↔ a.val < b.val) := by
    intro v h
    unfold ratioLt at h
    rw [Option.map_eq_some_iff] at h
    obtain ⟨r, hr, rfl⟩ := h
    have h1 := ratioSub_spec a b r ha hb hr
    rw [decide_eq_true_iff, (val_sign h1.1).1, h1.2, sub_neg]
  have hle : ∀ v, ratioLe a b = some v → (v = true ↔ a.val ≤ b.val) := by
    intro v h
    unfold ratioLe at h
    rw [Option.map_eq_some_iff] at h
    obtain ⟨r, hr, rfl⟩ := h
    have h1 := ratioSub_spec a b r ha hb hr
    rw [decide_eq_true_iff, (val_sign h1.1).2, h1.2, sub_nonpos]
  refine ⟨heq, ?_, hlt, hle, ?_, ?_⟩
  · unfold ratioNe
    rw [Bool.not_eq_true', ← Bool.not_eq_true, heq]
  · intro v h
    unfold ratioGt at h
    rw [Option.map_eq_some_iff] at h
    obtain ⟨u, hu, rfl⟩ := h
    rw [Bool.not_eq_true', ← Bool.not_eq_true, hle u hu]
    exact not_le
  · intro v h
    unfold ratioGe at h
    rw [Option.map_eq_some_iff] at h
    obtain ⟨u, hu, rfl⟩ := h
    rw [Bool.not_eq_true', ← Bool.not_eq_true, hlt u hu]
    exact not_lt

theorem tdiv_bound {x g : Int} (hg : 0 < g) {B : Int} (h1 : -B < x) (h2 : x < B) : -B < x.tdiv g ∧ x.tdiv g < B := by
  have h := Int.natAbs_tdiv_le_natAbs x g
  omega

theorem mul_bound {x y : Int} (h1 : -2 ^ 31 < x) (h2 : x < 2 ^ 31) (h3 : -2 ^ 31 < y) (h4 : y < 2 ^ 31) :
    -2 ^ 62 < x * y ∧ x * y < 2 ^ 62 := by
  constructor <;> nlinarith

/-- **C47** ratios whose parts have 31 bits can always be added, subtracted, multiplied, compared and (by a nonzero
one) divided. -/
theorem ratio_total (a b : Ratio) (ha : a.Canon) (hb : b.Canon) (a1 : -2 ^ 31 < a.num) (a2 : a.num < 2 ^ 31)
    (a3 : a.den < 2 ^ 31) (b1 : -2 ^ 31 < b.num) (b2 : b.num < 2 ^ 31) (b3 : b.den < 2 ^ 31) :
    (ratioAdd a b).isSome ∧ (ratioSub a b).isSome ∧ (ratioMul a b).isSome ∧ (b.num ≠ 0 → (ratioDiv a b).isSome) := by
  have hadd : ∀ b : Ratio, b.Canon → -2 ^ 31 < b.num → b.num < 2 ^ 31 → b.den < 2 ^ 31 → (ratioAdd a b).isSome := by
    intro b hb b1 b2 b3
    have hA := ha.1
    have hB := hb.1
    have hg := Ustl.Util.gcd_spec 64 a.den b.den (by omega) (by omega) (by omega) (by omega)
    obtain ⟨gp, ⟨p, hp⟩, ⟨q, hq⟩⟩ := gcd_pos_dvd hg (Or.inl (by omega))
    have hgz : (Int.gcd a.den b.den : Int) ≠ 0 := by omega
    have e1 : a.den.tdiv (Int.gcd a.den b.den) = p := by
      conv => lhs; arg 1; rw [hp]
      rw [Int.mul_tdiv_cancel_left _ hgz]
    have e2 : b.den.tdiv (Int.gcd a.den b.den) = q := by
      conv => lhs; arg 1; rw [hq]
      rw [Int.mul_tdiv_cancel_left _ hgz]
    have c1 := tdiv_bound gp (by omega : -2 ^ 31 < a.den) a3
    have c2 := tdiv_bound gp (by omega : -2 ^ 31 < b.den) b3
    rw [e1] at c1
    rw [e2] at c2
    have m1 := mul_bound c2.1 c2.2 a1 a2
    have m2 := mul_bound c1.1 c1.2 b1 b2
    have m3 := mul_bound c1.1 c1.2 (by omega : -2 ^ 31 < b.den) b3
    unfold ratioAdd
    rw [hg]
    simp only [e1, e2]
    rw [inRange_eq (by omega) (by omega), inRange_eq (by omega) (by omega), inRange_eq (by omega) (by omega)]
    simp only
    rw [inRange_eq (by omega) (by omega)]
    simp only
    apply mkRatio_total _ _ _ (by omega) (by omega) (by omega) (by omega)
    have hpz : p ≠ 0 := by rintro rfl; simp at hp; omega
    exact mul_ne_zero hpz (by omega)
  have hmul : ∀ b : Ratio, b.Canon → -2 ^ 31 < b.num → b.num < 2 ^ 31 → b.den < 2 ^ 31 → (ratioMul a b).isSome := by
    intro b hb b1 b2 b3
    have hA := ha.1
    have hB := hb.1
    have hg := Ustl.Util.gcd_spec 64 a.num b.den (by omega) (by omega) (by omega) (by omega)
    have hg' := Ustl.Util.gcd_spec 64 b.num a.den (by omega) (by omega) (by omega) (by omega)
    obtain ⟨gp, -, ⟨q, hq⟩⟩ := gcd_pos_dvd hg (Or.inr (by omega))
    obtain ⟨gp', -, ⟨q', hq'⟩⟩ := gcd_pos_dvd hg' (Or.inr (by omega))
    have c1 := tdiv_bound gp a1 a2
    have c2 := tdiv_bound gp' b1 b2
    have c3 := tdiv_bound gp' (by omega : -2 ^ 31 < a.den) a3
    have c4 := tdiv_bound gp (by omega : -2 ^ 31 < b.den) b3
    have m1 := mul_bound c1.1 c1.2 c2.1 c2.2
    have m2 := mul_bound c3.1 c3.2 c4.1 c4.2
    unfold ratioMul
    rw [hg, hg']
    simp only
    rw [inRange_eq (by omega) (by omega), inRange_eq (by omega) (by omega)]
    simp only
    apply mkRatio_total _ _ _ (by omega) (by omega) (by omega) (by omega)
    apply mul_ne_zero
    · have e : a.den.tdiv (Int.gcd b.num a.den) = q' := by
        conv => lhs; arg 1; rw [hq']
        rw [Int.mul_tdiv_cancel_left _ (by omega)]
      rw [e]; rintro rfl; simp at hq'; omega
    · have e : b.den.tdiv (Int.gcd a.num b.den) = q := by
        conv => lhs; arg 1; rw [hq]
        rw [Int.mul_tdiv_cancel_left _ (by omega)]
      rw [e]; rintro rfl; simp at hq; omega
  have hcomm : ∀ (n d : Int) (r : Ratio), mkRatio n d = some r → -2 ^ 31 < n → n < 2 ^ 31 → -2 ^ 31 < d → d < 2 ^ 31 →
      -2 ^ 31 < r.num ∧ r.num < 2 ^ 31 ∧ r.den < 2 ^ 31 := by
    intro n d r h h1 h2 h3 h4
    unfold mkRatio at h
    split at h
    · exact absurd h (by simp)
    · rename_i hd
      split at h
      · rename_i g ns ad hg hns had
        have e := (Option.some.inj h).symm
        subst e
        have gp := (gcd_pos_dvd hg (Or.inr hd)).1
        have hns := inRange_some hns
        have had := absv_some had
        rw [sign_eq] at hns
        have hb : -2 ^ 31 < ns ∧ ns < 2 ^ 31 := by
          rcases Int.lt_trichotomy d 0 with h | h | h
          · rw [Int.sign_eq_neg_one_of_neg h] at hns; omega
          · exact absurd h hd
          · rw [Int.sign_eq_one_of_pos h] at hns; omega
        have t1 := tdiv_bound gp hb.1 hb.2
        have t2 := tdiv_bound (B := 2 ^ 31) (x := ad) gp (by omega) (by omega)
        exact ⟨t1.1, t1.2, t2.2⟩
      · exact absurd h (by simp)
  have hA := ha.1
  have hB := hb.1
  refine ⟨hadd b hb b1 b2 b3, ?_, hmul b hb b1 b2 b3, ?_⟩
  · unfold ratioSub
    rw [inRange_eq (by omega) (by omega)]
    simp only
    cases h : mkRatio (-b.num) b.den with
    | none =>
      have := mkRatio_total (-b.num) b.den (by omega) (by omega) (by omega) (by omega) (by omega)
      rw [h] at this
      exact absurd this (by simp)
    | some nb =>
      simp only
      have h2 := hcomm _ _ _ h (by omega) (by omega) (by omega) (by omega)
      exact hadd nb (mkRatio_spec _ _ _ h).1 h2.1 h2.2.1 h2.2.2
  · intro hz
    unfold ratioDiv
    cases h : mkRatio b.den b.num with
    | none =>
      have := mkRatio_total b.den b.num hz (by omega) (by omega) (by omega) (by omega)
      rw [h] at this
      exact absurd this (by simp)
    | some nb =>
      simp only
      have h2 := hcomm _ _ _ h (by omega) (by omega) (by omega) (by omega)
      exact hmul nb (mkRatio_spec _ _ _ h).1 h2.1 h2.2.1 h2.2.2

example : (Ratio.mk (-1) 6).Canon ∧ (Ratio.mk 3 4).Canon ∧ (Ratio.mk (-1) 6).val + (Ratio.mk 3 4).val = 7 / 12 := by
  refine ⟨⟨by decide, by decide⟩, ⟨by decide, by decide⟩, ?_⟩
  norm_num [Ratio.val]

end Ustl.Chrono
