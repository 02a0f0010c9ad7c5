import Verif.Chrono.ClockModel
import Verif.Chrono.Time
import Verif.Text.History
/-! # Durations, time points and clocks: theorems for C78 -/
namespace Ustl.Chrono
open Ustl.Util (inRange toS toU)
open Ustl.Stream (Byte)

theorem inRange_bounds {x y : Int} (h : inRange 64 x = some y) : y = x ∧ -2 ^ 63 ≤ y ∧ y < 2 ^ 63 := by
  have e := inRange_some h
  refine ⟨e, ?_⟩
  unfold inRange at h
  split at h
  · rename_i hc; rw [e]; exact hc
  · exact absurd h (by simp)

theorem inRange_some_iff (x y : Int) : inRange 64 x = some y ↔ y = x ∧ -2 ^ 63 ≤ x ∧ x < 2 ^ 63 := by
  constructor
  · intro h
    obtain ⟨e, h1, h2⟩ := inRange_bounds h
    exact ⟨e, by omega, by omega⟩
  · rintro ⟨rfl, h1, h2⟩
    exact inRange_eq h1 h2

/-! ## Specification: the length of time a duration stands for -/

/-- A representation counts: every good value stands for a whole number of periods. -/
class Counts (α : Type) where
  /-- the number of periods -/
  num : α → Int
  /-- a value of the representation -/
  ok : α → Prop

/-- `intmax_t` is its own number. -/
instance : Counts Int where
  num a := a
  ok a := -2 ^ 63 ≤ a ∧ a < 2 ^ 63

/-- `hrtime_t` counts nanoseconds. -/
instance : Counts HrTime where
  num t := t.total
  ok t := t.Norm

/-- The arithmetic of the representation is that of the numbers, wherever it is defined. -/
structure Rep.Right {α : Type} [Counts α] (R : Rep α) : Prop where
  add : ∀ a b r, Counts.ok a → Counts.ok b → R.add a b = some r → Counts.ok r ∧ Counts.num r = Counts.num a + Counts.num b
  sub : ∀ a b r, Counts.ok a → Counts.ok b → R.sub a b = some r → Counts.ok r ∧ Counts.num r = Counts.num a - Counts.num b
  eq : ∀ a b, Counts.ok a → Counts.ok b → (R.eq a b = true ↔ Counts.num a = Counts.num b)
  lt : ∀ a b, Counts.ok a → Counts.ok b → (R.lt a b = true ↔ Counts.num a < Counts.num b)
  inj : ∀ a b : α, Counts.ok a → Counts.ok b → Counts.num a = Counts.num b → a = b

theorem intRep_right : intRep.Right where
  add a b r _ _ h := by
    obtain ⟨e, h1, h2⟩ := inRange_bounds (show inRange 64 (a + b) = some r from h)
    exact ⟨⟨h1, h2⟩, e⟩
  sub a b r _ _ h := by
    obtain ⟨e, h1, h2⟩ := inRange_bounds (show inRange 64 (a - b) = some r from h)
    exact ⟨⟨h1, h2⟩, e⟩
  eq a b _ _ := by
    show (a == b) = true ↔ a = b
    simp
  lt a b _ _ := by
    show decide (a < b) = true ↔ a < b
    simp
  inj a b _ _ h := h

theorem hrRep_right : hrRep.Right where
  add a b r ha hb h := add_spec a b r ha hb h
  sub a b r ha hb h := sub_spec a b r ha hb h
  eq a b ha hb := (compare_spec a b ha hb).1
  lt a b ha hb := (compare_spec a b ha hb).2
  inj a b ha hb h := by
    have h : a.total = b.total := h
    have ha : a.Norm := ha
    have hb : b.Norm := hb
    cases a; cases b
    simp only [HrTime.Norm, HrTime.total, HrTime.mk.injEq] at *
    omega

/-! ## Durations of one type -/

/-- **C78** the operators of a duration of integer count are those of the integers: sum, difference, negation, product, the
quotient and remainder toward zero, steps of one (the result of the postfix form is the old value) and comparisons. Each is
defined exactly if its value is in the range of `intmax_t`. -/
theorem duration_arith (a b r : Int) :
    (Dur.add intRep ⟨a⟩ ⟨b⟩ = some ⟨r⟩ ↔ r = a + b ∧ Counts.ok r) ∧
    (Dur.sub intRep ⟨a⟩ ⟨b⟩ = some ⟨r⟩ ↔ r = a - b ∧ Counts.ok r) ∧
    (Dur.neg intRep ⟨a⟩ = some ⟨r⟩ ↔ r = -a ∧ Counts.ok r) ∧
    (Dur.mul ⟨a⟩ b = some ⟨r⟩ ↔ r = a * b ∧ Counts.ok r) ∧
    (∀ x y, Dur.preInc intRep ⟨a⟩ = some (x, y) ↔ x = ⟨a + 1⟩ ∧ y = ⟨a + 1⟩ ∧ Counts.ok (a + 1)) ∧
    (∀ x y, Dur.postInc intRep ⟨a⟩ = some (x, y) ↔ x = ⟨a⟩ ∧ y = ⟨a + 1⟩ ∧ Counts.ok (a + 1)) ∧
    (∀ x y, Dur.preDec intRep ⟨a⟩ = some (x, y) ↔ x = ⟨a - 1⟩ ∧ y = ⟨a - 1⟩ ∧ Counts.ok (a - 1)) ∧
    (∀ x y, Dur.postDec intRep ⟨a⟩ = some (x, y) ↔ x = ⟨a⟩ ∧ y = ⟨a - 1⟩ ∧ Counts.ok (a - 1)) ∧
    (Dur.eq intRep ⟨a⟩ ⟨b⟩ = true ↔ a = b) ∧ (Dur.lt intRep ⟨a⟩ ⟨b⟩ = true ↔ a < b) := by
  have key : ∀ x : Int, Counts.ok x ↔ -2 ^ 63 ≤ x ∧ x < 2 ^ 63 := fun x => Iff.rfl
  have k1 : ∀ x : Int, ((inRange 64 x).map Dur.mk = some (Dur.mk r) ↔ r = x ∧ Counts.ok r) := by
    intro x
    rw [Option.map_eq_some_iff]
    constructor
    · rintro ⟨y, h, e⟩
      rw [inRange_some_iff] at h
      cases e
      exact ⟨h.1, by rw [key, h.1]; exact h.2⟩
    · rintro ⟨rfl, h⟩
      exact ⟨r, (inRange_some_iff _ _).2 ⟨rfl, h⟩, rfl⟩
  have k2 : ∀ (z : Int) (f : Int → Dur Int × Dur Int) (x y : Dur Int),
      ((inRange 64 z).map f = some (x, y) ↔ (x, y) = f z ∧ Counts.ok z) := by
    intro z f x y
    rw [Option.map_eq_some_iff]
    constructor
    · rintro ⟨w, h, e⟩
      rw [inRange_some_iff] at h
      obtain ⟨rfl, h⟩ := h
      exact ⟨e.symm, h⟩
    · rintro ⟨e, h⟩
      exact ⟨z, (inRange_some_iff _ _).2 ⟨rfl, h⟩, e.symm⟩
  refine ⟨k1 _, k1 _, k1 _, k1 _, ?_, ?_, ?_, ?_, ?_, ?_⟩
  · intro x y
    rw [show Dur.preInc intRep ⟨a⟩ = (inRange 64 (a + 1)).map (fun c => ((⟨c⟩, ⟨c⟩) : Dur Int × Dur Int)) from rfl, k2, Prod.mk.injEq, and_assoc]
  · intro x y
    rw [show Dur.postInc intRep ⟨a⟩ = (inRange 64 (a + 1)).map (fun c => ((⟨a⟩, ⟨c⟩) : Dur Int × Dur Int)) from rfl, k2, Prod.mk.injEq, and_assoc]
  · intro x y
    rw [show Dur.preDec intRep ⟨a⟩ = (inRange 64 (a - 1)).map (fun c => ((⟨c⟩, ⟨c⟩) : Dur Int × Dur Int)) from rfl, k2, Prod.mk.injEq, and_assoc]
  · intro x y
    rw [show Dur.postDec intRep ⟨a⟩ = (inRange 64 (a - 1)).map (fun c => ((⟨a⟩, ⟨c⟩) : Dur Int × Dur Int)) from rfl, k2, Prod.mk.injEq, and_assoc]
  · show (a == b) = true ↔ a = b
    simp
  · show decide (a < b) = true ↔ a < b
    simp

example : Dur.add intRep ⟨5⟩ ⟨-7⟩ = some ⟨-2⟩ ∧ Dur.add intRep ⟨2 ^ 63 - 1⟩ ⟨1⟩ = none ∧
    Dur.postInc intRep ⟨5⟩ = some (⟨5⟩, ⟨6⟩) ∧ Dur.preDec intRep ⟨5⟩ = some (⟨4⟩, ⟨4⟩) := by decide +kernel

/-- **C78** quotient and remainder: `d == (d /= v) * v + (d %= v)`, and the remainder is smaller than `v` and has the sign of
`d`. -/
theorem duration_divmod (a v : Int) (q m : Dur Int) (hq : Dur.div ⟨a⟩ v = some q) (hm : Dur.mod ⟨a⟩ v = some m) :
    a = q.count * v + m.count ∧ m.count.natAbs < v.natAbs ∧ 0 ≤ m.count * a := by
  unfold Dur.div at hq
  unfold Dur.mod at hm
  split at hq
  · exact absurd hq (by simp)
  · rename_i hv
    rw [if_neg hv] at hm
    rw [Option.map_eq_some_iff] at hq hm
    obtain ⟨x, h1, rfl⟩ := hq
    obtain ⟨y, h2, rfl⟩ := hm
    rw [inRange_some h1]
    simp only
    refine ⟨?_, ?_, ?_⟩
    · have := Int.mul_tdiv_add_tmod a v
      rw [mul_comm] at this
      exact this.symm
    · rw [Int.natAbs_tmod]
      exact Nat.mod_lt _ (by omega)
    · rcases Int.lt_or_le a 0 with h | h
      · have := tmod_nonpos v hv (le_of_lt h)
        nlinarith
      · have : 0 ≤ a.tmod v := Int.tmod_nonneg _ h
        nlinarith

example : Dur.div ⟨-7⟩ 2 = some ⟨-3⟩ ∧ Dur.mod ⟨-7⟩ 2 = some ⟨-1⟩ ∧ Dur.mod ⟨-2 ^ 63⟩ (-1) = none := by decide +kernel

/-! ## Conversion -/

theorem canon_den_one {k : Ratio} (hk : k.Canon) (n : Int) (h : k.val = n) : k.den = 1 ∧ k.num = n := by
  have c : (Ratio.mk n 1).Canon := ⟨Int.one_pos, Int.gcd_one_right n⟩
  have := hk.ext c (by rw [h]; simp [Ratio.val])
  rw [this]
  exact ⟨rfl, rfl⟩

/-- **C78** a duration converts implicitly exactly if the old period is a whole number of new ones, and then the new duration is
exactly as long as the old one. It is defined exactly if the new count is in range. -/
theorem convert_exact (p q k : Ratio) (hp : p.Canon) (hq : q.Canon) (hk : ratioDiv p q = some k) (d : Dur Int)
    (hd : Counts.ok d.count) :
    (k.den = 1 ↔ ∃ n : Int, p.val = n * q.val) ∧
    (∀ r, d.convert p q = some r → (r.count : ℚ) * q.val = d.count * p.val) ∧
    (∀ n : Int, p.val = n * q.val → ((d.convert p q).isSome ↔ Counts.ok (d.count * n))) := by
  have hs := ratioDiv_spec p q k hp hq hk
  have hqz : q.val ≠ 0 := by
    unfold Ratio.val
    exact div_ne_zero (by exact_mod_cast hs.2.2) hq.ne
  have hden : k.den = 1 ↔ ∃ n : Int, p.val = n * q.val := by
    constructor
    · intro h
      refine ⟨k.num, ?_⟩
      have : k.val = k.num := by unfold Ratio.val; rw [h]; simp
      rw [← this, hs.2.1, div_mul_cancel₀ _ hqz]
    · rintro ⟨n, hn⟩
      refine (canon_den_one hs.1 n ?_).1
      rw [hs.2.1, hn, mul_div_cancel_right₀ _ hqz]
  have hcast : ∀ n : Int, k.den = 1 → k.num = n → durationCast 64 p q d.count = inRange 64 (d.count * n) := by
    intro n h1 h2
    unfold durationCast
    rw [hk]
    simp only
    rw [toS_toU 64 (by decide) (by decide) d.count hd.1 hd.2, h2]
    cases hx : inRange 64 (d.count * n) with
    | none => rfl
    | some x =>
      obtain ⟨e, b1, b2⟩ := inRange_bounds hx
      simp only
      rw [h1, if_neg (by decide), Int.tdiv_one, toS_toU 64 (by decide) (by decide) x b1 b2]
  refine ⟨hden, ?_, ?_⟩
  · intro r hr
    unfold Dur.convert at hr
    rw [hk] at hr
    simp only at hr
    split at hr
    · rename_i h1
      rw [hcast _ h1 rfl, Option.map_eq_some_iff] at hr
      obtain ⟨x, hx, rfl⟩ := hr
      rw [inRange_some hx]
      have : k.val = k.num := by unfold Ratio.val; rw [h1]; simp
      push_cast
      rw [← this, hs.2.1, mul_assoc, div_mul_cancel₀ _ hqz]
    · exact absurd hr (by simp)
  · intro n hn
    have hnum := canon_den_one hs.1 n (by rw [hs.2.1, hn, mul_div_cancel_right₀ _ hqz])
    unfold Dur.convert
    rw [hk]
    simp only
    rw [if_pos hnum.1, hcast n hnum.1 hnum.2, Option.isSome_map]
    constructor
    · intro h
      obtain ⟨x, hx⟩ := Option.isSome_iff_exists.1 h
      exact ((inRange_some_iff _ _).1 hx).2
    · intro h
      rw [inRange_eq h.1 h.2]; rfl

/-- **C78** converting to a finer period and casting back gives the duration back. -/
theorem convert_back (p q : Ratio) (hp : p.Canon) (hq : q.Canon) (hpp : 0 < p.num) (hqp : 0 < q.num) (d r : Dur Int)
    (hd : Counts.ok d.count) (h : d.convert p q = some r) (hcomp : (ratioDiv q p).isSome) :
    durationCast 64 q p r.count = some d.count := by
  have hconv := h
  unfold Dur.convert at h
  cases hk : ratioDiv p q with
  | none => rw [hk] at h; exact absurd h (by simp)
  | some k =>
    rw [hk] at h
    simp only at h
    split at h
    · rename_i h1
      have hs := ratioDiv_spec p q k hp hq hk
      obtain ⟨_, hex, _⟩ := convert_exact p q k hp hq hk d hd
      have hex := hex r hconv
      have hqv : (0 : ℚ) < q.val := div_pos (by exact_mod_cast hqp) (by exact_mod_cast hq.1)
      have hpv : (0 : ℚ) < p.val := div_pos (by exact_mod_cast hpp) (by exact_mod_cast hp.1)
      have hkv : k.val = k.num := by unfold Ratio.val; rw [h1]; simp
      have hkpos : 0 < k.num := by
        have : (0 : ℚ) < k.num := by rw [← hkv, hs.2.1]; exact div_pos hpv hqv
        exact_mod_cast this
      -- the count is in range
      have hr : Counts.ok r.count := by
        rw [Option.map_eq_some_iff] at h
        obtain ⟨x, hx, rfl⟩ := h
        unfold durationCast at hx
        rw [hk] at hx
        simp only at hx
        rw [toS_toU 64 (by decide) (by decide) d.count hd.1 hd.2] at hx
        split at hx
        · exact absurd hx (by simp)
        · rename_i y hy
          obtain ⟨e, b1, b2⟩ := inRange_bounds hy
          rw [h1, if_neg (by decide), Int.tdiv_one, toS_toU 64 (by decide) (by decide) y b1 b2] at hx
          cases hx
          exact ⟨b1, b2⟩
      obtain ⟨j, hj⟩ := Option.isSome_iff_exists.1 hcomp
      have hjs := ratioDiv_spec q p j hq hp hj
      have hjv : j.val = 1 / k.num := by
        rw [hjs.2.1, ← hkv, hs.2.1, one_div, inv_div]
      have hjc : j = ⟨1, k.num⟩ := by
        refine hjs.1.ext ⟨hkpos, by simp⟩ ?_
        rw [hjv]; simp [Ratio.val]
      have hrk : r.count = k.num * d.count := by
        have h3 : (r.count : ℚ) * q.val = (k.num * d.count : Int) * q.val := by
          rw [hex]
          push_cast
          rw [← hkv, hs.2.1]
          field_simp
        have := mul_right_cancel₀ (ne_of_gt hqv) h3
        exact_mod_cast this
      unfold durationCast
      rw [hj]
      simp only
      rw [toS_toU 64 (by decide) (by decide) r.count hr.1 hr.2, hjc]
      simp only [mul_one]
      rw [inRange_eq hr.1 hr.2]
      simp only
      rw [if_neg (by omega), hrk, Int.mul_tdiv_cancel_left _ (by omega), toS_toU 64 (by decide) (by decide) _ hd.1 hd.2]
    · exact absurd h (by simp)

theorem ms_of_s : ratioDiv (TUnit.period .s) (TUnit.period .ms) = some ⟨1000, 1⟩ :=
  ratioDiv_val _ _ _ ⟨by decide, by decide⟩ ⟨by decide, by decide⟩ ⟨by decide, by decide⟩ (by decide) (by decide) (by decide)
    (by decide) (by decide) (by decide) (by decide) (by norm_num [Ratio.val, TUnit.period])

theorem s_of_ms : ratioDiv (TUnit.period .ms) (TUnit.period .s) = some ⟨1, 1000⟩ :=
  ratioDiv_val _ _ _ ⟨by decide, by decide⟩ ⟨by decide, by decide⟩ ⟨by decide, by decide⟩ (by decide) (by decide) (by decide)
    (by decide) (by decide) (by decide) (by decide) (by norm_num [Ratio.val, TUnit.period])

example : Dur.convert (TUnit.period .s) (TUnit.period .ms) ⟨-7⟩ = some ⟨-7000⟩ ∧
    Dur.convert (TUnit.period .ms) (TUnit.period .s) ⟨7000⟩ = none ∧
    durationCast 64 (TUnit.period .ms) (TUnit.period .s) (-7000) = some (-7) := by
  refine ⟨?_, ?_, ?_⟩
  · unfold Dur.convert durationCast
    rw [ms_of_s]
    decide +kernel
  · unfold Dur.convert
    rw [s_of_ms]
    decide +kernel
  · unfold durationCast
    rw [s_of_ms]
    decide +kernel

/-- **C78** the named durations: a thousand nanoseconds are a microsecond, ..., seven days are a week, twelve months and 365 days
and six hours are a year, a hundred years a century, a thousand years a millennium. -/
theorem unit_lengths :
    (TUnit.period .s).val = 1 ∧
    1000 * (TUnit.period .ns).val = (TUnit.period .us).val ∧ 1000 * (TUnit.period .us).val = (TUnit.period .ms).val ∧
    1000 * (TUnit.period .ms).val = (TUnit.period .s).val ∧ 60 * (TUnit.period .s).val = (TUnit.period .min).val ∧
    60 * (TUnit.period .min).val = (TUnit.period .h).val ∧ 24 * (TUnit.period .h).val = (TUnit.period .d).val ∧
    7 * (TUnit.period .d).val = (TUnit.period .w).val ∧ 12 * (TUnit.period .months).val = (TUnit.period .years).val ∧
    365 * (TUnit.period .d).val + 6 * (TUnit.period .h).val = (TUnit.period .years).val ∧
    100 * (TUnit.period .years).val = (TUnit.period .centuries).val ∧
    10 * (TUnit.period .centuries).val = (TUnit.period .millenia).val ∧ ∀ u : TUnit, u.period.Canon ∧ 0 < u.period.num := by
  have e1 : minuteNum = 60 := rfl
  have e2 : hourNum = 3600 := rfl
  have e3 : dayNum = 86400 := rfl
  have e4 : weekNum = 604800 := rfl
  have e5 : yearNum = 31557600 := by decide
  have e6 : monthNum = 2629800 := by decide
  refine ⟨?_, ?_, ?_, ?_, ?_, ?_, ?_, ?_, ?_, ?_, ?_, ?_, ?_⟩
  all_goals try (simp only [TUnit.period, Ratio.val, nano, nanoDen, e1, e2, e3, e4, e5, e6]; norm_num)
  intro u
  cases u <;> exact ⟨⟨by decide, by decide⟩, by decide⟩

/-! ## Time points -/

variable {α : Type} [Counts α]

/-- **C78** time points are an affine line over the durations, in either representation: adding a duration moves a time point by it,
subtracting it moves it back, the difference of two time points is the duration between them; and they compare as the times
do. Each operation is right whenever it does not overflow. -/
theorem time_point_arith (R : Rep α) (hR : R.Right) (t u : TimePoint α) (d : Dur α) (ht : Counts.ok t.since.count)
    (hu : Counts.ok u.since.count) (hd : Counts.ok d.count) :
    (∀ r, t.add R d = some r → Counts.ok r.since.count ∧
      Counts.num r.since.count = Counts.num t.since.count + Counts.num d.count ∧
      (∀ x, r.sub R d = some x → x = t) ∧ (∀ x, r.diff R t = some x → x = d)) ∧
    (∀ r, t.sub R d = some r → Counts.ok r.since.count ∧
      Counts.num r.since.count = Counts.num t.since.count - Counts.num d.count ∧ (∀ x, r.add R d = some x → x = t)) ∧
    (∀ r, t.diff R u = some r → Counts.ok r.count ∧ Counts.num r.count = Counts.num t.since.count - Counts.num u.since.count ∧
      (∀ x, u.add R r = some x → x = t)) ∧
    (t.eq R u = true ↔ t = u) ∧ (t.lt R u = true ↔ Counts.num t.since.count < Counts.num u.since.count) := by
  obtain ⟨⟨t⟩⟩ := t
  obtain ⟨⟨u⟩⟩ := u
  obtain ⟨d⟩ := d
  simp only at *
  have hadd : ∀ (a b : α) (r : TimePoint α), Counts.ok a → Counts.ok b → TimePoint.add R ⟨⟨a⟩⟩ ⟨b⟩ = some r →
      Counts.ok r.since.count ∧ Counts.num r.since.count = Counts.num a + Counts.num b := by
    intro a b r ha hb h
    unfold TimePoint.add Dur.add at h
    simp only [Option.map_eq_some_iff] at h
    obtain ⟨_, ⟨c, hc, rfl⟩, rfl⟩ := h
    exact hR.add a b c ha hb hc
  have hsub : ∀ (a b : α) (r : TimePoint α), Counts.ok a → Counts.ok b → TimePoint.sub R ⟨⟨a⟩⟩ ⟨b⟩ = some r →
      Counts.ok r.since.count ∧ Counts.num r.since.count = Counts.num a - Counts.num b := by
    intro a b r ha hb h
    unfold TimePoint.sub Dur.sub at h
    simp only [Option.map_eq_some_iff] at h
    obtain ⟨_, ⟨c, hc, rfl⟩, rfl⟩ := h
    exact hR.sub a b c ha hb hc
  have hdiff : ∀ (a b : α) (r : Dur α), Counts.ok a → Counts.ok b → TimePoint.diff R ⟨⟨a⟩⟩ ⟨⟨b⟩⟩ = some r →
      Counts.ok r.count ∧ Counts.num r.count = Counts.num a - Counts.num b := by
    intro a b r ha hb h
    unfold TimePoint.diff Dur.sub at h
    simp only [Option.map_eq_some_iff] at h
    obtain ⟨c, hc, rfl⟩ := h
    exact hR.sub a b c ha hb hc
  refine ⟨?_, ?_, ?_, ?_, ?_⟩
  · intro r h
    obtain ⟨h1, h2⟩ := hadd t d r ht hd h
    refine ⟨h1, h2, ?_, ?_⟩
    · intro x hx
      obtain ⟨⟨r⟩⟩ := r
      obtain ⟨h3, h4⟩ := hsub r d x h1 hd hx
      obtain ⟨⟨x⟩⟩ := x
      rw [hR.inj x t h3 ht (by simp only at *; omega)]
    · intro x hx
      obtain ⟨⟨r⟩⟩ := r
      obtain ⟨h3, h4⟩ := hdiff r t x h1 ht hx
      obtain ⟨x⟩ := x
      rw [hR.inj x d h3 hd (by simp only at *; omega)]
  · intro r h
    obtain ⟨h1, h2⟩ := hsub t d r ht hd h
    refine ⟨h1, h2, ?_⟩
    intro x hx
    obtain ⟨⟨r⟩⟩ := r
    obtain ⟨h3, h4⟩ := hadd r d x h1 hd hx
    obtain ⟨⟨x⟩⟩ := x
    rw [hR.inj x t h3 ht (by simp only at *; omega)]
  · intro r h
    obtain ⟨h1, h2⟩ := hdiff t u r ht hu h
    refine ⟨h1, h2, ?_⟩
    intro x hx
    obtain ⟨r⟩ := r
    obtain ⟨h3, h4⟩ := hadd u r x hu h1 hx
    obtain ⟨⟨x⟩⟩ := x
    rw [hR.inj x t h3 ht (by simp only at *; omega)]
  · have := hR.eq t u ht hu
    unfold TimePoint.eq Dur.eq
    simp only [TimePoint.mk.injEq, Dur.mk.injEq]
    rw [this]
    exact ⟨fun h => hR.inj t u ht hu h, fun h => by rw [h]⟩
  · exact hR.lt t u ht hu

/-- **C78** and they are defined wherever the result is in range (integer counts), or within 2^62 seconds of the epoch
(`hrtime_t`). -/
theorem time_point_defined (t u : TimePoint Int) (d : Dur Int) (x y : TimePoint HrTime) (e : Dur HrTime) :
    ((t.add intRep d).isSome ↔ Counts.ok (t.since.count + d.count)) ∧
    ((t.sub intRep d).isSome ↔ Counts.ok (t.since.count - d.count)) ∧
    ((t.diff intRep u).isSome ↔ Counts.ok (t.since.count - u.since.count)) ∧
    (x.since.count.Norm → y.since.count.Norm → e.count.Norm → x.since.count.Near → y.since.count.Near → e.count.Near →
      (x.add hrRep e).isSome ∧ (x.sub hrRep e).isSome ∧ (x.diff hrRep y).isSome) := by
  have k : ∀ z : Int, (inRange 64 z).isSome ↔ Counts.ok z := by
    intro z
    constructor
    · intro h
      obtain ⟨x, hx⟩ := Option.isSome_iff_exists.1 h
      exact ((inRange_some_iff _ _).1 hx).2
    · intro h
      rw [inRange_eq h.1 h.2]; rfl
  refine ⟨?_, ?_, ?_, ?_⟩
  · unfold TimePoint.add Dur.add; rw [Option.isSome_map, Option.isSome_map]; exact k _
  · unfold TimePoint.sub Dur.sub; rw [Option.isSome_map, Option.isSome_map]; exact k _
  · unfold TimePoint.diff Dur.sub; rw [Option.isSome_map]; exact k _
  · intro h1 h2 h3 h4 h5 h6
    refine ⟨?_, ?_, ?_⟩
    · unfold TimePoint.add Dur.add; rw [Option.isSome_map, Option.isSome_map]; exact (add_sub_total _ _ h1 h3 h4 h6).1
    · unfold TimePoint.sub Dur.sub; rw [Option.isSome_map, Option.isSome_map]; exact (add_sub_total _ _ h1 h3 h4 h6).2.1
    · unfold TimePoint.diff Dur.sub; rw [Option.isSome_map]; exact (add_sub_total _ _ h1 h2 h4 h5).2.1

example : intRep.Right ∧ hrRep.Right ∧ Counts.ok (HrTime.mk 5 1) ∧
    TimePoint.diff hrRep ⟨⟨⟨5, 1⟩⟩⟩ ⟨⟨⟨3, 2⟩⟩⟩ = some ⟨⟨1, 999999999⟩⟩ ∧
    TimePoint.add intRep ⟨⟨5⟩⟩ ⟨7⟩ = some ⟨⟨12⟩⟩ :=
  ⟨intRep_right, hrRep_right, ⟨by decide, by decide⟩, by decide +kernel, by decide +kernel⟩

/-- **C78** time points of different periods: the right one is converted exactly, so the difference and the comparisons are those of
the times in seconds. -/
theorem time_point_mixed (p q : Ratio) (hp : p.Canon) (hq : q.Canon) (hqp : 0 < q.num) (t u : TimePoint Int)
    (hu : Counts.ok u.since.count) :
    (∀ r, t.diffFrom p q u = some r → (r.count : ℚ) * q.val = t.since.count * q.val - u.since.count * p.val) ∧
    (∀ r, t.ltFrom p q u = some r → (r = true ↔ (t.since.count : ℚ) * q.val < u.since.count * p.val)) ∧
    (∀ r, t.eqFrom p q u = some r → (r = true ↔ (t.since.count : ℚ) * q.val = u.since.count * p.val)) ∧
    (∀ r, t.convert p q = some r → Counts.ok t.since.count → (r.since.count : ℚ) * q.val = t.since.count * p.val) ∧
    (∀ r, t.cast p q = some r → Counts.ok t.since.count → r.since.count = truncQ (t.since.count * p.val / q.val)) := by
  have hqv : (0 : ℚ) < q.val := div_pos (by exact_mod_cast hqp) (by exact_mod_cast hq.1)
  have conv : ∀ d r : Dur Int, Counts.ok d.count → d.convert p q = some r → (r.count : ℚ) * q.val = d.count * p.val := by
    intro d r hd h
    cases hk : ratioDiv p q with
    | none => unfold Dur.convert at h; rw [hk] at h; exact absurd h (by simp)
    | some k => exact (convert_exact p q k hp hq hk d hd).2.1 r h
  refine ⟨?_, ?_, ?_, ?_, ?_⟩
  · intro r h
    unfold TimePoint.diffFrom at h
    obtain ⟨d, h1, h2⟩ := Option.bind_eq_some_iff.1 h
    have e := conv _ _ hu h1
    unfold Dur.sub at h2
    obtain ⟨c, hc, rfl⟩ := Option.map_eq_some_iff.1 h2
    have hc := inRange_some (show inRange 64 (t.since.count - d.count) = some c from hc)
    rw [hc, ← e]
    push_cast
    ring
  · intro r h
    unfold TimePoint.ltFrom at h
    obtain ⟨d, h1, rfl⟩ := Option.map_eq_some_iff.1 h
    have e := conv _ _ hu h1
    show decide (t.since.count < d.count) = true ↔ _
    rw [← e, mul_lt_mul_iff_left₀ hqv, decide_eq_true_iff]
    norm_cast
  · intro r h
    unfold TimePoint.eqFrom at h
    obtain ⟨d, h1, rfl⟩ := Option.map_eq_some_iff.1 h
    have e := conv _ _ hu h1
    show (t.since.count == d.count) = true ↔ _
    rw [← e, mul_left_inj' (ne_of_gt hqv), beq_iff_eq]
    norm_cast
  · intro r h ht
    unfold TimePoint.convert at h
    obtain ⟨d, h1, rfl⟩ := Option.map_eq_some_iff.1 h
    exact conv _ _ ht h1
  · intro r h ht
    unfold TimePoint.cast at h
    obtain ⟨c, h1, rfl⟩ := Option.map_eq_some_iff.1 h
    exact durationCast64 p q hp hq _ c ht.1 ht.2 h1

example : TimePoint.diffFrom (TUnit.period .s) (TUnit.period .ms) ⟨⟨7500⟩⟩ ⟨⟨7⟩⟩ = some ⟨500⟩ ∧
    TimePoint.ltFrom (TUnit.period .s) (TUnit.period .ms) ⟨⟨7500⟩⟩ ⟨⟨7⟩⟩ = some false := by
  constructor
  · unfold TimePoint.diffFrom Dur.convert durationCast
    rw [ms_of_s]
    decide +kernel
  · unfold TimePoint.ltFrom Dur.convert durationCast
    rw [ms_of_s]
    decide +kernel

/-! ## Limits -/

/-- **C78** `zero`, `min` and `max` of an integer duration bound all its values. `zero` and `max` of `hrtime_t` do. -/
theorem limits_partial :
    (∀ a : Int, Counts.ok a → intRep.lt a intRep.min = false ∧ intRep.lt intRep.max a = false) ∧
    Counts.ok intRep.min ∧ Counts.ok intRep.max ∧ Counts.num intRep.zero = 0 ∧
    (∀ t : HrTime, t.Norm → -2 ^ 63 ≤ t.sec → t.sec < 2 ^ 63 → hrRep.lt hrRep.max t = false) ∧
    Counts.ok hrRep.max ∧ Counts.num hrRep.zero = 0 := by
  refine ⟨?_, ⟨by decide, by decide⟩, ⟨by decide, by decide⟩, rfl, ?_, ⟨by decide, by decide⟩, rfl⟩
  · intro a ha
    have ha : -2 ^ 63 ≤ a ∧ a < 2 ^ 63 := ha
    show decide (a < -2 ^ 63) = false ∧ decide ((2 ^ 63 - 1 : Int) < a) = false
    simp only [decide_eq_false_iff_not]
    omega
  · intro t ht h1 h2
    show HrTime.lt ⟨2 ^ 63 - 1, nanoDen - 1⟩ t = false
    unfold HrTime.Norm at ht
    unfold HrTime.lt nanoDen
    rw [Bool.eq_false_iff]
    simp only [ne_eq, Bool.or_eq_true, Bool.and_eq_true, beq_iff_eq, decide_eq_true_eq]
    omega

/-- **C78 fails** for `min` of `hrtime_t`: almost a second of times is less than it. -/
theorem hrtime_min_violated (n : Int) (h : 0 ≤ n) (h' : n < 999999999) :
    (HrTime.mk (-2 ^ 63) n).Norm ∧ hrRep.lt ⟨-2 ^ 63, n⟩ hrRep.min = true := by
  refine ⟨⟨h, by simp only; omega⟩, ?_⟩
  show HrTime.lt ⟨-2 ^ 63, n⟩ ⟨-2 ^ 63, nanoDen - 1⟩ = true
  unfold HrTime.lt nanoDen
  simp only [Bool.or_eq_true, Bool.and_eq_true, beq_iff_eq, decide_eq_true_eq]
  exact Or.inr ⟨trivial, by omega⟩

example : hrRep.lt ⟨-2 ^ 63, 5⟩ hrRep.min = true := (hrtime_min_violated 5 (by decide) (by decide)).2

/-! ## Clocks -/

theorem hrCast_nano (ts : HrTime) : hrCast nano nano ts =
    match inRange 64 (ts.sec * 1000000000), inRange 64 ts.nsec with
    | some x, some y => inRange 64 (x + y)
    | _, _ => none := by
  unfold hrCast
  rw [ratioDiv_val nano nano ⟨1, 1⟩ nano_canon nano_canon ⟨by decide, by decide⟩ (by decide) (by decide) (by decide) (by decide)
    (by decide) (by decide) (by decide) (by rw [nano_val]; norm_num [Ratio.val])]
  simp only
  rw [ratioDiv_val ⟨1, 1⟩ nano ⟨1000000000, 1⟩ ⟨by decide, by decide⟩ nano_canon ⟨by decide, by decide⟩ (by decide) (by decide)
    (by decide) (by decide) (by decide) (by decide) (by decide) (by rw [nano_val]; norm_num [Ratio.val])]
  simp only [mul_one, Int.tdiv_one]
  cases inRange 64 (ts.sec * 1000000000) <;> cases inRange 64 ts.nsec <;> simp

/-- **C78** `steady_clock::now ()` is exactly the nanoseconds that the system's monotonic clock shows, as long as they are less
than 2^63 (292 years). -/
theorem steady_now (ts : HrTime) (hn : ts.Norm) (hs : 0 ≤ ts.sec) (hb : ts.total < 2 ^ 63) :
    steadyNow ts = some ⟨⟨ts.total⟩⟩ := by
  unfold HrTime.Norm HrTime.total at *
  unfold steadyNow
  rw [hrCast_nano, inRange_eq (by omega) (by omega), inRange_eq (by omega) (by omega)]
  simp only
  rw [inRange_eq (by omega) (by omega)]
  rfl

/-- **C78** the steady clock never goes back if the system's monotonic clock does not, and the difference of two readings is
exactly the time between them. -/
theorem steady_monotone (a b : HrTime) (ha : a.Norm) (hb : b.Norm) (ha0 : 0 ≤ a.sec) (hbb : b.total < 2 ^ 63)
    (h : a.total ≤ b.total) : ∃ t u, steadyNow a = some t ∧ steadyNow b = some u ∧ u.lt intRep t = false ∧
      u.diff intRep t = some ⟨b.total - a.total⟩ := by
  have hb0 : 0 ≤ b.sec := by unfold HrTime.total HrTime.Norm at *; omega
  have h0 : 0 ≤ a.total := by unfold HrTime.total HrTime.Norm at *; omega
  refine ⟨_, _, steady_now a ha ha0 (by omega), steady_now b hb hb0 hbb, ?_, ?_⟩
  · show decide (b.total < a.total) = false
    simp only [decide_eq_false_iff_not]
    omega
  · show (inRange 64 (b.total - a.total)).map Dur.mk = _
    rw [inRange_eq (by omega) (by omega)]
    rfl

example : (HrTime.mk 5 1).Norm ∧ steadyNow ⟨5, 1⟩ = some ⟨⟨5000000001⟩⟩ :=
  ⟨⟨by decide, by decide⟩, steady_now _ ⟨by decide, by decide⟩ (by decide) (by decide)⟩

/-- **C78** `system_clock_hr<q>::now ()` of a time after the epoch: never later than the time, less than two periods earlier, and less
than one if the period is a whole number of seconds or a whole fraction of one, as for `system_clock_ms`, `_us` and `_ns`. A later
time never gives an earlier reading, whatever the period. -/
theorem system_hr_now (q : Ratio) (hq : q.Canon) (hpos : 0 < q.num) (a : HrTime) (ha : a.Norm) (ha0 : 0 ≤ a.sec)
    (t : TimePoint Int) (h : systemHrNow q a = some t) :
    ((t.since.count : ℚ) * q.val ≤ a.total / 1000000000 ∧ (a.total : ℚ) / 1000000000 < (t.since.count + 2) * q.val) ∧
    (q.num = 1 ∨ q.den = 1 → (a.total : ℚ) / 1000000000 < (t.since.count + 1) * q.val) ∧
    ∀ (b : HrTime) (u : TimePoint Int), b.Norm → a.total ≤ b.total → systemHrNow q b = some u →
      t.since.count ≤ u.since.count ∧ u.lt intRep t = false := by
  have hv : (0 : ℚ) < q.val := div_pos (by exact_mod_cast hpos) (by exact_mod_cast hq.1)
  unfold systemHrNow at h
  obtain ⟨r, hr, rfl⟩ := Option.map_eq_some_iff.1 h
  simp only
  obtain ⟨h1, h2, h3⟩ := hrCast_spec_partial q hq hpos a ha ha0 r hr
  have hx : exactIn a q = (a.total : ℚ) / 1000000000 / q.val := by unfold exactIn; ring
  have ht0 : 0 ≤ a.total := by unfold HrTime.total HrTime.Norm at *; omega
  have hx0 : 0 ≤ exactIn a q := by
    rw [hx]; exact div_nonneg (div_nonneg (by exact_mod_cast ht0) (by norm_num)) (le_of_lt hv)
  have hfl : truncQ (exactIn a q) = ⌊exactIn a q⌋ := by unfold truncQ; rw [if_pos hx0]
  have f1 := Int.floor_le (exactIn a q)
  have f2 := Int.lt_floor_add_one (exactIn a q)
  rw [← hfl] at f1 f2
  have back : (a.total : ℚ) / 1000000000 = exactIn a q * q.val := by rw [hx, div_mul_cancel₀ _ (ne_of_gt hv)]
  refine ⟨⟨?_, ?_⟩, ?_, ?_⟩
  · rw [back]
    have : (r : ℚ) ≤ (truncQ (exactIn a q) : ℚ) := by exact_mod_cast h2
    exact mul_le_mul_of_nonneg_right (le_trans this f1) (le_of_lt hv)
  · rw [back]
    have : (truncQ (exactIn a q) : ℚ) ≤ r + 1 := by exact_mod_cast h3
    exact mul_lt_mul_of_pos_right (by linarith) hv
  · intro hc
    rw [back]
    have : (truncQ (exactIn a q) : ℚ) = r := by exact_mod_cast (h1 hc).symm
    exact mul_lt_mul_of_pos_right (by linarith) hv
  · intro b u hb hab hu
    obtain ⟨r', hr', rfl⟩ := Option.map_eq_some_iff.1 hu
    have hle : r ≤ r' := by
      have hb0 : 0 ≤ b.sec := by unfold HrTime.total HrTime.Norm at *; omega
      have e := (hrCast_split q hq a r hr).1
      have e' := (hrCast_split q hq b r' hr').1
      have hab' : a.sec < b.sec ∨ a.sec = b.sec ∧ a.nsec ≤ b.nsec := by
        unfold HrTime.total HrTime.Norm at *; omega
      have fl : ∀ x : ℚ, 0 ≤ x → truncQ x = ⌊x⌋ := fun x h => by unfold truncQ; rw [if_pos h]
      have nn : ∀ x : Int, 0 ≤ x → (0 : ℚ) ≤ (x : ℚ) / q.val := fun x h => div_nonneg (by exact_mod_cast h) (le_of_lt hv)
      have nn' : ∀ x : Int, 0 ≤ x → (0 : ℚ) ≤ (x : ℚ) / 1000000000 / q.val :=
        fun x h => div_nonneg (div_nonneg (by exact_mod_cast h) (by norm_num)) (le_of_lt hv)
      rw [fl _ (nn _ hb0), fl _ (nn' _ hb.1)] at e'
      rcases hab' with hlt | ⟨heq, hn⟩
      · have g1 : r ≤ ⌊exactIn a q⌋ := by rw [← hfl]; exact h2
        have g2 : exactIn a q ≤ (b.sec : ℚ) / q.val := by
          rw [hx]
          apply div_le_div_of_nonneg_right _ (le_of_lt hv)
          have : a.total ≤ b.sec * 1000000000 := by unfold HrTime.total HrTime.Norm at *; omega
          rw [div_le_iff₀ (by norm_num)]
          exact_mod_cast this
        have g3 := Int.floor_le_floor g2
        have g4 : 0 ≤ ⌊(b.nsec : ℚ) / 1000000000 / q.val⌋ := Int.floor_nonneg.2 (nn' _ hb.1)
        omega
      · rw [fl _ (nn _ ha0), fl _ (nn' _ ha.1)] at e
        have g2 : (a.nsec : ℚ) / 1000000000 / q.val ≤ (b.nsec : ℚ) / 1000000000 / q.val := by
          apply div_le_div_of_nonneg_right _ (le_of_lt hv)
          apply div_le_div_of_nonneg_right _ (by norm_num)
          exact_mod_cast hn
        have g3 := Int.floor_le_floor g2
        rw [heq] at e
        omega
    refine ⟨hle, ?_⟩
    show decide (r' < r) = false
    simp only [decide_eq_false_iff_not]
    omega

/-- `system_clock_ms` shows milliseconds. -/
theorem system_ms_now (a : HrTime) (ha : a.Norm) (h0 : 0 ≤ a.sec) (hb : a.sec < 2 ^ 53) :
    systemHrNow (TUnit.period .ms) a = some ⟨⟨a.total / 1000000⟩⟩ := by
  unfold HrTime.Norm HrTime.total at *
  unfold systemHrNow hrCast
  rw [ratioDiv_val nano (TUnit.period .ms) ⟨1, 1000000⟩ nano_canon ⟨by decide, by decide⟩ ⟨by decide, by decide⟩ (by decide)
    (by decide) (by decide) (by decide) (by decide) (by decide) (by decide) (by rw [nano_val]; norm_num [Ratio.val, TUnit.period])]
  simp only
  rw [ratioDiv_val ⟨1, 1000000⟩ nano ⟨1000, 1⟩ ⟨by decide, by decide⟩ nano_canon ⟨by decide, by decide⟩ (by decide)
    (by decide) (by decide) (by decide) (by decide) (by decide) (by decide) (by rw [nano_val]; norm_num [Ratio.val])]
  simp only
  rw [inRange_eq (by omega) (by omega), inRange_eq (by omega) (by omega)]
  simp only [mul_one, Int.tdiv_one]
  rw [if_neg (by decide), Int.tdiv_eq_ediv_of_nonneg (by omega), inRange_eq (by omega) (by omega)]
  simp only [Option.map_some]
  congr 3
  omega

example : systemHrNow (TUnit.period .ms) ⟨5, 123456789⟩ = some ⟨⟨5123⟩⟩ :=
  system_ms_now _ ⟨by decide, by decide⟩ (by decide) (by decide)

/-- **C78** `high_resolution_clock`: the difference of two readings is exactly the time between them. -/
theorem high_resolution_diff (a b : HrTime) (ha : a.Norm) (hb : b.Norm) (ha' : a.Near) (hb' : b.Near) :
    ∃ d, (highNow b).diff hrRep (highNow a) = some d ∧ d.count.Norm ∧ d.count.total = b.total - a.total := by
  have h := (add_sub_total b a hb ha hb' ha').2.1
  obtain ⟨d, hd⟩ := Option.isSome_iff_exists.1 h
  refine ⟨⟨d⟩, ?_, sub_spec b a d hb ha hd⟩
  show (HrTime.sub b a).map Dur.mk = _
  rw [hd]
  rfl

example : (highNow ⟨5, 1⟩).diff hrRep (highNow ⟨3, 2⟩) = some ⟨⟨1, 999999999⟩⟩ := by decide +kernel

/-- **C78** `system_clock::to_time_t` and `from_time_t` are inverse, and `now ()` is what `time ()` says, in seconds. -/
theorem system_time_t (t : Int) (tp : TimePoint Int) :
    systemToTimeT (systemFromTimeT t) = t ∧ systemFromTimeT (systemToTimeT tp) = tp ∧ systemToTimeT (systemNow t) = t ∧
    (systemFromTimeT t).since.count * (TUnit.period .s).val = t := by
  refine ⟨rfl, rfl, rfl, ?_⟩
  norm_num [systemFromTimeT, TUnit.period, Ratio.val]

end Ustl.Chrono
