import Verif.Util.Model
/-!
# Compile-time rationals (uratio.h) and durations (uchrono.h)

All arithmetic is on 64-bit signed integers (`intmax_t`, `time_t`, `long`). An overflow is undefined behaviour at run time
and does not compile in a constant expression: both are `none`.
-/
namespace Ustl.Chrono
open Ustl.Util (inRange gcd absv sign toS toU)

/-- What a `ratio` type shows to its users: its reduced `num` and `den`. Models uratio.h:12-21. -/
structure Ratio where
  num : Int
  den : Int
deriving DecidableEq, Repr

/-- `ratio<N,D>`. Models uratio.h:14-18. -/
def mkRatio (n d : Int) : Option Ratio :=
  if d = 0 then none else
  match gcd 64 n d, inRange 64 (n * sign d), absv 64 d with
  | some g, some ns, some ad => some ⟨ns.tdiv g, ad.tdiv g⟩
  | _, _, _ => none

/-- `ratio_add<R1,R2>`. Models uratio.h:27-36, 50-53. -/
def ratioAdd (a b : Ratio) : Option Ratio :=
  match gcd 64 a.den b.den with
  | none => none
  | some g =>
    match inRange 64 (b.den.tdiv g * a.num), inRange 64 (a.den.tdiv g * b.num), inRange 64 (a.den.tdiv g * b.den) with
    | some n1, some n2, some nd =>
      match inRange 64 (n1 + n2) with
      | none => none
      | some nn => mkRatio nn nd
    | _, _, _ => none

/-- `ratio_multiply<R1,R2>`. Models uratio.h:38-46, 55-58. -/
def ratioMul (a b : Ratio) : Option Ratio :=
  match gcd 64 a.num b.den, gcd 64 b.num a.den with
  | some g1, some g2 =>
    match inRange 64 (a.num.tdiv g1 * b.num.tdiv g2), inRange 64 (a.den.tdiv g2 * b.den.tdiv g1) with
    | some nn, some nd => mkRatio nn nd
    | _, _ => none
  | _, _ => none

/-- `ratio_subtract<R1,R2>`. Models uratio.h:60-61. -/
def ratioSub (a b : Ratio) : Option Ratio :=
  match inRange 64 (-b.num) with
  | none => none
  | some n =>
    match mkRatio n b.den with
    | none => none
    | some nb => ratioAdd a nb

/-- `ratio_divide<R1,R2>`. Models uratio.h:62-63. -/
def ratioDiv (a b : Ratio) : Option Ratio :=
  match mkRatio b.den b.num with
  | none => none
  | some ib => ratioMul a ib

/-- `ratio_equal<R1,R2>::value`. Models uratio.h:68-70. -/
def ratioEq (a b : Ratio) : Bool := a.num == b.num && a.den == b.den
/-- `ratio_not_equal<R1,R2>::value`. Models uratio.h:72-74. -/
def ratioNe (a b : Ratio) : Bool := !(ratioEq a b)
/-- `ratio_less<R1,R2>::value`. Models uratio.h:76-78. -/
def ratioLt (a b : Ratio) : Option Bool := (ratioSub a b).map fun r => decide (r.num < 0)
/-- `ratio_less_equal<R1,R2>::value`. Models uratio.h:80-82. -/
def ratioLe (a b : Ratio) : Option Bool := (ratioSub a b).map fun r => decide (r.num ≤ 0)
/-- `ratio_greater<R1,R2>::value`. Models uratio.h:84-86. -/
def ratioGt (a b : Ratio) : Option Bool := (ratioLe a b).map not
/-- `ratio_greater_equal<R1,R2>::value`. Models uratio.h:88-90. -/
def ratioGe (a b : Ratio) : Option Bool := (ratioLt a b).map not

/-- `duration_cast` of a count in a 64-bit type with period `p` to a signed type of `w` bits with period `q`: the count is
first converted to the new type, multiplied, divided and converted again. Models uchrono.h:18-29. -/
def durationCast (w : Nat) (p q : Ratio) (count : Int) : Option Int :=
  match ratioDiv p q with
  | none => none
  | some c =>
    match inRange 64 (toS w (toU count) * c.num) with
    | none => none
    | some x => if c.den = 0 then none else some (toS w (toU (x.tdiv c.den)))

/-- `nano::den`. Models uratio.h:107. -/
def nanoDen : Int := 1000000000

/-- `hrtime_t`: a `timespec`. Models uchrono.h:177-182. -/
structure HrTime where
  sec : Int
  nsec : Int
deriving DecidableEq, Repr

/-- `hrtime_t (intmax_t)`. Models uchrono.h:183. -/
def HrTime.ofInt (v : Int) : HrTime := ⟨v.tdiv nanoDen, v.tmod nanoDen⟩

/-- `operator intmax_t`. Models uchrono.h:186. -/
def HrTime.toInt (t : HrTime) : Option Int :=
  match inRange 64 (t.sec * nanoDen) with
  | none => none
  | some s => inRange 64 (s + t.nsec)

/-- Both fields in range. -/
def HrTime.fit (s n : Int) : Option HrTime :=
  match inRange 64 s, inRange 64 n with
  | some s, some n => some ⟨s, n⟩
  | _, _ => none

/-- Unary `operator-`. Models uchrono.h:190. -/
def HrTime.neg (t : HrTime) : Option HrTime := HrTime.fit (-t.sec) (-t.nsec)

/-- `operator++`. Models uchrono.h:191-197. -/
def HrTime.inc (t : HrTime) : Option HrTime :=
  match inRange 64 (t.nsec + 1) with
  | none => none
  | some n => if n > nanoDen then HrTime.fit (t.sec + 1) (n - nanoDen) else some ⟨t.sec, n⟩

/-- `operator--`. Models uchrono.h:198-205. -/
def HrTime.dec (t : HrTime) : Option HrTime :=
  if t.nsec = 0 then HrTime.fit (t.sec - 1) (nanoDen - 1) else HrTime.fit t.sec (t.nsec - 1)

/-- `operator+=`. Models uchrono.h:208-215. -/
def HrTime.add (t v : HrTime) : Option HrTime :=
  match inRange 64 (t.nsec + v.nsec) with
  | none => none
  | some n =>
    if nanoDen ≤ n then
      match HrTime.fit (t.sec + 1) (n - nanoDen) with
      | none => none
      | some r => HrTime.fit (r.sec + v.sec) r.nsec
    else HrTime.fit (t.sec + v.sec) n

/-- `operator-=`. Models uchrono.h:216-223. -/
def HrTime.sub (t v : HrTime) : Option HrTime :=
  match inRange 64 (t.nsec - v.nsec) with
  | none => none
  | some n =>
    if 0 > n then
      match HrTime.fit (t.sec - 1) (n + nanoDen) with
      | none => none
      | some r => HrTime.fit (r.sec - v.sec) r.nsec
    else HrTime.fit (t.sec - v.sec) n

/-- `operator*=`. Models uchrono.h:224-231. -/
def HrTime.mul (t : HrTime) (v : Int) : Option HrTime :=
  match HrTime.fit (t.sec * v) (t.nsec * v) with
  | none => none
  | some r => if nanoDen ≤ r.nsec then HrTime.fit (r.sec + r.nsec.tdiv nanoDen) (r.nsec.tmod nanoDen) else some r

/-- `operator/=`; division of the least value by -1 overflows. Models uchrono.h:232-237. -/
def HrTime.div (t : HrTime) (v : Int) : Option HrTime :=
  if v = 0 then none else
  match inRange 64 (t.nsec.tdiv v), inRange 64 (t.sec.tmod v * nanoDen), inRange 64 (t.sec.tdiv v) with
  | some n, some k, some s => HrTime.fit s (n + k)
  | _, _, _ => none

/-- `operator==`. Models uchrono.h:242. -/
def HrTime.eq (a b : HrTime) : Bool := a.sec == b.sec && a.nsec == b.nsec
/-- `operator<`. Models uchrono.h:243. -/
def HrTime.lt (a b : HrTime) : Bool := decide (a.sec < b.sec) || (a.sec == b.sec && decide (a.nsec < b.nsec))

/-- `duration_cast` of an `hrtime_t` with period `p` to a 64-bit count with period `q`: the two fields are converted
separately. Models uchrono.h:264-275. -/
def hrCast (p q : Ratio) (t : HrTime) : Option Int :=
  match ratioDiv p q with
  | none => none
  | some nc =>
    match ratioDiv nc p with
    | none => none
    | some sc =>
      match inRange 64 (t.sec * sc.num), inRange 64 (t.nsec * nc.num) with
      | some x, some y => if sc.den = 0 ∨ nc.den = 0 then none else inRange 64 (x.tdiv sc.den + y.tdiv nc.den)
      | _, _ => none

/-- `nano`. Models uratio.h:107. -/
def nano : Ratio := ⟨1, nanoDen⟩

end Ustl.Chrono
