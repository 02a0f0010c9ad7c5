import Verif.Chrono.Model
import Verif.Text.Model
/-!
# Durations, time points and clocks (uchrono.h)

A `duration<Rep,Period>` is its count, in a representation `α` that is `intmax_t` (`Int` in the 64-bit range) or `hrtime_t`
(`HrTime`); the period is a parameter of the conversions. `none` is signed overflow, or a conversion that does not compile.
-/
namespace Ustl.Chrono
open Ustl.Util (inRange)
open Ustl.Stream (Byte)

/-- What `duration` asks of its representation. -/
structure Rep (α : Type) where
  zero : α
  min : α
  max : α
  neg : α → Option α
  inc : α → Option α
  dec : α → Option α
  add : α → α → Option α
  sub : α → α → Option α
  eq : α → α → Bool
  lt : α → α → Bool

/-- `intmax_t`, with `duration_values<intmax_t>`. Models uchrono.h:34-39. -/
def intRep : Rep Int where
  zero := 0
  min := -2 ^ 63
  max := 2 ^ 63 - 1
  neg a := inRange 64 (-a)
  inc a := inRange 64 (a + 1)
  dec a := inRange 64 (a - 1)
  add a b := inRange 64 (a + b)
  sub a b := inRange 64 (a - b)
  eq a b := a == b
  lt a b := decide (a < b)

/-- `hrtime_t`, with `duration_values<hrtime_t>`. Models uchrono.h:177-258. -/
def hrRep : Rep HrTime where
  zero := ⟨0, 0⟩
  min := ⟨-2 ^ 63, nanoDen - 1⟩
  max := ⟨2 ^ 63 - 1, nanoDen - 1⟩
  neg := HrTime.neg
  inc := HrTime.inc
  dec := HrTime.dec
  add := HrTime.add
  sub := HrTime.sub
  eq := HrTime.eq
  lt := HrTime.lt

/-- A `duration`. Models uchrono.h:48-71, 129-131. -/
structure Dur (α : Type) where
  count : α
deriving DecidableEq, Repr

variable {α : Type}

/-- `operator- ()`. Models uchrono.h:73. -/
def Dur.neg (R : Rep α) (d : Dur α) : Option (Dur α) := (R.neg d.count).map Dur.mk
/-- `++d`: the new value of `d`, which is the result. Models uchrono.h:74. -/
def Dur.preInc (R : Rep α) (d : Dur α) : Option (Dur α × Dur α) := (R.inc d.count).map fun c => (⟨c⟩, ⟨c⟩)
/-- `d++`: the result and the new value of `d`. Models uchrono.h:75. -/
def Dur.postInc (R : Rep α) (d : Dur α) : Option (Dur α × Dur α) := (R.inc d.count).map fun c => (⟨d.count⟩, ⟨c⟩)
/-- `--d`. Models uchrono.h:76. -/
def Dur.preDec (R : Rep α) (d : Dur α) : Option (Dur α × Dur α) := (R.dec d.count).map fun c => (⟨c⟩, ⟨c⟩)
/-- `d--`. Models uchrono.h:77. -/
def Dur.postDec (R : Rep α) (d : Dur α) : Option (Dur α × Dur α) := (R.dec d.count).map fun c => (⟨d.count⟩, ⟨c⟩)
/-- `operator+`, `operator+=`. Models uchrono.h:78, 82. -/
def Dur.add (R : Rep α) (a b : Dur α) : Option (Dur α) := (R.add a.count b.count).map Dur.mk
/-- `operator-`, `operator-=`. Models uchrono.h:79, 83. -/
def Dur.sub (R : Rep α) (a b : Dur α) : Option (Dur α) := (R.sub a.count b.count).map Dur.mk
/-- `operator*=` of an integer duration. Models uchrono.h:80. -/
def Dur.mul (d : Dur Int) (v : Int) : Option (Dur Int) := (inRange 64 (d.count * v)).map Dur.mk
/-- `operator/=` of an integer duration. Models uchrono.h:81. -/
def Dur.div (d : Dur Int) (v : Int) : Option (Dur Int) :=
  if v = 0 then none else (inRange 64 (d.count.tdiv v)).map Dur.mk
/-- `operator%=` by a number, or by the count of a duration; the remainder of the least number by -1 is undefined as the
quotient is. Models uchrono.h:86-89. -/
def Dur.mod (d : Dur Int) (v : Int) : Option (Dur Int) :=
  if v = 0 then none else (inRange 64 (d.count.tdiv v)).map fun _ => ⟨d.count.tmod v⟩
/-- `operator==`. Models uchrono.h:91. -/
def Dur.eq (R : Rep α) (a b : Dur α) : Bool := R.eq a.count b.count
/-- `operator<`. Models uchrono.h:92. -/
def Dur.lt (R : Rep α) (a b : Dur α) : Bool := R.lt a.count b.count

/-- The implicit conversion of an integer duration of period `p` to one of period `q`: it is enabled if
`ratio_divide<p,q>::den` is 1. Models uchrono.h:60-65. -/
def Dur.convert (p q : Ratio) (d : Dur Int) : Option (Dur Int) :=
  match ratioDiv p q with
  | none => none
  | some k => if k.den = 1 then (durationCast 64 p q d.count).map Dur.mk else none

/-- A `time_point`. Models uchrono.h:287-298, 319-321. -/
structure TimePoint (α : Type) where
  since : Dur α
deriving DecidableEq, Repr

/-- `operator+`, `operator+=` of a duration. Models uchrono.h:299, 302. -/
def TimePoint.add (R : Rep α) (t : TimePoint α) (d : Dur α) : Option (TimePoint α) := (t.since.add R d).map TimePoint.mk
/-- `operator-`, `operator-=` of a duration. Models uchrono.h:300-301. -/
def TimePoint.sub (R : Rep α) (t : TimePoint α) (d : Dur α) : Option (TimePoint α) := (t.since.sub R d).map TimePoint.mk
/-- `operator-` of a time point. Models uchrono.h:303-305. -/
def TimePoint.diff (R : Rep α) (t u : TimePoint α) : Option (Dur α) := t.since.sub R u.since
/-- `operator==`. Models uchrono.h:306-308. -/
def TimePoint.eq (R : Rep α) (t u : TimePoint α) : Bool := t.since.eq R u.since
/-- `operator<`. Models uchrono.h:309-311. -/
def TimePoint.lt (R : Rep α) (t u : TimePoint α) : Bool := t.since.lt R u.since
/-- The implicit conversion from a time point with another duration. Models uchrono.h:295-297. -/
def TimePoint.convert (p q : Ratio) (t : TimePoint Int) : Option (TimePoint Int) := (t.since.convert p q).map TimePoint.mk
/-- `operator-` of a time point of another period, which is converted to the period of the left one.
Models uchrono.h:303-305, 60-65. -/
def TimePoint.diffFrom (p q : Ratio) (t : TimePoint Int) (u : TimePoint Int) : Option (Dur Int) :=
  (u.since.convert p q).bind fun d => t.since.sub intRep d
/-- `operator<` with a time point of another period. Models uchrono.h:309-311, 60-65. -/
def TimePoint.ltFrom (p q : Ratio) (t : TimePoint Int) (u : TimePoint Int) : Option Bool :=
  (u.since.convert p q).map fun d => t.since.lt intRep d
/-- `operator==` with a time point of another period. Models uchrono.h:306-308, 60-65. -/
def TimePoint.eqFrom (p q : Ratio) (t : TimePoint Int) (u : TimePoint Int) : Option Bool :=
  (u.since.convert p q).map fun d => t.since.eq intRep d
/-- `time_point_cast`. Models uchrono.h:282-284. -/
def TimePoint.cast (p q : Ratio) (t : TimePoint Int) : Option (TimePoint Int) :=
  (durationCast 64 p q t.since.count).map fun c => ⟨⟨c⟩⟩

/-! ## Units -/

/-- The named durations. -/
inductive TUnit
  | ns | us | ms | s | min | h | d | w | months | years | centuries | millenia
deriving DecidableEq, Repr

/-- `minutes::period::num`. Models uchrono.h:147. -/
def minuteNum : Int := 60
/-- `hours::period::num`. Models uchrono.h:148. -/
def hourNum : Int := minuteNum * 60
/-- `days::period::num`. Models uchrono.h:149. -/
def dayNum : Int := hourNum * 24
/-- `weeks::period::num`. Models uchrono.h:150. -/
def weekNum : Int := dayNum * 7
/-- `years::period::num`. Models uchrono.h:151. -/
def yearNum : Int := 365 * dayNum + dayNum.tdiv 4
/-- `months::period::num`. Models uchrono.h:152. -/
def monthNum : Int := yearNum.tdiv 12

/-- The periods. Models uchrono.h:143-154, uratio.h:105-107. -/
def TUnit.period : TUnit → Ratio
  | .ns => nano
  | .us => ⟨1, 1000000⟩
  | .ms => ⟨1, 1000⟩
  | .s => ⟨1, 1⟩
  | .min => ⟨minuteNum, 1⟩
  | .h => ⟨hourNum, 1⟩
  | .d => ⟨dayNum, 1⟩
  | .w => ⟨weekNum, 1⟩
  | .months => ⟨monthNum, 1⟩
  | .years => ⟨yearNum, 1⟩
  | .centuries => ⟨yearNum * 100, 1⟩
  | .millenia => ⟨yearNum * 1000, 1⟩

/-- The suffixes of the texts. Models uchrono.h:160-171. -/
def TUnit.suffix : TUnit → List Byte
  | .ns => [95, 110, 115]
  | .us => [95, 117, 115]
  | .ms => [95, 109, 115]
  | .s => [95, 115]
  | .min => [95, 109, 105, 110]
  | .h => [95, 104, 111, 117, 114, 115]
  | .d => [95, 100, 97, 121, 115]
  | .w => [95, 119, 101, 101, 107, 115]
  | .months => [95, 109, 111, 110, 116, 104, 115]
  | .years => [95, 121, 101, 97, 114, 115]
  | .centuries => [95, 99, 101, 110, 116, 117, 114, 105, 101, 115]
  | .millenia => [95, 109, 105, 108, 108, 101, 110, 105, 97]

/-- `os << d` for a named duration: `os << r << suffix`. Models uchrono.h:133-138, 156-159. -/
def TUnit.textWrite (u : TUnit) (d : Dur Int) : Ustl.Stream.M Ustl.Text.TOS Unit := do
  Ustl.Text.writeInt ⟨64, true⟩ d.count
  Ustl.Text.write u.suffix

/-- What `format ("%ld.%09ld", tv_sec, tv_nsec)` prints. Models uchrono.h:246. -/
def HrTime.format (t : HrTime) : List Byte :=
  Ustl.Text.convPrint { bits := 64, conv := 100 } t.sec ++ [46] ++
  Ustl.Text.convPrint { zero := true, width := 9, bits := 64, conv := 100 } t.nsec

/-- `hrtime_t::text_write`. Models uchrono.h:246. -/
def HrTime.textWrite (t : HrTime) : Ustl.Stream.M Ustl.Text.TOS Unit := Ustl.Text.vformat t.format

/-! ## Clocks: `ts` is what `clock_gettime` stores, `t` what `time` returns -/

/-- `system_clock::to_time_t`. Models uchrono.h:339-340. -/
def systemToTimeT (tp : TimePoint Int) : Int := tp.since.count
/-- `system_clock::from_time_t`. Models uchrono.h:341-342. -/
def systemFromTimeT (t : Int) : TimePoint Int := ⟨⟨t⟩⟩
/-- `system_clock::now`. Models uchrono.h:343-344. -/
def systemNow (t : Int) : TimePoint Int := systemFromTimeT t
/-- `high_resolution_clock::now`. Models uchrono.h:368-372. -/
def highNow (ts : HrTime) : TimePoint HrTime := ⟨⟨ts⟩⟩
/-- `steady_clock::now`. Models uchrono.h:386-391. -/
def steadyNow (ts : HrTime) : Option (TimePoint Int) := (hrCast nano nano ts).map fun c => ⟨⟨c⟩⟩
/-- `system_clock_hr<Duration>::now` for a duration of period `q`. Models uchrono.h:406-411. -/
def systemHrNow (q : Ratio) (ts : HrTime) : Option (TimePoint Int) := (hrCast nano q ts).map fun c => ⟨⟨c⟩⟩

end Ustl.Chrono
