import Verif.Basic
/-!
# Type traits (uttraits.h, traits.h)

Traits are functions on types. The universe below is that of C++ types in canonical form: qualifiers sit on the object
type they qualify, those of an array on its elements, references and functions have none. Two types are the same type
exactly if they are equal here. The specialisations are those g++ sees (`__clang__` is not defined), with
`HAVE_THREE_CHAR_TYPES` and `HAVE_LONG_LONG`. Only C++14 types: no `noexcept` function types.
-/
namespace Ustl.Meta

/-- Fundamental types. -/
inductive Fund where
  | void | nullptr | bool | char | schar | uchar | wchar | char16 | char32
  | short | ushort | int | uint | long | ulong | llong | ullong | float | double | ldouble
deriving DecidableEq

/-- const and volatile. -/
structure CV where
  c : Bool := false
  v : Bool := false
deriving DecidableEq

/-- The ref-qualifier of a function type. -/
inductive RefQ where
  | no | lv | rv
deriving DecidableEq

/-- C++ types. Classes, enums and unions are told apart by a number; `nargs` and `args` are the number of parameters
of a function and what they are. `mem q c t` is `t c::*`. -/
inductive CTy where
  | fund (q : CV) (f : Fund)
  | enum (q : CV) (n : Nat)
  | cls (q : CV) (n : Nat)
  | union (q : CV) (n : Nat)
  | ptr (q : CV) (t : CTy)
  | mem (q : CV) (c : Nat) (t : CTy)
  | lref (t : CTy)
  | rref (t : CTy)
  | arr (t : CTy) (n : Nat)
  | uarr (t : CTy)
  | fn (ret : CTy) (nargs args : Nat) (variadic : Bool) (q : CV) (r : RefQ)
deriving DecidableEq

namespace CTy

/-! ### The language: what `T const`, `T volatile` match and make -/

/-- The top-level qualifiers; those of an array are its elements'. -/
def quals : CTy → CV
  | fund q _ | enum q _ | cls q _ | union q _ | ptr q _ | mem q _ _ => q
  | arr t _ | uarr t => quals t
  | _ => {}

/-- The same type with other top-level qualifiers, where it can have any. -/
def setQuals (q : CV) : CTy → CTy
  | fund _ f => fund q f
  | enum _ n => enum q n
  | cls _ n => cls q n
  | union _ n => union q n
  | ptr _ t => ptr q t
  | mem _ c t => mem q c t
  | arr t n => arr (setQuals q t) n
  | uarr t => uarr (setQuals q t)
  | t => t

/-- `T const`. -/
def const (t : CTy) : CTy := setQuals { t.quals with c := true } t
/-- `T volatile`. -/
def volatile (t : CTy) : CTy := setQuals { t.quals with v := true } t
/-- `T` where `T const` is the type. -/
def unconst (t : CTy) : CTy := setQuals { t.quals with c := false } t
/-- `T` where `T volatile` is the type. -/
def unvolatile (t : CTy) : CTy := setQuals { t.quals with v := false } t

/-- A function type with qualifiers, which only members can have: no pointers or references to it. -/
def abominable : CTy → Bool
  | fn _ _ _ _ q r => q.c || q.v || r ≠ .no
  | _ => false

/-- `T*`: there are no pointers to references or to qualified function types. -/
def star : CTy → Option CTy
  | lref _ | rref _ => none
  | t => if t.abominable then none else some (ptr {} t)

/-- `T&`, with the reference collapsing of templates; none to void or to qualified function types. -/
def amp : CTy → Option CTy
  | fund _ .void => none
  | lref t => some (lref t)
  | rref t => some (lref t)
  | t => if t.abominable then none else some (lref t)

/-- `T&&`. -/
def ampAmp : CTy → Option CTy
  | fund _ .void => none
  | lref t => some (lref t)
  | rref t => some (rref t)
  | t => if t.abominable then none else some (rref t)

end CTy
open CTy

/-! ### uttraits.h: modifications -/

/-- `remove_const_t<T>`. Models uttraits.h:51-53. -/
def removeConst (t : CTy) : CTy := if t.quals.c then t.unconst else t

/-- `remove_volatile_t<T>`. Models uttraits.h:55-57. -/
def removeVolatile (t : CTy) : CTy := if t.quals.v then t.unvolatile else t

/-- `remove_cv_t<T>`. Models uttraits.h:59-60. -/
def removeCv (t : CTy) : CTy := removeVolatile (removeConst t)

/-- `add_const_t<T>`. Models uttraits.h:62-64. -/
def addConst (t : CTy) : CTy := if t.quals.c then t.unconst.const else t.const

/-- `add_volatile_t<T>`. Models uttraits.h:69-71. -/
def addVolatile (t : CTy) : CTy := if t.quals.v then t.unvolatile.volatile else t.volatile

/-- `add_cv_t<T>`. Models uttraits.h:73-74. -/
def addCv (t : CTy) : CTy := addVolatile (addConst t)

/-- `remove_reference_t<T>`. Models uttraits.h:76-79. -/
def removeReference : CTy → CTy
  | .lref t => t
  | .rref t => t
  | t => t

/-- `remove_pointer_t<T>`: only a pointer that is not itself qualified matches. Models uttraits.h:81-83. -/
def removePointer : CTy → CTy
  | .ptr ⟨false, false⟩ t => t
  | t => t

/-- `add_pointer_t<T>`. Models uttraits.h:85-87. -/
def addPointer : CTy → Option CTy
  | .ptr ⟨false, false⟩ t => t.star
  | t => t.star

/-- `remove_extent_t<T>`. Models uttraits.h:89-92. -/
def removeExtent : CTy → CTy
  | .uarr t => t
  | .arr t _ => t
  | t => t

/-- `remove_all_extents_t<T>`. Models uttraits.h:94-97. -/
def removeAllExtents : CTy → CTy
  | .uarr t => removeAllExtents t
  | .arr t _ => removeAllExtents t
  | t => t

/-- `make_signed_t<T>`. Models uttraits.h:106-115. -/
def makeSigned : CTy → CTy
  | .fund ⟨false, false⟩ .char => .fund {} .schar
  | .fund ⟨false, false⟩ .uchar => .fund {} .schar
  | .fund ⟨false, false⟩ .ushort => .fund {} .short
  | .fund ⟨false, false⟩ .uint => .fund {} .int
  | .fund ⟨false, false⟩ .ulong => .fund {} .long
  | .fund ⟨false, false⟩ .ullong => .fund {} .llong
  | t => t

/-- `make_unsigned_t<T>`. Models uttraits.h:117-126. -/
def makeUnsigned : CTy → CTy
  | .fund ⟨false, false⟩ .char => .fund {} .uchar
  | .fund ⟨false, false⟩ .schar => .fund {} .uchar
  | .fund ⟨false, false⟩ .short => .fund {} .ushort
  | .fund ⟨false, false⟩ .int => .fund {} .uint
  | .fund ⟨false, false⟩ .long => .fund {} .ulong
  | .fund ⟨false, false⟩ .llong => .fund {} .ullong
  | t => t

/-! ### uttraits.h: categories -/

/-- The type is one of the listed fundamental types, unqualified: a series of `UNARY_TRAIT_TRUE`.
Models uttraits.h:43-46. -/
def isOneOf (fs : List Fund) : CTy → Bool
  | .fund ⟨false, false⟩ f => fs.contains f
  | _ => false

/-- `is_void`. Models uttraits.h:143-145. -/
def isVoid (t : CTy) : Bool := isOneOf [.void] (removeCv t)

/-- `is_integral`. Models uttraits.h:147-165. -/
def isIntegral (t : CTy) : Bool :=
  isOneOf [.char, .schar, .short, .int, .long, .uchar, .ushort, .uint, .ulong, .llong, .ullong, .wchar, .bool]
    (removeCv t)

/-- `is_signed`. Models uttraits.h:167-174. -/
def isSigned (t : CTy) : Bool := isOneOf [.char, .wchar, .short, .int, .long, .llong] (removeCv t)

/-- `is_floating_point`. Models uttraits.h:176-180. -/
def isFloatingPoint (t : CTy) : Bool := isOneOf [.float, .double, .ldouble] (removeCv t)

/-- `is_pointer`. Models uttraits.h:182-184. -/
def isPointer (t : CTy) : Bool := match removeCv t with
  | .ptr ⟨false, false⟩ _ => true
  | _ => false

/-- `is_member_pointer`. Models uttraits.h:186-188. -/
def isMemberPointer (t : CTy) : Bool := match removeCv t with
  | .mem ⟨false, false⟩ _ _ => true
  | _ => false

/-- `is_member_function_pointer`: function types without qualifiers match. Models uttraits.h:190-197. -/
def isMemberFunctionPointer (t : CTy) : Bool := match removeCv t with
  | .mem ⟨false, false⟩ _ (.fn _ _ _ false ⟨false, false⟩ .no) => true
  | .mem ⟨false, false⟩ _ (.fn _ _ _ true ⟨false, false⟩ .no) => true
  | _ => false

/-- `is_unsigned`. Models uttraits.h:201. -/
def isUnsigned (t : CTy) : Bool := !isSigned t

/-- `is_member_object_pointer`. Models uttraits.h:202. -/
def isMemberObjectPointer (t : CTy) : Bool := isMemberPointer t && !isMemberFunctionPointer t

/-- `is_lvalue_reference`. Models uttraits.h:205-206. -/
def isLvalueReference : CTy → Bool
  | .lref _ => true
  | _ => false

/-- `is_rvalue_reference`. Models uttraits.h:207-208. -/
def isRvalueReference : CTy → Bool
  | .rref _ => true
  | _ => false

/-- `is_reference`. Models uttraits.h:210. -/
def isReference (t : CTy) : Bool := isLvalueReference t || isRvalueReference t

/-- `is_array`. Models uttraits.h:204, 212-213. -/
def isArray : CTy → Bool
  | .uarr _ => true
  | .arr _ _ => true
  | _ => false

/-- `is_union`, the compiler's `__is_union`. Models uttraits.h:215. -/
def isUnion : CTy → Bool
  | .union _ _ => true
  | _ => false

/-- `is_class`, the compiler's `__is_class`. Models uttraits.h:216. -/
def isClass : CTy → Bool
  | .cls _ _ => true
  | _ => false

/-- `is_enum`, the compiler's `__is_enum`. Models uttraits.h:217. -/
def isEnum : CTy → Bool
  | .enum _ _ => true
  | _ => false

/-- The specialisations of `is_function`: ellipsis, const, volatile, ref-qualifier. Models uttraits.h:220-243, line by
line. -/
def fnForms : List (Bool × Bool × Bool × RefQ) :=
  [(false, false, false, .no), (false, false, false, .lv), (false, false, false, .rv),
   (true, false, false, .no), (true, false, false, .lv), (true, false, false, .rv),
   (false, true, false, .no), (false, true, false, .lv), (false, true, false, .rv),
   (true, true, false, .no), (true, true, false, .lv), (true, true, false, .rv),
   (false, false, true, .no), (false, false, true, .lv), (false, false, true, .rv),
   (true, false, true, .no), (true, false, true, .lv), (true, false, true, .rv),
   (false, true, true, .no), (false, true, true, .lv), (false, true, true, .rv),
   (true, true, true, .no), (true, true, true, .lv), (true, true, true, .rv)]

/-- `is_function`. Models uttraits.h:219-243. -/
def isFunction : CTy → Bool
  | .fn _ _ _ e q r => fnForms.contains (e, q.c, q.v, r)
  | _ => false

/-- `is_object`. Models uttraits.h:245. -/
def isObject (t : CTy) : Bool := !isReference t && !isVoid t && !isFunction t

/-- `__is_referenceable`. Models uttraits.h:246-250. -/
def isReferenceable : CTy → Bool
  | .fn _ _ _ false ⟨false, false⟩ .no => true
  | .fn _ _ _ true ⟨false, false⟩ .no => true
  | t => isReference t || isObject t

/-- `is_arithmetic`. Models uttraits.h:255. -/
def isArithmetic (t : CTy) : Bool := isIntegral t || isFloatingPoint t

/-- `is_fundamental`. Models uttraits.h:256. -/
def isFundamental (t : CTy) : Bool := isArithmetic t || isVoid t

/-- `is_scalar`. Models uttraits.h:257. -/
def isScalar (t : CTy) : Bool := isArithmetic t || isEnum t || isPointer t || isMemberPointer t

/-- `is_compound`. Models uttraits.h:258. -/
def isCompound (t : CTy) : Bool := !isFundamental t

/-- `add_lvalue_reference_t<T>`. Models uttraits.h:260-263. -/
def addLvalueReference (t : CTy) : Option CTy := if isReferenceable t then t.amp else some t

/-- `add_rvalue_reference_t<T>`. Models uttraits.h:265-268. -/
def addRvalueReference (t : CTy) : Option CTy := if isReferenceable t then t.ampAmp else some t

/-- `is_const`. Models uttraits.h:276-277. -/
def isConst (t : CTy) : Bool := t.quals.c

/-- `is_volatile`. Models uttraits.h:278-279. -/
def isVolatile (t : CTy) : Bool := t.quals.v

/-- `rank<T>::value`. Models uttraits.h:305-307. -/
def rank : CTy → Nat
  | .uarr t => 1 + rank t
  | .arr t _ => 1 + rank t
  | _ => 0

/-- `extent<T, I>::value`. Models uttraits.h:309-311. -/
def extent : CTy → Nat → Nat
  | .uarr t, i => if i ≠ 0 then extent t (i - 1) else 0
  | .arr t n, i => if i ≠ 0 then extent t (i - 1) else n
  | _, _ => 0

/-- `__decay<T, is_array<T>, is_function<T>>::type`. Models uttraits.h:313-316. -/
def decayCases (t : CTy) : Bool → Bool → Option CTy
  | false, false => some (removeCv t)
  | true, false => (removeExtent t).star
  | false, true => addPointer t
  | true, true => none

/-- `decay_t<T>`. Models uttraits.h:317-318. -/
def decay (t : CTy) : Option CTy :=
  decayCases (removeReference t) (isArray (removeReference t)) (isFunction (removeReference t))

/-- `is_same<T, U>`. Models uttraits.h:428-429. -/
def isSame (t u : CTy) : Bool := if t = u then true else false

/-- `is_base_of<T, U>`: for other types it is the compiler's `__is_base_of`, given here as a relation `base` between
classes (by number). `none`: the specialisations for `<T, T>` and `<void, T>` are ambiguous. Models uttraits.h:489-493. -/
def isBaseOf (base : Nat → Nat → Bool) (t u : CTy) : Option Bool :=
  if t = .fund {} .void ∧ t = u then none
  else if t = u then some false
  else if t = .fund {} .void then some false
  else match t, u with
    | .cls _ a, .cls _ b => some (decide (a = b) || base a b)
    | _, _ => some false

/-! ### traits.h -/

/-- `NullType`: class number 0. Models typet.h:15. -/
def nullType : CTy := .cls {} 0

/-- `UnConst<T>::Result`, `isConst`. Models traits.h:192-194, 202. -/
def unConst : CTy → CTy × Bool
  | .lref t => if t.quals.c then (.lref t.unconst, true) else (.lref t, false)
  | .rref t => if t.quals.c then (.rref t.unconst, true) else (.rref t, false)
  | t => if t.quals.c then (t.unconst, true) else (t, false)

/-- `UnVolatile<T>::Result`, `isVolatile`. Models traits.h:195-197, 203. -/
def unVolatile : CTy → CTy × Bool
  | .lref t => if t.quals.v then (.lref t.unvolatile, true) else (.lref t, false)
  | .rref t => if t.quals.v then (.rref t.unvolatile, true) else (.rref t, false)
  | t => if t.quals.v then (t.unvolatile, true) else (t, false)

/-- `UnqualifiedType`. Models traits.h:212-213. -/
def unqualified (t : CTy) : CTy := (unVolatile (unConst t).1).1

/-- `ReferenceTraits<T>`: result, lvalue, rvalue, ReferredType. Models traits.h:182-183, 199. -/
def referenceTraits : CTy → Bool × Bool × Bool × CTy
  | .lref t => (true, true, false, t)
  | .rref t => (true, false, true, t)
  | t => (false, true, false, t)

/-- `PointerTraits<T>`. Models traits.h:184-186, 200. -/
def pointerTraits : CTy → Bool × CTy
  | .ptr ⟨false, false⟩ t => (true, t)
  | .lref (.ptr ⟨false, false⟩ t) => (true, t)
  | .rref (.ptr ⟨false, false⟩ t) => (true, t)
  | _ => (false, nullType)

/-- `PToMTraits<T>`. Models traits.h:187-189, 201. -/
def pToM : CTy → Bool
  | .mem ⟨false, false⟩ _ _ => true
  | .lref (.mem ⟨false, false⟩ _ _) => true
  | .rref (.mem ⟨false, false⟩ _ _) => true
  | _ => false

/-- `IsFunctionPointerRaw`: no parameters, one to nine, with or without an ellipsis. Models traits.h:47-78. -/
def isFunctionPointerRaw : CTy → Bool
  | .ptr ⟨false, false⟩ (.fn _ nargs _ _ ⟨false, false⟩ .no) => decide (nargs ≤ 9)
  | _ => false

/-- `IsMemberFunctionPointerRaw`: as before, also for const member functions. Models traits.h:49-50, 80-126. -/
def isMemberFunctionPointerRaw : CTy → Bool
  | .mem ⟨false, false⟩ _ (.fn _ nargs _ _ ⟨_, false⟩ .no) => decide (nargs ≤ 9)
  | _ => false

/-- `AddPointer<T>::Result`. Models traits.h:25-26. -/
def addPointerTm : CTy → Option CTy
  | .lref t => t.star
  | t => t.star

/-- `AddReference<T>::Result`. Models traits.h:27-29. -/
def addReferenceTm : CTy → Option CTy
  | .lref t => some (.lref t)
  | .fund ⟨false, false⟩ .void => some nullType
  | t => t.amp

/-- `AddParameterType<T>::Result`. Models traits.h:30-32. -/
def addParameterType : CTy → Option CTy
  | .lref t => some (.lref t)
  | .fund ⟨false, false⟩ .void => some nullType
  | t => t.const.amp

/-- What `TypeTraits<T>` tells. -/
structure TT where
  nonConst : CTy
  nonVolatile : CTy
  unqual : CTy
  pointee : CTy
  referred : CTy
  isConst : Bool
  isVolatile : Bool
  isReference : Bool
  isLValue : Bool
  isRValue : Bool
  isFunction : Bool
  isFunctionPointer : Bool
  isMemberFunctionPointer : Bool
  isMemberPointer : Bool
  isPointer : Bool
  isStdUnsignedInt : Bool
  isStdSignedInt : Bool
  isStdIntegral : Bool
  isStdFloat : Bool
  isStdArith : Bool
  isStdFundamental : Bool
  isUnsigned : Bool
  isSigned : Bool
  parameter : CTy

/-- `tl::IndexOf<fs, UnqualifiedType>::value >= 0 || tl::IndexOf<fs, ReferredType>::value >= 0`; type lists are C88's
matter. Models traits.h:235-247. -/
def oneOfTm (fs : List Fund) (t : CTy) : Bool :=
  isOneOf fs (unqualified t) || isOneOf fs (referenceTraits (unqualified t)).2.2.2

/-- `StdUnsignedInts`. Models traits.h:18-19. -/
def stdUnsignedInts : List Fund := [.uchar, .ushort, .uint, .ulong]
/-- `StdSignedInts`. Models traits.h:20. -/
def stdSignedInts : List Fund := [.schar, .short, .int, .long]
/-- `StdOtherInts`. Models traits.h:21. -/
def stdOtherInts : List Fund := [.bool, .char, .wchar]
/-- `StdFloats`. Models traits.h:22. -/
def stdFloats : List Fund := [.float, .double]

/-- `TypeTraits<T>`, instantiated as a whole; `none`: it does not compile, because `AddPointer<T>` or
`AddParameterType<T>` does not. (`isUnsignedInt`, `isSignedInt`, `isIntegral`, `isFloat`, `isArith`, `isFundamental`
are the `isStd` ones again.) Models traits.h:177-263. -/
def typeTraits (t : CTy) : Option TT :=
  let unq := unqualified t
  let ref := (referenceTraits unq).2.2.2
  let fp := isFunctionPointerRaw ref
  let mfp := isMemberFunctionPointerRaw ref
  let mp := pToM ref || mfp
  let p := (pointerTraits ref).1 || fp
  let ui := oneOfTm stdUnsignedInts t
  let si := oneOfTm stdSignedInts t
  let i := ui || si || oneOfTm stdOtherInts t
  let f := oneOfTm stdFloats t
  match addPointerTm t, addParameterType t with
  | some ap, some par => some {
      nonConst := (unConst t).1
      nonVolatile := (unVolatile t).1
      unqual := unq
      pointee := (pointerTraits unq).2
      referred := (referenceTraits t).2.2.2
      isConst := (unConst t).2
      isVolatile := (unVolatile t).2
      isReference := (referenceTraits unq).1
      isLValue := (referenceTraits unq).2.1
      isRValue := (referenceTraits unq).2.2.1
      isFunction := isFunctionPointerRaw ap
      isFunctionPointer := fp
      isMemberFunctionPointer := mfp
      isMemberPointer := mp
      isPointer := p
      isStdUnsignedInt := ui
      isStdSignedInt := si
      isStdIntegral := i
      isStdFloat := f
      isStdArith := i || f
      isStdFundamental := (i || f) || f || decide (t = .fund {} .void)
      isUnsigned := ui || p
      isSigned := si || f
      parameter := if (i || f) || p || mp then t else par }
  | _, _ => none

end Ustl.Meta
