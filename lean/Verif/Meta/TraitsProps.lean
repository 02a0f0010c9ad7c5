import Verif.Meta.Traits
/-!
# C89, C90: type traits say what the standard's traits of the same name say
-/
namespace Ustl.Meta
open CTy

/-! ## Specification -/

/-- The primary type categories of the C++ standard. -/
inductive Cat where
  | void | null | integral | floating | array | enum | union | cls | function | pointer | lvalueRef | rvalueRef
  | memberObject | memberFunction
deriving DecidableEq

/-- The primary category of a type. -/
def category : CTy → Cat
  | .fund _ f => match f with
    | .void => .void
    | .nullptr => .null
    | .float | .double | .ldouble => .floating
    | _ => .integral
  | .enum _ _ => .enum
  | .cls _ _ => .cls
  | .union _ _ => .union
  | .ptr _ _ => .pointer
  | .mem _ _ (.fn ..) => .memberFunction
  | .mem _ _ _ => .memberObject
  | .lref _ => .lvalueRef
  | .rref _ => .rvalueRef
  | .arr _ _ | .uarr _ => .array
  | .fn .. => .function

/-- Whether values of an arithmetic type can be negative; of the types whose sign the implementation chooses, char and
wchar_t are signed on x86. -/
def Fund.signed : Fund → Bool
  | .char | .schar | .wchar | .short | .int | .long | .llong | .float | .double | .ldouble => true
  | _ => false

/-- Sizes on x86-64. -/
def Fund.size : Fund → Nat
  | .bool | .char | .schar | .uchar => 1
  | .char16 | .short | .ushort => 2
  | .wchar | .char32 | .int | .uint | .float => 4
  | .long | .ulong | .llong | .ullong | .double | .nullptr => 8
  | .ldouble => 16
  | .void => 0

/-- Types of which there can be arrays. -/
def Elem : CTy → Prop
  | .fund _ .void | .lref _ | .rref _ | .uarr _ | .fn .. => False
  | _ => True

/-- Types that exist. -/
def WF : CTy → Prop
  | .fund _ _ | .enum _ _ | .cls _ _ | .union _ _ => True
  | .ptr _ t => WF t ∧ category t ≠ .lvalueRef ∧ category t ≠ .rvalueRef ∧ t.abominable = false
  | .mem _ _ t => WF t ∧ category t ≠ .lvalueRef ∧ category t ≠ .rvalueRef ∧ category t ≠ .void
  | .lref t | .rref t => WF t ∧ category t ≠ .lvalueRef ∧ category t ≠ .rvalueRef ∧ category t ≠ .void ∧
      t.abominable = false
  | .arr t n => WF t ∧ Elem t ∧ 0 < n
  | .uarr t => WF t ∧ Elem t
  | .fn ret _ _ _ _ _ => WF ret ∧ category ret ≠ .array ∧ category ret ≠ .function

/-- An array of the given dimensions; `none` is `[]`. -/
def nest : List (Option Nat) → CTy → CTy
  | [], t => t
  | some n :: ds, t => .arr (nest ds t) n
  | none :: ds, t => .uarr (nest ds t)

/-! ## Qualifiers -/

theorem setQuals_setQuals (q r : CV) (t : CTy) : setQuals q (setQuals r t) = setQuals q t := by
  induction t <;> simp_all [setQuals]

theorem setQuals_quals (t : CTy) : setQuals t.quals t = t := by
  induction t <;> simp_all [setQuals, quals]

theorem quals_set_self (q : CV) (t : CTy) : (setQuals q t).quals = q ∨ (t.quals = {} ∧ ∀ r, setQuals r t = t) := by
  induction t with
  | arr t n ih =>
    rcases ih with h | ⟨h, g⟩
    · exact Or.inl h
    · exact Or.inr ⟨h, fun r => by simp [setQuals, g]⟩
  | uarr t ih =>
    rcases ih with h | ⟨h, g⟩
    · exact Or.inl h
    · exact Or.inr ⟨h, fun r => by simp [setQuals, g]⟩
  | _ => simp [setQuals, quals]

theorem removeConst_eq (t : CTy) : removeConst t = t.unconst := by
  unfold removeConst unconst
  split
  · rfl
  · next h =>
    have : ({ t.quals with c := false } : CV) = t.quals := by
      cases hq : t.quals with
      | mk c v => rw [hq] at h; simp at h; subst h; rfl
    rw [this, setQuals_quals]

theorem removeVolatile_eq (t : CTy) : removeVolatile t = t.unvolatile := by
  unfold removeVolatile unvolatile
  split
  · rfl
  · next h =>
    have : ({ t.quals with v := false } : CV) = t.quals := by
      cases hq : t.quals with
      | mk c v => rw [hq] at h; simp at h; subst h; rfl
    rw [this, setQuals_quals]

theorem removeCv_eq (t : CTy) : removeCv t = setQuals {} t := by
  unfold removeCv
  rw [removeConst_eq, removeVolatile_eq]
  unfold unvolatile unconst
  rw [setQuals_setQuals]
  rcases quals_set_self ({ t.quals with c := false }) t with h | ⟨h, g⟩
  · rw [h]
  · rw [g, g]

/-- Types that can be qualified: all but references and functions (and, formally, arrays of these). -/
def Qualifiable (t : CTy) : Prop := ∀ q, (setQuals q t).quals = q

theorem elem_cat {t : CTy} (h : Elem t) :
    category t ≠ .lvalueRef ∧ category t ≠ .rvalueRef ∧ category t ≠ .function := by
  cases t with
  | fund q f => cases f <;> simp [category]
  | mem q c t => cases t <;> simp [category]
  | _ => first | exact absurd h id | simp [category]

theorem qualifiable_of_not (t : CTy) (h : WF t) (h1 : category t ≠ .lvalueRef) (h2 : category t ≠ .rvalueRef)
    (h3 : category t ≠ .function) : Qualifiable t := by
  induction t with
  | arr t n ih =>
    obtain ⟨g1, g2, g3⟩ := elem_cat h.2.1
    intro q
    exact ih h.1 g1 g2 g3 q
  | uarr t ih =>
    obtain ⟨g1, g2, g3⟩ := elem_cat h.2
    intro q
    exact ih h.1 g1 g2 g3 q
  | lref => simp [category] at h1
  | rref => simp [category] at h2
  | fn => simp [category] at h3
  | _ => intro q; rfl

/-- **C89** `remove_const`, `remove_volatile`, `remove_cv`: the qualifiers named are gone, the other is kept, and
putting back what was there gives the type again. -/
theorem remove_cv_spec (t : CTy) :
    (removeConst t).quals = { t.quals with c := false } ∧
    (removeVolatile t).quals = { t.quals with v := false } ∧
    (removeCv t).quals = {} ∧
    (isConst t = true → (removeConst t).const = t) ∧ (isConst t = false → removeConst t = t) ∧
    (isVolatile t = true → (removeVolatile t).volatile = t) ∧ (isVolatile t = false → removeVolatile t = t) ∧
    setQuals t.quals (removeCv t) = t := by
  have hz : ∀ q : CV, (t.quals = {} → q = {}) → (setQuals q t).quals = q := by
    intro q h
    rcases quals_set_self q t with g | ⟨g, g'⟩
    · exact g
    · rw [g', h g, g]
  have hc : (removeConst t).quals = { t.quals with c := false } := by
    rw [removeConst_eq]; exact hz _ fun e => by rw [e]
  have hv : (removeVolatile t).quals = { t.quals with v := false } := by
    rw [removeVolatile_eq]; exact hz _ fun e => by rw [e]
  refine ⟨hc, hv, ?_, ?_, ?_, ?_, ?_, ?_⟩
  · rw [removeCv_eq]; exact hz _ fun _ => rfl
  · intro h
    unfold CTy.const
    rw [hc, removeConst_eq, unconst, setQuals_setQuals]
    have : ({ ({ t.quals with c := false } : CV) with c := true } : CV) = t.quals := by
      cases hq : t.quals with
      | mk c v => rw [isConst, hq] at h; simp at h; subst h; rfl
    rw [this, setQuals_quals]
  · intro h
    unfold removeConst
    unfold isConst at h
    rw [h]; rfl
  · intro h
    unfold CTy.volatile
    rw [hv, removeVolatile_eq, unvolatile, setQuals_setQuals]
    have : ({ ({ t.quals with v := false } : CV) with v := true } : CV) = t.quals := by
      cases hq : t.quals with
      | mk c v => rw [isVolatile, hq] at h; simp at h; subst h; rfl
    rw [this, setQuals_quals]
  · intro h
    unfold removeVolatile
    unfold isVolatile at h
    rw [h]; rfl
  · rw [removeCv_eq, setQuals_setQuals, setQuals_quals]

/-- **C89** `add_const`, `add_volatile`, `add_cv`: an object type has the qualifiers added and is otherwise unchanged;
references and functions stay as they are. -/
theorem add_cv_spec (t : CTy) (h : WF t) :
    (category t = .lvalueRef ∨ category t = .rvalueRef ∨ category t = .function →
      addConst t = t ∧ addVolatile t = t ∧ addCv t = t) ∧
    (category t ≠ .lvalueRef → category t ≠ .rvalueRef → category t ≠ .function →
      ((addConst t).quals = { t.quals with c := true } ∧ removeCv (addConst t) = removeCv t) ∧
      ((addVolatile t).quals = { t.quals with v := true } ∧ removeCv (addVolatile t) = removeCv t) ∧
      ((addCv t).quals = ⟨true, true⟩ ∧ removeCv (addCv t) = removeCv t)) := by
  constructor
  · intro hcat
    have hid : t.quals = {} ∧ ∀ q, setQuals q t = t := by
      cases t with
      | fund q f => cases f <;> simp [category] at hcat
      | mem q c t => cases t <;> simp [category] at hcat
      | lref t => exact ⟨rfl, fun _ => rfl⟩
      | rref t => exact ⟨rfl, fun _ => rfl⟩
      | fn => exact ⟨rfl, fun _ => rfl⟩
      | _ => simp [category] at hcat
    have h1 : addConst t = t := by simp [addConst, CTy.const, hid.1, hid.2]
    have h2 : addVolatile t = t := by simp [addVolatile, CTy.volatile, hid.1, hid.2]
    exact ⟨h1, h2, by rw [addCv, h1, h2]⟩
  · intro g1 g2 g3
    have hq := qualifiable_of_not t h g1 g2 g3
    have h1 : addConst t = setQuals { t.quals with c := true } t := by
      unfold addConst CTy.const unconst
      split
      · rw [setQuals_setQuals, hq]
      · rfl
    have h2 : ∀ u, (∀ q, (setQuals q u).quals = q) → addVolatile u = setQuals { u.quals with v := true } u := by
      intro u hu
      unfold addVolatile CTy.volatile unvolatile
      split
      · rw [setQuals_setQuals, hu]
      · rfl
    have h3 : addCv t = setQuals ⟨true, true⟩ t := by
      rw [addCv, h1, h2 _ fun q => by rw [setQuals_setQuals, hq], setQuals_setQuals, hq]
    refine ⟨⟨by rw [h1, hq], by rw [h1, removeCv_eq, removeCv_eq, setQuals_setQuals]⟩,
      ⟨by rw [h2 t hq, hq], by rw [h2 t hq, removeCv_eq, removeCv_eq, setQuals_setQuals]⟩,
      by rw [h3, hq], by rw [h3, removeCv_eq, removeCv_eq, setQuals_setQuals]⟩

/-! ## Arrays -/

/-- **C89** the traits of arrays: `rank` counts the dimensions, `extent` tells each (0 for an unknown bound and beyond
the last), `remove_extent` removes the first and `remove_all_extents` all. -/
theorem extents_spec (ds : List (Option Nat)) (t : CTy) (ht : category t ≠ .array) :
    rank (nest ds t) = ds.length ∧
    (∀ i, extent (nest ds t) i = (ds[i]?.getD none).getD 0) ∧
    removeAllExtents (nest ds t) = t ∧
    (∀ d, removeExtent (nest (d :: ds) t) = nest ds t) ∧ removeExtent t = t ∧
    isArray (nest ds t) = !ds.isEmpty := by
  have hbase : rank t = 0 ∧ (∀ i, extent t i = 0) ∧ removeAllExtents t = t ∧ removeExtent t = t ∧
      isArray t = false := by
    cases t <;> simp_all [category, rank, extent, removeAllExtents, removeExtent, isArray]
  refine ⟨?_, ?_, ?_, ?_, hbase.2.2.2.1, ?_⟩
  · induction ds with
    | nil => exact hbase.1
    | cons d ds ih => cases d <;> simp [nest, rank, ih] <;> omega
  · induction ds with
    | nil => intro i; simp [nest, hbase.2.1 i]
    | cons d ds ih =>
      intro i
      cases i with
      | zero => cases d <;> simp [nest, extent]
      | succ i => cases d <;> simp [nest, extent, ih]
  · induction ds with
    | nil => exact hbase.2.2.1
    | cons d ds ih => cases d <;> simpa [nest, removeAllExtents] using ih
  · intro d; cases d <;> rfl
  · cases ds with
    | nil => exact hbase.2.2.2.2
    | cons d ds => cases d <;> rfl

/-- Every type is an array of a type that is not one: the theorem speaks of all types. -/
theorem nest_all (t : CTy) : ∃ ds u, t = nest ds u ∧ category u ≠ .array := by
  induction t with
  | arr t n ih =>
    obtain ⟨ds, u, e, h⟩ := ih
    exact ⟨some n :: ds, u, by rw [nest, ← e], h⟩
  | uarr t ih =>
    obtain ⟨ds, u, e, h⟩ := ih
    exact ⟨none :: ds, u, by rw [nest, ← e], h⟩
  | fund q f => exact ⟨[], _, rfl, by cases f <;> simp [category]⟩
  | mem q c t => exact ⟨[], _, rfl, by cases t <;> simp [category]⟩
  | _ => exact ⟨[], _, rfl, by simp [category]⟩

/-! ## Categories -/

theorem removeCv_fund (q : CV) (f : Fund) : removeCv (.fund q f) = .fund {} f := by rw [removeCv_eq]; rfl
theorem removeCv_ptr (q : CV) (t : CTy) : removeCv (.ptr q t) = .ptr {} t := by rw [removeCv_eq]; rfl
theorem removeCv_mem (q : CV) (c : Nat) (t : CTy) : removeCv (.mem q c t) = .mem {} c t := by rw [removeCv_eq]; rfl

theorem isFunction_fn (ret : CTy) (n a : Nat) (e : Bool) (q : CV) (r : RefQ) :
    isFunction (.fn ret n a e q r) = true := by
  obtain ⟨c, v⟩ := q
  cases e <;> cases c <;> cases v <;> cases r <;> rfl

/-- The types for which g++'s branch of the header has no answer: `char16_t`, `char32_t`, `std::nullptr_t`, and
pointers to member functions that are qualified. -/
def Unlisted : CTy → Prop
  | .fund _ f => f = .char16 ∨ f = .char32 ∨ f = .nullptr
  | .mem _ _ (.fn _ _ _ _ q r) => q ≠ {} ∨ r ≠ .no
  | _ => False

/-- **C89 (partial)** the primary categories: each trait is true of exactly the types of its category, for all types
but the `Unlisted` ones (`category_violated`, `member_function_violated`). -/
theorem category_spec_partial (t : CTy) (h : ¬ Unlisted t) :
    isVoid t = decide (category t = .void) ∧
    isIntegral t = decide (category t = .integral) ∧
    isFloatingPoint t = decide (category t = .floating) ∧
    isArray t = decide (category t = .array) ∧
    isEnum t = decide (category t = .enum) ∧
    isUnion t = decide (category t = .union) ∧
    isClass t = decide (category t = .cls) ∧
    isFunction t = decide (category t = .function) ∧
    isPointer t = decide (category t = .pointer) ∧
    isLvalueReference t = decide (category t = .lvalueRef) ∧
    isRvalueReference t = decide (category t = .rvalueRef) ∧
    isMemberObjectPointer t = decide (category t = .memberObject) ∧
    isMemberFunctionPointer t = decide (category t = .memberFunction) := by
  cases t with
  | fund q f =>
    simp only [isVoid, isIntegral, isFloatingPoint, isPointer, isMemberObjectPointer, isMemberPointer,
      isMemberFunctionPointer, removeCv_fund]
    cases f <;> first
      | (refine ⟨?_, ?_, ?_, ?_, ?_, ?_, ?_, ?_, ?_, ?_, ?_, ?_, ?_⟩ <;> rfl)
      | (exact absurd (Or.inl rfl) h)
      | (exact absurd (Or.inr (Or.inl rfl)) h)
      | (exact absurd (Or.inr (Or.inr rfl)) h)
  | ptr q t =>
    simp only [isVoid, isIntegral, isFloatingPoint, isPointer, isMemberObjectPointer, isMemberPointer,
      isMemberFunctionPointer, removeCv_ptr]
    refine ⟨?_, ?_, ?_, ?_, ?_, ?_, ?_, ?_, ?_, ?_, ?_, ?_, ?_⟩ <;> rfl
  | mem q c t =>
    simp only [isVoid, isIntegral, isFloatingPoint, isPointer, isMemberObjectPointer, isMemberPointer,
      isMemberFunctionPointer, removeCv_mem]
    cases t with
    | fn ret n a e q r =>
      have h1 : q = {} := Classical.byContradiction fun g => h (Or.inl g)
      have h2 : r = .no := Classical.byContradiction fun g => h (Or.inr g)
      subst h1; subst h2
      cases e <;> (refine ⟨?_, ?_, ?_, ?_, ?_, ?_, ?_, ?_, ?_, ?_, ?_, ?_, ?_⟩ <;> rfl)
    | _ => refine ⟨?_, ?_, ?_, ?_, ?_, ?_, ?_, ?_, ?_, ?_, ?_, ?_, ?_⟩ <;> rfl
  | fn ret n a e q r =>
    rw [isFunction_fn]
    simp only [isVoid, isIntegral, isFloatingPoint, isPointer, isMemberObjectPointer, isMemberPointer,
      isMemberFunctionPointer, removeCv_eq]
    refine ⟨?_, ?_, ?_, ?_, ?_, ?_, ?_, ?_, ?_, ?_, ?_, ?_, ?_⟩ <;> rfl
  | _ =>
    simp only [isVoid, isIntegral, isFloatingPoint, isPointer, isMemberObjectPointer, isMemberPointer,
      isMemberFunctionPointer, removeCv_eq]
    refine ⟨?_, ?_, ?_, ?_, ?_, ?_, ?_, ?_, ?_, ?_, ?_, ?_, ?_⟩ <;> rfl

/-- **C89 (violated)** `char16_t`, `char32_t` and `std::nullptr_t` are in no category at all. -/
theorem category_violated (q : CV) (f : Fund) (h : f = .char16 ∨ f = .char32 ∨ f = .nullptr) :
    isVoid (.fund q f) = false ∧ isIntegral (.fund q f) = false ∧ isFloatingPoint (.fund q f) = false ∧
    isArray (.fund q f) = false ∧ isEnum (.fund q f) = false ∧ isUnion (.fund q f) = false ∧
    isClass (.fund q f) = false ∧ isFunction (.fund q f) = false ∧ isPointer (.fund q f) = false ∧
    isReference (.fund q f) = false ∧ isMemberPointer (.fund q f) = false := by
  simp only [isVoid, isIntegral, isFloatingPoint, isPointer, isMemberPointer, removeCv_fund]
  rcases h with rfl | rfl | rfl <;> (refine ⟨?_, ?_, ?_, ?_, ?_, ?_, ?_, ?_, ?_, ?_, ?_⟩ <;> first | rfl | trivial)

/-- **C89 (violated)** a pointer to a const member function (or one qualified otherwise) passes for a pointer to a data
member. -/
theorem member_function_violated (q : CV) (c : Nat) (ret : CTy) (n a : Nat) (e : Bool) (fq : CV) (r : RefQ)
    (h : fq ≠ {} ∨ r ≠ .no) :
    isMemberObjectPointer (.mem q c (.fn ret n a e fq r)) = true ∧
    isMemberFunctionPointer (.mem q c (.fn ret n a e fq r)) = false := by
  simp only [isMemberObjectPointer, isMemberPointer, isMemberFunctionPointer, removeCv_mem]
  obtain ⟨fc, fv⟩ := fq
  cases e <;> cases fc <;> cases fv <;> cases r <;> first
    | exact ⟨rfl, rfl⟩
    | simp at h

/-- **C89 (partial)** the composite categories are the unions the standard makes of the primary ones, for the types of
`category_spec_partial`. -/
theorem composite_spec_partial (t : CTy) (h : ¬ Unlisted t) :
    (isReference t = true ↔ category t = .lvalueRef ∨ category t = .rvalueRef) ∧
    (isArithmetic t = true ↔ category t = .integral ∨ category t = .floating) ∧
    (isFundamental t = true ↔ category t = .integral ∨ category t = .floating ∨ category t = .void) ∧
    (isMemberPointer t = true ↔ category t = .memberObject ∨ category t = .memberFunction) ∧
    (isScalar t = true ↔ category t = .integral ∨ category t = .floating ∨ category t = .enum ∨
      category t = .pointer ∨ category t = .memberObject ∨ category t = .memberFunction) ∧
    (isObject t = true ↔ ¬ (category t = .lvalueRef ∨ category t = .rvalueRef ∨ category t = .void ∨
      category t = .function)) ∧
    (isCompound t = true ↔ ¬ (category t = .integral ∨ category t = .floating ∨ category t = .void)) := by
  obtain ⟨h1, h2, h3, h4, h5, h6, h7, h8, h9, h10, h11, h12, h13⟩ := category_spec_partial t h
  have hmp : isMemberPointer t = (isMemberObjectPointer t || isMemberFunctionPointer t) := by
    unfold isMemberObjectPointer
    cases hf : isMemberFunctionPointer t with
    | false => simp
    | true =>
      unfold isMemberFunctionPointer at hf
      unfold isMemberPointer
      split at hf <;> simp_all
  have hn : isMemberPointer t = decide (category t = .memberObject ∨ category t = .memberFunction) := by
    rw [hmp, h12, h13]; simp
  unfold isScalar isObject isCompound isFundamental isArithmetic isReference
  rw [hn, h1, h2, h3, h5, h8, h9, h10, h11]
  generalize category t = k
  cases k <;> simp

/-- **C89 (violated)** `std::nullptr_t` is a compound type, not a scalar one; `char16_t` is compound as well. -/
theorem composite_violated (q : CV) :
    isCompound (.fund q .nullptr) = true ∧ isScalar (.fund q .nullptr) = false ∧
    isCompound (.fund q .char16) = true ∧ isArithmetic (.fund q .char16) = false := by
  simp only [isCompound, isFundamental, isScalar, isArithmetic, isVoid, isIntegral, isFloatingPoint, isPointer,
    isMemberPointer, removeCv_fund]
  exact ⟨rfl, rfl, rfl, rfl⟩

/-! ## Signs -/

/-- **C89 (partial)** `is_signed` is true of the arithmetic types whose values can be negative and of no other type;
but for `signed char` and the floating point types (`is_signed_violated`). `is_unsigned` is its opposite on arithmetic
types. -/
theorem is_signed_spec_partial :
    (∀ q f, f ≠ .schar → f ≠ .float → f ≠ .double → f ≠ .ldouble → isSigned (.fund q f) = f.signed) ∧
    (∀ t, (∀ q f, t ≠ .fund q f) → isSigned t = false) ∧
    (∀ q f, f ≠ .schar → category (.fund q f) = .integral → isUnsigned (.fund q f) = !f.signed) := by
  refine ⟨?_, ?_, ?_⟩
  · intro q f h1 h2 h3 h4
    simp only [isSigned, removeCv_fund]
    cases f <;> first | rfl | simp at h1 h2 h3 h4
  · intro t h
    simp only [isSigned, removeCv_eq]
    cases t with
    | fund q f => exact absurd rfl (h q f)
    | _ => rfl
  · intro q f h1 h2
    simp only [isUnsigned, isSigned, removeCv_fund]
    cases f <;> first | rfl | (exact absurd rfl h1) | (simp [category] at h2)

/-- **C89 (violated)** `signed char`, `float`, `double` and `long double` are not signed but unsigned. -/
theorem is_signed_violated (q : CV) (f : Fund) (h : f = .schar ∨ f = .float ∨ f = .double ∨ f = .ldouble) :
    f.signed = true ∧ isSigned (.fund q f) = false ∧ isUnsigned (.fund q f) = true := by
  simp only [isUnsigned, isSigned, removeCv_fund]
  rcases h with rfl | rfl | rfl | rfl <;> exact ⟨rfl, rfl, rfl⟩

/-- **C89 (violated)** every type that is not arithmetic is unsigned: void, classes, pointers, references... -/
theorem is_unsigned_violated (t : CTy) (h : category t ≠ .integral) : isUnsigned t = true := by
  unfold isUnsigned
  cases hs : isSigned t with
  | false => rfl
  | true =>
    simp only [isSigned, removeCv_eq] at hs
    cases t with
    | fund q f =>
      rw [show setQuals {} (.fund q f) = .fund {} f from rfl] at hs
      cases f <;> first | exact absurd rfl h | cases hs
    | _ => cases hs

/-- The standard integer types, and char. -/
def StdInt (f : Fund) : Prop :=
  f = .char ∨ f = .schar ∨ f = .uchar ∨ f = .short ∨ f = .ushort ∨ f = .int ∨ f = .uint ∨ f = .long ∨ f = .ulong ∨
  f = .llong ∨ f = .ullong

/-- **C89 (partial)** `make_signed` and `make_unsigned` of an unqualified integer type: an integer type of the same
size, not char, with the sign asked for; a type that already is one stays, and the two are inverse to each other.
Missing: qualified types, `wchar_t`, `char16_t`, `char32_t`, enumerations (`make_signed_violated`). -/
theorem make_signed_spec_partial (f : Fund) (h : StdInt f) :
    (∃ g, makeSigned (.fund {} f) = .fund {} g ∧ StdInt g ∧ g ≠ .char ∧ g.size = f.size ∧ g.signed = true ∧
      (f.signed = true → f ≠ .char → g = f) ∧
      (f.signed = false → makeUnsigned (.fund {} g) = .fund {} f)) ∧
    (∃ g, makeUnsigned (.fund {} f) = .fund {} g ∧ StdInt g ∧ g ≠ .char ∧ g.size = f.size ∧ g.signed = false ∧
      (f.signed = false → g = f) ∧
      (f.signed = true → f ≠ .char → makeSigned (.fund {} g) = .fund {} f)) := by
  rcases h with rfl | rfl | rfl | rfl | rfl | rfl | rfl | rfl | rfl | rfl | rfl <;>
    exact ⟨⟨_, rfl, by simp [StdInt], by simp, rfl, rfl, by simp [Fund.signed], by simp [Fund.signed, makeUnsigned]⟩,
      ⟨_, rfl, by simp [StdInt], by simp, rfl, rfl, by simp [Fund.signed], by simp [Fund.signed, makeSigned]⟩⟩

/-- **C89 (violated)** a qualified integer type is not changed at all; `make_unsigned<wchar_t>` is `wchar_t`, a signed
type; nor are enumerations changed. -/
theorem make_signed_violated :
    (∀ q f, q ≠ {} → makeSigned (.fund q f) = .fund q f ∧ makeUnsigned (.fund q f) = .fund q f) ∧
    (makeUnsigned (.fund {} .wchar) = .fund {} .wchar ∧ Fund.wchar.signed = true) ∧
    (∀ q n, makeSigned (.enum q n) = .enum q n ∧ makeUnsigned (.enum q n) = .enum q n) := by
  refine ⟨?_, ⟨rfl, rfl⟩, fun _ _ => ⟨rfl, rfl⟩⟩
  intro q f h
  obtain ⟨c, v⟩ := q
  cases c <;> cases v <;> first
    | exact absurd rfl h
    | (cases f <;> exact ⟨rfl, rfl⟩)

/-! ## References, pointers, decay -/

theorem star_ok {t : CTy} (h1 : category t ≠ .lvalueRef) (h2 : category t ≠ .rvalueRef) (h3 : t.abominable = false) :
    t.star = some (.ptr {} t) := by
  cases t <;> simp_all [star, category]

/-- **C89** `remove_reference` undoes a reference and leaves other types; `add_lvalue_reference` and
`add_rvalue_reference` exist for every type: void and qualified function types stay, references collapse. -/
theorem reference_spec (t : CTy) (h : WF t) :
    (removeReference (.lref t) = t ∧ removeReference (.rref t) = t) ∧
    (isReference t = false → removeReference t = t) ∧ isReference (removeReference t) = false ∧
    addLvalueReference t = some (
      if category t = .void ∨ t.abominable = true then t else .lref (removeReference t)) ∧
    addRvalueReference t = some (
      if category t = .void ∨ t.abominable = true then t
      else if category t = .lvalueRef then t else .rref (removeReference t)) := by
  refine ⟨⟨rfl, rfl⟩, ?_, ?_, ?_, ?_⟩
  · intro g
    cases t <;> first | rfl | cases g
  · cases t with
    | lref t => have := h; simp only [WF] at this; cases t <;> simp_all [category] <;> rfl
    | rref t => have := h; simp only [WF] at this; cases t <;> simp_all [category] <;> rfl
    | _ => rfl
  · cases t with
    | fund q f =>
      unfold addLvalueReference isReferenceable isObject isReference isVoid
      simp only [removeCv_fund]
      cases f <;> rfl
    | mem q c t =>
      unfold addLvalueReference isReferenceable isObject isReference isVoid
      simp only [removeCv_eq]
      cases t <;> rfl
    | fn ret n a e q r =>
      obtain ⟨c, v⟩ := q
      cases e <;> cases c <;> cases v <;> cases r <;> rfl
    | _ =>
      unfold addLvalueReference isReferenceable isObject isReference isVoid
      simp only [removeCv_eq]
      rfl
  · cases t with
    | fund q f =>
      unfold addRvalueReference isReferenceable isObject isReference isVoid
      simp only [removeCv_fund]
      cases f <;> rfl
    | mem q c t =>
      unfold addRvalueReference isReferenceable isObject isReference isVoid
      simp only [removeCv_eq]
      cases t <;> rfl
    | fn ret n a e q r =>
      obtain ⟨c, v⟩ := q
      cases e <;> cases c <;> cases v <;> cases r <;> rfl
    | _ =>
      unfold addRvalueReference isReferenceable isObject isReference isVoid
      simp only [removeCv_eq]
      rfl

/-- **C89 (partial)** `remove_pointer` undoes a pointer that is not qualified and leaves types that are no pointers;
`add_pointer` makes a pointer to any type that is neither a pointer nor a reference. Missing: qualified pointers
(`remove_pointer_violated`), pointers and references (`add_pointer_violated`). -/
theorem pointer_spec_partial (t : CTy) :
    (∀ p, t.star = some p → removePointer p = t) ∧
    (category t ≠ .pointer → removePointer t = t) ∧
    (category t ≠ .pointer → category t ≠ .lvalueRef → category t ≠ .rvalueRef → t.abominable = false →
      addPointer t = some (.ptr {} t)) := by
  refine ⟨?_, ?_, ?_⟩
  · intro p h
    cases t <;> simp_all [star] <;> first | (subst h; rfl) | (obtain ⟨_, rfl⟩ := h; rfl)
  · intro h
    cases t <;> first | rfl | simp [category] at h
  · intro h1 h2 h3 h4
    have : addPointer t = t.star := by
      cases t <;> first | rfl | simp [category] at h1
    rw [this, star_ok h2 h3 h4]

/-- **C89 (violated)** `remove_pointer` does nothing to a pointer that is itself const or volatile. -/
theorem remove_pointer_violated (q : CV) (t : CTy) (h : q ≠ {}) : removePointer (.ptr q t) = .ptr q t := by
  obtain ⟨c, v⟩ := q
  cases c <;> cases v <;> first | exact absurd rfl h | rfl

theorem addPointer_abominable {u : CTy} (hu : u.abominable = true) : addPointer u = none := by
  cases u with
  | fn ret n a e q r =>
    show (if (CTy.fn ret n a e q r).abominable then none else some _) = none
    rw [if_pos hu]
  | _ => cases hu

/-- **C89 (violated)** `add_pointer` of a pointer type is that type, not a pointer to it; of a reference or a qualified
function type it does not exist. -/
theorem add_pointer_violated (t : CTy) (h : WF (.ptr {} t)) :
    addPointer (.ptr {} t) = some (.ptr {} t) ∧
    addPointer (.lref t) = none ∧ addPointer (.rref t) = none ∧
    ∀ u : CTy, u.abominable = true → addPointer u = none := by
  refine ⟨star_ok h.2.1 h.2.2.1 h.2.2.2, rfl, rfl, ?_⟩
  intro u hu
  exact addPointer_abominable hu

/-- **C89 (partial)** `decay` is the type of a by-value parameter: that of a reference is that of what it refers to;
an array becomes a pointer to its elements, a function a pointer to it, anything else loses its qualifiers. Missing:
qualified function types (`decay_violated`). -/
theorem decay_spec_partial (t : CTy) (h : WF t) (hr : isReference t = false) (ha : t.abominable = false) :
    (decay (.lref t) = decay t ∧ decay (.rref t) = decay t) ∧
    (∀ e n, t = .arr e n → decay t = some (.ptr {} e)) ∧
    (∀ e, t = .uarr e → decay t = some (.ptr {} e)) ∧
    (category t = .function → decay t = some (.ptr {} t)) ∧
    (category t ≠ .array → category t ≠ .function → ∃ u, decay t = some u ∧ u.quals = {} ∧ setQuals t.quals u = t) := by
  have hrr := (reference_spec t h).2.1 hr
  have hE : ∀ e, Elem e → e.star = some (.ptr {} e) := by
    intro e he
    obtain ⟨g1, g2, g3⟩ := elem_cat he
    refine star_ok g1 g2 ?_
    cases e <;> first | rfl | exact absurd he id
  refine ⟨?_, ?_, ?_, ?_, ?_⟩
  · have h1 : decay (.lref t) = decayCases t (isArray t) (isFunction t) := rfl
    have h2 : decay (.rref t) = decayCases t (isArray t) (isFunction t) := rfl
    have h3 : decay t = decayCases t (isArray t) (isFunction t) := by rw [decay, hrr]
    rw [h1, h2, h3]; exact ⟨rfl, rfl⟩
  · rintro e n rfl
    exact hE e h.2.1
  · rintro e rfl
    exact hE e h.2
  · intro hc
    cases t with
    | fn ret n a e q r =>
      unfold decay removeReference
      rw [isFunction_fn]
      exact star_ok (by simp [category]) (by simp [category]) ha
    | fund q f => cases f <;> simp [category] at hc
    | mem q c t => cases t <;> simp [category] at hc
    | _ => simp [category] at hc
  · intro h1 h2
    have ha' : isArray t = false := by cases t <;> first | rfl | simp [category] at h1
    have hf' : isFunction t = false := by cases t <;> first | rfl | simp [category] at h2
    refine ⟨removeCv t, ?_, (remove_cv_spec t).2.2.1, (remove_cv_spec t).2.2.2.2.2.2.2⟩
    unfold decay
    rw [hrr, ha', hf', decayCases]

/-- **C89 (violated)** `decay` of a qualified function type does not exist. -/
theorem decay_violated (t : CTy) (h : t.abominable = true) : decay t = none := by
  have hrr : removeReference t = t := by cases t <;> first | rfl | cases h
  have ha : isArray t = false := by cases t <;> first | rfl | cases h
  have hf : isFunction t = true := by
    cases t with
    | fn ret n a e q r => exact isFunction_fn ..
    | _ => cases h
  rw [decay, hrr, ha, hf, decayCases]
  exact addPointer_abominable h

/-- **C89** `is_same` tells whether two types are the same. -/
theorem is_same_spec (t u : CTy) : isSame t u = true ↔ t = u := by
  unfold isSame; split <;> simp_all

/-- **C89 (partial)** `is_base_of` of two different classes is derivation; types that are no classes have no bases. -/
theorem is_base_of_spec_partial (base : Nat → Nat → Bool) :
    (∀ q r a b, a ≠ b → isBaseOf base (.cls q a) (.cls r b) = some (base a b)) ∧
    ∀ t u, category t ≠ .cls → t ≠ .fund {} .void → isBaseOf base t u = some false := by
  constructor
  · intro q r a b h
    simp [isBaseOf, h]
  · intro t u h1 h2
    unfold isBaseOf
    rw [if_neg (fun g => h2 g.1), if_neg h2]
    split
    · rfl
    · cases t <;> first | rfl | simp [category] at h1

/-- **C89 (violated)** a class is not a base of itself, where the standard's trait says it is (unless the two differ
in qualifiers, then it is); `is_base_of<void, void>` does not compile. -/
theorem is_base_of_violated (base : Nat → Nat → Bool) (q : CV) (a : Nat) :
    isBaseOf base (.cls q a) (.cls q a) = some false ∧
    isBaseOf base (.cls ⟨true, false⟩ a) (.cls {} a) = some true ∧
    isBaseOf base (.fund {} .void) (.fund {} .void) = none := by
  simp [isBaseOf]

/-! ### The hypotheses are met -/

/-- `const int*[2][3]`: a type that exists, decays to a pointer to its rows, and is of rank 2. -/
def exArr : CTy := .arr (.arr (.ptr {} (.fund ⟨true, false⟩ .int)) 3) 2

example : WF exArr := by simp [exArr, WF, Elem, category, abominable]

example : rank exArr = 2 ∧ extent exArr 1 = 3 ∧ extent exArr 2 = 0 ∧
    removeAllExtents exArr = .ptr {} (.fund ⟨true, false⟩ .int) ∧
    decay (.lref exArr) = some (.ptr {} (.arr (.ptr {} (.fund ⟨true, false⟩ .int)) 3)) := by decide

example : ¬ Unlisted exArr ∧ isArray exArr = true ∧ isPointer exArr = false := ⟨id, rfl, rfl⟩

/-- `void (int) const` is a function type, and none of its pointers or references exist. -/
example : isFunction (.fn (.fund {} .void) 1 0 false ⟨true, false⟩ .no) = true ∧
    addLvalueReference (.fn (.fund {} .void) 1 0 false ⟨true, false⟩ .no) =
      some (.fn (.fund {} .void) 1 0 false ⟨true, false⟩ .no) := by decide

example : removeCv (.fund ⟨true, true⟩ .int) = .fund {} .int := by decide

end Ustl.Meta
