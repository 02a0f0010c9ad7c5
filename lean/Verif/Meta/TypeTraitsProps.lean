import Verif.Meta.TraitsProps
/-!
# C90: `TypeTraits<T>` tells what it is documented to tell
-/
namespace Ustl.Meta
open CTy

/-! ## Specification -/

/-- The type a reference refers to, or the type itself, without its qualifiers: what most of the traits look at. -/
def bare : CTy → CTy
  | .lref t | .rref t => setQuals {} t
  | t => setQuals {} t

/-- The qualifiers of a type or, if it is a reference, of what it refers to. -/
def refQuals : CTy → CV
  | .lref t | .rref t => t.quals
  | t => t.quals

/-- The same with other qualifiers. -/
def setRefQuals (q : CV) : CTy → CTy
  | .lref t => .lref (setQuals q t)
  | .rref t => .rref (setQuals q t)
  | t => setQuals q t

/-- The standard integer types as documented, but long long. -/
def Short (f : Fund) : Prop := f ≠ .llong ∧ f ≠ .ullong ∧ f ≠ .ldouble ∧ f ≠ .char16 ∧ f ≠ .char32

/-! ## Proofs -/

theorem unConst_eq (t : CTy) : unConst t = (setRefQuals { refQuals t with c := false } t, (refQuals t).c) := by
  have key : ∀ u : CTy, u.quals.c = false → setQuals { u.quals with c := false } u = u := by
    intro u h
    have : ({ u.quals with c := false } : CV) = u.quals := by
      cases hq : u.quals with
      | mk c v => rw [hq] at h; simp at h; subst h; rfl
    rw [this, setQuals_quals]
  cases t with
  | lref t =>
    cases h : t.quals.c with
    | true => simp [unConst, setRefQuals, refQuals, h, unconst]
    | false => simp [unConst, setRefQuals, refQuals, h, key t h]
  | rref t =>
    cases h : t.quals.c with
    | true => simp [unConst, setRefQuals, refQuals, h, unconst]
    | false => simp [unConst, setRefQuals, refQuals, h, key t h]
  | _ =>
    simp only [unConst, setRefQuals, refQuals]
    split
    · next h => rw [h]; rfl
    · next h => simp only [Bool.not_eq_true] at h; rw [key _ h, h]

theorem unVolatile_eq (t : CTy) : unVolatile t = (setRefQuals { refQuals t with v := false } t, (refQuals t).v) := by
  have key : ∀ u : CTy, u.quals.v = false → setQuals { u.quals with v := false } u = u := by
    intro u h
    have : ({ u.quals with v := false } : CV) = u.quals := by
      cases hq : u.quals with
      | mk c v => rw [hq] at h; simp at h; subst h; rfl
    rw [this, setQuals_quals]
  cases t with
  | lref t =>
    cases h : t.quals.v with
    | true => simp [unVolatile, setRefQuals, refQuals, h, unvolatile]
    | false => simp [unVolatile, setRefQuals, refQuals, h, key t h]
  | rref t =>
    cases h : t.quals.v with
    | true => simp [unVolatile, setRefQuals, refQuals, h, unvolatile]
    | false => simp [unVolatile, setRefQuals, refQuals, h, key t h]
  | _ =>
    simp only [unVolatile, setRefQuals, refQuals]
    split
    · next h => rw [h]; rfl
    · next h => simp only [Bool.not_eq_true] at h; rw [key _ h, h]

theorem setRef_setRef (q r : CV) (t : CTy) : setRefQuals q (setRefQuals r t) = setRefQuals q t := by
  cases t <;> simp [setRefQuals, setQuals_setQuals, setQuals]

theorem refQuals_set (q : CV) (t : CTy) :
    refQuals (setRefQuals q t) = q ∨ (refQuals t = {} ∧ ∀ r, setRefQuals r t = t) := by
  cases t with
  | lref t =>
    rcases quals_set_self q t with h | ⟨h, g⟩
    · exact Or.inl h
    · exact Or.inr ⟨h, fun r => by simp [setRefQuals, g]⟩
  | rref t =>
    rcases quals_set_self q t with h | ⟨h, g⟩
    · exact Or.inl h
    · exact Or.inr ⟨h, fun r => by simp [setRefQuals, g]⟩
  | arr t n =>
    rcases quals_set_self q t with h | ⟨h, g⟩
    · exact Or.inl h
    · exact Or.inr ⟨h, fun r => by simp [setRefQuals, setQuals, g]⟩
  | uarr t =>
    rcases quals_set_self q t with h | ⟨h, g⟩
    · exact Or.inl h
    · exact Or.inr ⟨h, fun r => by simp [setRefQuals, setQuals, g]⟩
  | _ => simp [setRefQuals, setQuals, refQuals, quals]

theorem unqualified_eq (t : CTy) : unqualified t = setRefQuals {} t := by
  unfold unqualified
  rw [unConst_eq, unVolatile_eq]
  simp only [setRef_setRef]
  rcases refQuals_set { refQuals t with c := false } t with h | ⟨_, g⟩
  · rw [h]
  · rw [g, g]

theorem referred_eq (t : CTy) (h : WF t) : (referenceTraits (unqualified t)).2.2.2 = bare t := by
  rw [unqualified_eq]
  cases t <;> rfl

/-- The unqualified type, or what it refers to, is the bare type. -/
theorem oneOfTm_eq (fs : List Fund) (t : CTy) (h : WF t) : oneOfTm fs t = isOneOf fs (bare t) := by
  unfold oneOfTm
  rw [referred_eq t h, unqualified_eq]
  cases t with
  | lref t => simp [setRefQuals, isOneOf]
  | rref t => simp [setRefQuals, isOneOf]
  | _ => simp [setRefQuals, bare]

theorem isOneOf_bare (fs : List Fund) (t : CTy) :
    isOneOf fs (bare t) = true ↔ ∃ f, bare t = .fund {} f ∧ f ∈ fs := by
  have : ∀ u, isOneOf fs (setQuals {} u) = true ↔ ∃ f, setQuals {} u = .fund {} f ∧ f ∈ fs := by
    intro u
    cases u <;> simp [setQuals, isOneOf]
  cases t <;> simp only [bare] <;> exact this _

/-- **C90 (partial)** `TypeTraits<T>` exists for every type that is not an rvalue reference, a qualified void or a
qualified function type (`type_traits_exists_violated`). -/
theorem type_traits_exists_partial (t : CTy) (h : WF t) (h1 : category t ≠ .rvalueRef)
    (h2 : category t = .void → t.quals = {}) (h3 : t.abominable = false) : ∃ r, typeTraits t = some r := by
  have hp : ∃ p, addPointerTm t = some p := by
    cases t with
    | lref t => exact ⟨_, star_ok h.2.1 h.2.2.1 h.2.2.2.2⟩
    | rref t => simp [category] at h1
    | fn ret n a e q r => exact ⟨_, star_ok (by simp [category]) (by simp [category]) h3⟩
    | _ => exact ⟨_, rfl⟩
  have ha : ∃ a, addParameterType t = some a := by
    cases t with
    | lref t => exact ⟨_, rfl⟩
    | rref t => simp [category] at h1
    | fund q f =>
      cases f with
      | void =>
        have : q = {} := h2 rfl
        subst this; exact ⟨_, rfl⟩
      | _ => obtain ⟨c, v⟩ := q; cases c <;> cases v <;> exact ⟨_, rfl⟩
    | fn ret n a e q r =>
      refine ⟨.lref (.fn ret n a e q r), ?_⟩
      show (if (CTy.fn ret n a e q r).abominable then none else some _) = _
      rw [if_neg (by rw [h3]; simp)]
      rfl
    | _ => exact ⟨_, rfl⟩
  obtain ⟨p, hp⟩ := hp
  obtain ⟨a, ha⟩ := ha
  unfold typeTraits
  rw [hp, ha]
  exact ⟨_, rfl⟩

/-- **C90 (violated)** `TypeTraits` of an rvalue reference, of const or volatile void and of a qualified function type
does not compile, although traits of rvalue references are declared. -/
theorem type_traits_exists_violated :
    (∀ t, typeTraits (.rref t) = none) ∧ (∀ q, q ≠ {} → typeTraits (.fund q .void) = none) ∧
    ∀ t : CTy, t.abominable = true → typeTraits t = none := by
  refine ⟨fun t => rfl, ?_, ?_⟩
  · intro q h
    obtain ⟨c, v⟩ := q
    cases c <;> cases v <;> first | exact absurd rfl h | rfl
  · intro t h
    have : addPointerTm t = none := by
      cases t with
      | fn ret n a e q r =>
        show (if (CTy.fn ret n a e q r).abominable then none else some _) = none
        rw [if_pos h]
      | _ => cases h
    unfold typeTraits
    rw [this]

/-- What `typeTraits` is when it exists. -/
theorem typeTraits_some {t : CTy} {r : TT} (e : typeTraits t = some r) :
    ∃ ap par, addPointerTm t = some ap ∧ addParameterType t = some par ∧
      r.nonConst = (unConst t).1 ∧ r.nonVolatile = (unVolatile t).1 ∧ r.unqual = unqualified t ∧
      r.pointee = (pointerTraits (unqualified t)).2 ∧ r.referred = (referenceTraits t).2.2.2 ∧
      r.isConst = (unConst t).2 ∧ r.isVolatile = (unVolatile t).2 ∧
      r.isReference = (referenceTraits (unqualified t)).1 ∧ r.isLValue = (referenceTraits (unqualified t)).2.1 ∧
      r.isRValue = (referenceTraits (unqualified t)).2.2.1 ∧ r.isFunction = isFunctionPointerRaw ap ∧
      r.isFunctionPointer = isFunctionPointerRaw (referenceTraits (unqualified t)).2.2.2 ∧
      r.isMemberFunctionPointer = isMemberFunctionPointerRaw (referenceTraits (unqualified t)).2.2.2 ∧
      r.isMemberPointer = (pToM (referenceTraits (unqualified t)).2.2.2 ||
        isMemberFunctionPointerRaw (referenceTraits (unqualified t)).2.2.2) ∧
      r.isPointer = ((pointerTraits (referenceTraits (unqualified t)).2.2.2).1 ||
        isFunctionPointerRaw (referenceTraits (unqualified t)).2.2.2) ∧
      r.isStdUnsignedInt = oneOfTm stdUnsignedInts t ∧ r.isStdSignedInt = oneOfTm stdSignedInts t ∧
      r.isStdIntegral = (oneOfTm stdUnsignedInts t || oneOfTm stdSignedInts t || oneOfTm stdOtherInts t) ∧
      r.isStdFloat = oneOfTm stdFloats t ∧ r.isStdArith = (r.isStdIntegral || r.isStdFloat) ∧
      r.isStdFundamental = (r.isStdArith || r.isStdFloat || decide (t = .fund {} .void)) ∧
      r.isUnsigned = (r.isStdUnsignedInt || r.isPointer) ∧ r.isSigned = (r.isStdSignedInt || r.isStdFloat) ∧
      r.parameter = if (r.isStdArith || r.isPointer || r.isMemberPointer) = true then t else par := by
  unfold typeTraits at e
  simp only at e
  split at e
  · next ap par h1 h2 =>
    cases e
    exact ⟨ap, par, h1, h2, rfl, rfl, rfl, rfl, rfl, rfl, rfl, rfl, rfl, rfl, rfl, rfl, rfl, rfl, rfl, rfl, rfl, rfl,
      rfl, rfl, rfl, rfl, rfl, rfl⟩
  · cases e

/-- **C90** qualifiers and references: `isConst` and `isVolatile` tell the qualifiers of the type or of what it refers
to, `NonConstType`, `NonVolatileType` and `UnqualifiedType` are the type (or reference) without them,
`isReference`, `isLValue`, `isRValue` tell the kind of reference, `ReferredType` of a reference is what it refers to. -/
theorem type_traits_quals_spec {t : CTy} {r : TT} (e : typeTraits t = some r) :
    (r.isConst = (refQuals t).c ∧ r.isVolatile = (refQuals t).v) ∧
    (r.nonConst = setRefQuals { refQuals t with c := false } t ∧
      r.nonVolatile = setRefQuals { refQuals t with v := false } t ∧ r.unqual = setRefQuals {} t) ∧
    (r.isReference = true ↔ category t = .lvalueRef) ∧ r.isLValue = true ∧ r.isRValue = false ∧
    (∀ u, t = .lref u → r.referred = u) := by
  obtain ⟨ap, par, h1, h2, g1, g2, g3, g4, g5, g6, g7, g8, g9, g10, _⟩ := typeTraits_some e
  have hr : category t ≠ .rvalueRef := by
    intro hc
    cases t with
    | rref t => cases h1
    | fund q f => cases f <;> simp [category] at hc
    | mem q c t => cases t <;> simp [category] at hc
    | _ => simp [category] at hc
  rw [g1, g2, g3, g5, g6, g7, g8, g9, g10, unConst_eq, unVolatile_eq, unqualified_eq]
  refine ⟨⟨rfl, rfl⟩, ⟨rfl, rfl, rfl⟩, ?_⟩
  cases t with
  | rref t => simp [category] at hr
  | fund q f => cases f <;> simp [setRefQuals, setQuals, referenceTraits, category]
  | mem q c t => cases t <;> simp [setRefQuals, setQuals, referenceTraits, category]
  | _ => simp [setRefQuals, setQuals, referenceTraits, category]

/-- **C90 (violated)** `ReferredType` of a type that is not a reference is that type, not `NullType` as documented. -/
theorem referred_type_violated {t : CTy} {r : TT} (e : typeTraits t = some r) (h : category t ≠ .lvalueRef) :
    r.referred = t := by
  obtain ⟨ap, par, h1, h2, g1, g2, g3, g4, g5, _⟩ := typeTraits_some e
  rw [g5]
  cases t with
  | rref t => cases h1
  | lref t => simp [category] at h
  | _ => rfl

/-- **C90** pointers, looking through a reference and qualifiers: `isPointer`, `PointeeType` (`NullType` if it is no
pointer), `isMemberPointer`; and `isFunctionPointer`, `isMemberFunctionPointer` are never true of anything else. -/
theorem type_traits_pointer_spec {t : CTy} {r : TT} (h : WF t) (e : typeTraits t = some r) :
    (r.isPointer = true ↔ category (bare t) = .pointer) ∧
    (∀ q u, bare t = .ptr q u → r.pointee = u) ∧ (category (bare t) ≠ .pointer → r.pointee = nullType) ∧
    (r.isMemberPointer = true ↔ category (bare t) = .memberObject ∨ category (bare t) = .memberFunction) ∧
    (r.isFunctionPointer = true → ∃ q u, bare t = .ptr q u ∧ category u = .function) ∧
    (r.isMemberFunctionPointer = true → category (bare t) = .memberFunction) := by
  obtain ⟨ap, par, h1, h2, g1, g2, g3, g4, g5, g6, g7, g8, g9, g10, g11, g12, g13, g14, g15, _⟩ := typeTraits_some e
  rw [g12, g13, g14, g15, g4, referred_eq t h, unqualified_eq]
  have key : ∀ u : CTy, (category u = .lvalueRef → False) → (category u = .rvalueRef → False) →
      (((pointerTraits (setQuals {} u)).1 || isFunctionPointerRaw (setQuals {} u)) = true ↔
        category (setQuals {} u) = .pointer) ∧
      (∀ q w, setQuals {} u = .ptr q w → (pointerTraits (setQuals {} u)).2 = w) ∧
      (category (setQuals {} u) ≠ .pointer → (pointerTraits (setQuals {} u)).2 = nullType) ∧
      ((pToM (setQuals {} u) || isMemberFunctionPointerRaw (setQuals {} u)) = true ↔
        category (setQuals {} u) = .memberObject ∨ category (setQuals {} u) = .memberFunction) ∧
      (isFunctionPointerRaw (setQuals {} u) = true → ∃ q w, setQuals {} u = .ptr q w ∧ category w = .function) ∧
      (isMemberFunctionPointerRaw (setQuals {} u) = true → category (setQuals {} u) = .memberFunction) := by
    intro u k1 k2
    cases u with
    | lref u => exact absurd rfl k1
    | rref u => exact absurd rfl k2
    | ptr q u =>
      simp only [setQuals]
      refine ⟨by simp [pointerTraits, category], ?_, by simp [category], by simp [pToM, isMemberFunctionPointerRaw, category],
        ?_, by simp [isMemberFunctionPointerRaw]⟩
      · rintro _ _ ⟨⟩; rfl
      · intro hf
        refine ⟨_, _, rfl, ?_⟩
        cases u <;> simp [isFunctionPointerRaw] at hf <;> rfl
    | mem q c u =>
      simp only [setQuals]
      cases u <;> simp [pointerTraits, isFunctionPointerRaw, pToM, isMemberFunctionPointerRaw, category]
    | fund q f =>
      cases f <;> simp [setQuals, pointerTraits, isFunctionPointerRaw, pToM, isMemberFunctionPointerRaw, category]
    | _ => simp [setQuals, pointerTraits, isFunctionPointerRaw, pToM, isMemberFunctionPointerRaw, category]
  cases t with
  | rref t => cases h1
  | lref t =>
    obtain ⟨a1, a2, a3, a4, a5, a6⟩ := key t h.2.1 h.2.2.1
    have hpt : (pointerTraits (.lref (setQuals {} t))).2 = (pointerTraits (setQuals {} t)).2 := by
      have := h.2.1
      have := h.2.2.1
      cases t with
      | lref => simp [category] at *
      | rref => simp [category] at *
      | _ => rfl
    simp only [bare, setRefQuals]
    rw [hpt]
    exact ⟨a1, a2, a3, a4, a5, a6⟩
  | mem q c t => exact key (.mem q c t) (by cases t <;> simp [category]) (by cases t <;> simp [category])
  | fund q f => exact key (.fund q f) (by cases f <;> simp [category]) (by cases f <;> simp [category])
  | _ => exact key _ (by simp [category]) (by simp [category])

/-- **C90 (partial)** functions of at most nine parameters are told from other types, and pointers to them too;
pointers to member functions of at most nine parameters, at most const. Missing: more parameters, volatile and
ref-qualified members (`function_violated`). -/
theorem type_traits_function_spec_partial {t : CTy} {r : TT} (h : WF t) (e : typeTraits t = some r) :
    (∀ ret n a el q rq, t = .fn ret n a el q rq → n ≤ 9 → r.isFunction = true) ∧
    (category t ≠ .function → category t ≠ .lvalueRef → r.isFunction = false) ∧
    (∀ q ret n a el fq rq, bare t = .ptr q (.fn ret n a el fq rq) → n ≤ 9 → r.isFunctionPointer = true) ∧
    (∀ q c ret n a el fc, bare t = .mem q c (.fn ret n a el ⟨fc, false⟩ .no) → n ≤ 9 →
      r.isMemberFunctionPointer = true) := by
  obtain ⟨ap, par, h1, h2, g1, g2, g3, g4, g5, g6, g7, g8, g9, g10, g11, g12, g13, _⟩ := typeTraits_some e
  rw [g11, g12, g13, referred_eq t h]
  refine ⟨?_, ?_, ?_, ?_⟩
  · rintro ret n a el q rq rfl hn
    have h1' : (if (CTy.fn ret n a el q rq).abominable then none else some (CTy.ptr {} (.fn ret n a el q rq))) = some ap := h1
    split at h1'
    · cases h1'
    · next hab =>
      cases h1'
      obtain ⟨c, v⟩ := q
      cases c <;> cases v <;> cases rq <;> first
        | (exact decide_eq_true hn)
        | exact absurd rfl hab
  · intro k1 k2
    cases t with
    | lref t => simp [category] at k2
    | fn => simp [category] at k1
    | rref t => cases h1
    | _ => cases h1; rfl
  · intro q ret n a el fq rq hb hn
    have hwf : (CTy.fn ret n a el fq rq).abominable = false ∧ q = {} := by
      cases t with
      | ptr q' t' =>
        simp only [bare, setQuals] at hb
        cases hb; exact ⟨h.2.2.2, rfl⟩
      | lref t =>
        cases t with
        | ptr q' t' =>
          simp only [bare, setQuals] at hb
          cases hb; exact ⟨h.1.2.2.2, rfl⟩
        | _ => simp [bare, setQuals] at hb
      | rref t => cases h1
      | _ => simp [bare, setQuals] at hb
    rw [hb, hwf.2]
    have := hwf.1
    obtain ⟨c, v⟩ := fq
    cases c <;> cases v <;> cases rq <;> first
      | (exact decide_eq_true hn)
      | (exact absurd this (by simp [abominable]))
  · intro q c ret n a el fc hb hn
    have hq : q = {} := by
      cases t with
      | mem q' c' t' => simp only [bare, setQuals] at hb; cases hb; rfl
      | lref t =>
        cases t with
        | mem q' c' t' => simp only [bare, setQuals] at hb; cases hb; rfl
        | _ => simp [bare, setQuals] at hb
      | rref t => cases h1
      | _ => simp [bare, setQuals] at hb
    rw [hb, hq]
    exact decide_eq_true hn

/-- **C90 (violated)** a function of ten or more parameters is not recognised as one, nor is a pointer to it
recognised as a function pointer; nor a pointer to a volatile member function. -/
theorem function_violated (ret : CTy) (n a : Nat) (e : Bool) (c : Nat) (hn : 10 ≤ n) :
    ((typeTraits (.fn ret n a e {} .no)).map (·.isFunction) = some false) ∧
    ((typeTraits (.ptr {} (.fn ret n a e {} .no))).map (·.isFunctionPointer) = some false) ∧
    ∀ m, (typeTraits (.mem {} c (.fn ret m a e ⟨false, true⟩ .no))).map (·.isMemberFunctionPointer) = some false := by
  have hd : decide (n ≤ 9) = false := decide_eq_false (by omega)
  refine ⟨?_, ?_, fun m => rfl⟩
  · show some (decide (n ≤ 9)) = _; rw [hd]
  · show some (decide (n ≤ 9)) = _; rw [hd]

/-- **C90 (partial)** arithmetic, looking through a reference and qualifiers: `isIntegral`, `isFloat`, `isArith` tell
the category, `isUnsignedInt`, `isSignedInt` the sign of integers other than char, wchar_t and bool, `isFundamental`
the arithmetic types and void. Missing: `long long`, `long double`, `char16_t`, `char32_t` (`arith_violated`). -/
theorem type_traits_arith_spec_partial {t : CTy} {r : TT} (h : WF t) (e : typeTraits t = some r)
    (hs : ∀ f, bare t = .fund {} f → Short f) :
    (r.isStdIntegral = true ↔ category (bare t) = .integral) ∧
    (r.isStdFloat = true ↔ category (bare t) = .floating) ∧
    (r.isStdArith = true ↔ category (bare t) = .integral ∨ category (bare t) = .floating) ∧
    (r.isStdFundamental = true ↔ category (bare t) = .integral ∨ category (bare t) = .floating ∨ category t = .void) ∧
    (r.isStdUnsignedInt = true ↔ ∃ f, bare t = .fund {} f ∧ StdInt f ∧ f.signed = false) ∧
    (r.isStdSignedInt = true ↔ ∃ f, bare t = .fund {} f ∧ StdInt f ∧ f ≠ .char ∧ f.signed = true) := by
  obtain ⟨ap, par, h1, h2, g1, g2, g3, g4, g5, g6, g7, g8, g9, g10, g11, g12, g13, g14, g15, g16, g17, g18, g19, g20,
    g21, _⟩ := typeTraits_some e
  have hvoid : decide (t = .fund {} .void) = decide (category t = .void) := by
    apply decide_eq_decide.2
    constructor
    · rintro rfl; rfl
    · intro hc
      cases t with
      | fund q f =>
        cases f <;> simp [category] at hc
        obtain ⟨c, v⟩ := q
        cases c <;> cases v <;> first | rfl | cases h2
      | mem q c t => cases t <;> simp [category] at hc
      | _ => simp [category] at hc
  rw [g21, g20, g18, g19, g16, g17, hvoid]
  simp only [oneOfTm_eq _ t h]
  by_cases hb : ∃ f, bare t = .fund {} f
  · obtain ⟨f, hb⟩ := hb
    have hsf := hs f hb
    have hv : category t = .void → f = .void := by
      intro hc
      cases t with
      | fund q g =>
        simp only [bare, setQuals] at hb; cases hb
        cases f <;> simp [category] at hc; rfl
      | mem q c t => cases t <;> simp [category] at hc
      | _ => simp [category] at hc
    have hv' : f = .void → category t = .void := by
      rintro rfl
      cases t with
      | fund q g => simp only [bare, setQuals] at hb; cases hb; rfl
      | lref t =>
        cases t with
        | fund q g => simp only [bare, setQuals] at hb; cases hb; exact absurd rfl h.2.2.2.1
        | _ => simp [bare, setQuals] at hb
      | rref t => cases h1
      | _ => simp [bare, setQuals] at hb
    have hvv : (category t = .void) = (f = .void) := propext ⟨hv, hv'⟩
    rw [hb]
    simp only [hvv]
    obtain ⟨n1, n2, n3, n4, n5⟩ := hsf
    cases f <;> first
      | exact absurd rfl n1
      | exact absurd rfl n2
      | exact absurd rfl n3
      | exact absurd rfl n4
      | exact absurd rfl n5
      | simp [isOneOf, stdUnsignedInts, stdSignedInts, stdOtherInts, stdFloats, category, StdInt, Fund.signed]
  · have hno : ∀ fs, isOneOf fs (bare t) = false := by
      intro fs
      cases hf : isOneOf fs (bare t) with
      | false => rfl
      | true => obtain ⟨f, e, _⟩ := (isOneOf_bare fs t).1 hf; exact absurd ⟨f, e⟩ hb
    have hcat : category (bare t) ≠ .integral ∧ category (bare t) ≠ .floating ∧ category t ≠ .void := by
      have hq : ∀ u : CTy, (∃ f, setQuals {} u = .fund {} f) ∨
          (category (setQuals {} u) ≠ .integral ∧ category (setQuals {} u) ≠ .floating ∧ category u ≠ .void) := by
        intro u
        cases u with
        | fund q f => exact Or.inl ⟨f, rfl⟩
        | mem q c u => right; cases u <;> simp [setQuals, category]
        | _ => right; simp [setQuals, category]
      cases t with
      | lref t =>
        rcases hq t with g | g
        · exact absurd g hb
        · exact ⟨g.1, g.2.1, by simp [category]⟩
      | rref t => cases h1
      | _ =>
        rcases hq _ with g | g
        · exact absurd g hb
        · exact g
    simp [hno, hcat.1, hcat.2.1, hcat.2.2]
    constructor
    · intro f hf; exact absurd ⟨f, hf⟩ hb
    · intro f hf; exact absurd ⟨f, hf⟩ hb

/-- **C90 (violated)** `long long` and `unsigned long long` are neither integral nor fundamental, `long double` is
neither a floating point nor a fundamental type, `char` is not signed. -/
theorem arith_violated (q : CV) :
    (∀ f, f = .llong ∨ f = .ullong → (typeTraits (.fund q f)).map (fun r => (r.isStdIntegral, r.isStdFundamental)) =
      some (false, false)) ∧
    (typeTraits (.fund q .ldouble)).map (fun r => (r.isStdFloat, r.isStdFundamental)) = some (false, false) ∧
    (typeTraits (.fund q .char)).map (·.isSigned) = some false := by
  obtain ⟨c, v⟩ := q
  refine ⟨?_, ?_, ?_⟩
  · rintro f (rfl | rfl) <;> cases c <;> cases v <;> rfl
  · cases c <;> cases v <;> rfl
  · cases c <;> cases v <;> rfl

/-- **C90** `ParameterType`: arithmetic types the traits know, pointers and member pointers are passed as they are,
lvalue references too, everything else by reference to const: no class is ever copied. -/
theorem parameter_type_spec {t : CTy} {r : TT} (h : WF t) (e : typeTraits t = some r) :
    ((r.isStdArith = true ∨ category (bare t) = .pointer ∨ category (bare t) = .memberObject ∨
      category (bare t) = .memberFunction) → r.parameter = t) ∧
    (category t = .lvalueRef → r.parameter = t) ∧
    (category t = .cls ∨ category t = .union ∨ category t = .enum ∨ category t = .array →
      r.parameter = .lref (setQuals { t.quals with c := true } t)) := by
  obtain ⟨p1, p2, p3, p4, _⟩ := type_traits_pointer_spec h e
  obtain ⟨ap, par, h1, h2, g1, g2, g3, g4, g5, g6, g7, g8, g9, g10, g11, g12, g13, g14, g15, g16, g17, g18, g19, g20,
    g21, g22, g23, g24⟩ := typeTraits_some e
  refine ⟨?_, ?_, ?_⟩
  · intro k
    rw [g24, if_pos]
    simp only [Bool.or_eq_true]
    rcases k with k | k | k | k
    · exact Or.inl (Or.inl k)
    · exact Or.inl (Or.inr (p1.2 k))
    · exact Or.inr (p4.2 (Or.inl k))
    · exact Or.inr (p4.2 (Or.inr k))
  · intro k
    rw [g24]
    split
    · rfl
    · cases t with
      | lref t => cases h2; rfl
      | fund q f => cases f <;> simp [category] at k
      | mem q c t => cases t <;> simp [category] at k
      | _ => simp [category] at k
  · intro k
    have hb : category (bare t) = category t := by
      cases t with
      | fund q f => cases f <;> simp [category] at k
      | mem q c t => cases t <;> simp [category] at k
      | lref => simp [category] at k
      | rref => simp [category] at k
      | _ => rfl
    have ha : r.isStdArith = false := by
      have hno : ∀ fs, isOneOf fs (bare t) = false := by
        intro fs
        cases hf : isOneOf fs (bare t) with
        | false => rfl
        | true =>
          obtain ⟨f, e', _⟩ := (isOneOf_bare fs t).1 hf
          rw [← hb, e'] at k
          cases f <;> simp [category] at k
      rw [g20, g18, g19]
      simp only [oneOfTm_eq _ t h, hno, Bool.or_self]
    have hp : r.isPointer = false := by
      cases hpp : r.isPointer with
      | false => rfl
      | true =>
        have := p1.1 hpp
        rw [hb] at this; rw [this] at k; simp at k
    have hm : r.isMemberPointer = false := by
      cases hmm : r.isMemberPointer with
      | false => rfl
      | true =>
        have := p4.1 hmm
        rw [hb] at this
        rcases this with g | g <;> rw [g] at k <;> simp at k
    rw [g24, ha, hp, hm, if_neg (by simp)]
    cases t with
    | fund q f => cases f <;> simp [category] at k
    | mem q c t => cases t <;> simp [category] at k
    | lref => simp [category] at k
    | rref => simp [category] at k
    | fn => simp [category] at k
    | ptr => simp [category] at k
    | _ => cases h2; rfl

/-- **C90** `AddReference` makes an lvalue reference of every type but void (`NullType`) and qualified functions; of a
reference, an lvalue reference to the same. -/
theorem add_reference_spec (t : CTy) :
    (category t ≠ .void → t.abominable = false → addReferenceTm t = some (.lref (removeReference t))) ∧
    addReferenceTm (.fund {} .void) = some nullType := by
  refine ⟨?_, rfl⟩
  intro h1 h2
  cases t with
  | fund q f =>
    obtain ⟨c, v⟩ := q
    cases f <;> cases c <;> cases v <;> first | rfl | exact absurd rfl h1
  | fn ret n a e q r =>
    show (if (CTy.fn ret n a e q r).abominable then none else some _) = _
    rw [if_neg (by rw [h2]; simp)]
    rfl
  | _ => rfl

/-! ### The hypotheses are met -/

/-- `const volatile int* const&`. -/
def exRef : CTy := .lref (.ptr ⟨true, false⟩ (.fund ⟨true, true⟩ .int))

example : WF exRef := by simp [exRef, WF, category, abominable]

example : (typeTraits exRef).map (fun r => (r.isPointer, r.isConst, r.isVolatile, decide (r.pointee = .fund ⟨true, true⟩ .int),
    decide (r.unqual = .lref (.ptr {} (.fund ⟨true, true⟩ .int))))) = some (true, true, false, true, true) := by decide

example : (typeTraits (.cls {} 3)).map (·.parameter) = some (.lref (.cls ⟨true, false⟩ 3)) := by decide

example : (typeTraits (.fund ⟨true, false⟩ .ushort)).map (fun r => (r.isStdUnsignedInt, r.isStdFundamental)) =
    some (true, true) := by decide

end Ustl.Meta
