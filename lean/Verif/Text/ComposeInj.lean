import Verif.Text.Compose
/-! # Different values have different texts (C81) -/
namespace Ustl.Text
open Ustl.Stream

/-! ## Specification -/

/-- The types whose values can be told apart by their text: those built from numbers, bytes and truth values. (Characters and strings are
written as they are, and may contain commas and parentheses.) -/
def TTy.Faithful : TTy → Prop
  | .int _ => True
  | .byte _ => True
  | .bool => True
  | .char => False
  | .wchar => False
  | .str => False
  | .pair a b => a.Faithful ∧ b.Faithful
  | .seq a => a.Faithful
  | .mat _ _ a => a.Faithful

/-! ## Texts that end -/

/-- What follows the text of a part. -/
def Stop (r : List Byte) : Prop := ∃ c t, r = c :: t ∧ (c = 44 ∨ c = 41)

/-- The text of one part can be told from what follows. -/
def Code {α : Type} (P : α → Prop) (T : α → List Byte) : Prop :=
  ∀ v w r r', P v → P w → Stop r → Stop r' → T v ++ r = T w ++ r' → v = w ∧ r = r'

/-- The text does not start with `)`. -/
def Open {α : Type} (P : α → Prop) (T : α → List Byte) : Prop := ∀ v, P v → ∃ c t, T v = c :: t ∧ c ≠ 41

theorem digits_inj {n m : Nat} (b : Nat) (u : Bool) (h2 : 2 ≤ b) (h16 : b ≤ 16) (h : digits b u n = digits b u m) : n = m := by
  rw [← digs_digits b u h2 h16, ← digs_digits b u h2 h16] at h
  rw [← digitsVal_digs b u h2 h16 n, h, digitsVal_digs b u h2 h16 m]

theorem intText_parts {f : Fmt} (hw : f.width = 0) (t : ITy) (v : Int) : intText f t v = (intParts f t v).1 ++ (intParts f t v).2 := by
  unfold intText
  simp only [hw, Nat.zero_sub, List.replicate_zero, List.append_nil, List.nil_append]
  split
  · rfl
  · split <;> rfl

theorem numVal_inj {f : Fmt} {t : ITy} {v w : Int} (hv : t.fits v) (hw : t.fits w) (h : numVal f t v = numVal f t w) (h0 : t ∈ ITy.all) : v = w := by
  unfold numVal at h
  split at h
  · exact h
  · simp only [ITy.all, List.mem_cons, List.not_mem_nil, or_false] at h0
    unfold ITy.fits at hv hw
    rcases h0 with rfl | rfl | rfl | rfl | rfl | rfl <;> simp at hv hw h <;> omega

/-- Large numbers have the same sign and prefix. -/
theorem intText_big {f : Fmt} (hwd : f.width = 0) {t : ITy} {v w : Int} (hv : 0 < numVal f t v) (hw : 0 < numVal f t w)
    (h : intText f t v = intText f t w) : numVal f t v = numVal f t w := by
  rw [intText_parts hwd, intText_parts hwd] at h
  unfold intParts at h
  cases hb : f.base with
  | dec =>
    have n1 : numVal f t v = v := by unfold numVal; rw [if_pos hb]
    have n2 : numVal f t w = w := by unfold numVal; rw [if_pos hb]
    simp only [hb] at h
    rw [n1] at hv
    rw [n2] at hw
    rw [if_neg (show ¬ v < 0 by omega), if_neg (show ¬ w < 0 by omega)] at h
    have := digits_inj 10 false (by decide) (by decide) (List.append_cancel_left h)
    omega
  | oct =>
    simp only [hb, List.nil_append] at h
    have c1 : (numVal f t v).natAbs ≠ 0 := by omega
    have c2 : (numVal f t w).natAbs ≠ 0 := by omega
    simp only [c1, c2, ne_eq, not_false_eq_true, and_true] at h
    have := digits_inj 8 false (by decide) (by decide) (List.append_cancel_left h)
    omega
  | hex =>
    simp only [hb] at h
    have c1 : (numVal f t v).natAbs ≠ 0 := by omega
    have c2 : (numVal f t w).natAbs ≠ 0 := by omega
    simp only [c1, c2, ne_eq, not_false_eq_true, and_true] at h
    have := digits_inj 16 f.upper (by decide) (by decide) (List.append_cancel_left h)
    omega

theorem int_code {f : Fmt} (hwd : f.width = 0) (t : ITy) : Code (fun v => t ∈ ITy.all ∧ t.fits v) (intText f t) := by
  rintro v w r r' ⟨ht, hv⟩ ⟨_, hw⟩ ⟨c, x, rfl, hc⟩ ⟨c', x', rfl, hc'⟩ e
  have d1 : digitVal c = none := by rcases hc with rfl | rfl <;> decide
  have d2 : digitVal c' = none := by rcases hc' with rfl | rfl <;> decide
  have s1 := strtol_intText hwd (t := t) (v := v) d1 x
  have s2 := strtol_intText hwd (t := t) (v := w) d2 x'
  rw [e, s2] at s1
  obtain ⟨k1, k2⟩ := Prod.mk.inj (Option.some.inj s1)
  obtain ⟨e1, e2⟩ := List.append_inj e k2.symm
  refine ⟨numVal_inj (f := f) hv hw ?_ ht, e2⟩
  unfold clip at k1
  have hlo : ∀ x, t.fits x → -(2 ^ 63) ≤ numVal f t x := by
    intro x hx
    unfold numVal
    split
    · simp only [ITy.all, List.mem_cons, List.not_mem_nil, or_false] at ht
      unfold ITy.fits at hx
      rcases ht with rfl | rfl | rfl | rfl | rfl | rfl <;> simp at hx <;> omega
    · have : 0 ≤ x % (2 ^ t.bits : Int) := Int.emod_nonneg _ (by positivity)
      omega
  have l1 := hlo v hv
  have l2 := hlo w hw
  by_cases hb : numVal f t v < 2 ^ 63 - 1 ∨ numVal f t w < 2 ^ 63 - 1
  · omega
  · exact intText_big hwd (by omega) (by omega) e1

theorem int_open {f : Fmt} (hwd : f.width = 0) (t : ITy) (P : Int → Prop) : Open P (intText f t) := by
  intro v _
  obtain ⟨c, txt, e, hc⟩ := intText_cons hwd t v
  refine ⟨c, txt, e, ?_⟩
  rcases hc with rfl | rfl | hc
  · decide
  · decide
  · rintro rfl
    revert hc
    decide

theorem toByte_inj {v w : Int} (h : (-128 ≤ v ∧ v < 128 ∧ -128 ≤ w ∧ w < 128) ∨ (0 ≤ v ∧ v < 256 ∧ 0 ≤ w ∧ w < 256)) (e : toByte v = toByte w) : v = w := by
  unfold toByte at e
  have := congrArg UInt8.toNat e
  rw [UInt8.toNat_ofNat', UInt8.toNat_ofNat'] at this
  omega

theorem byteText_code (P : Int → Prop) (hP : ∀ v, P v → -1 ≤ v ∧ v ≤ 255) : Code P byteText := by
  intro v w r r' hv hw hr hr' e
  have h1 := hP v hv
  have h2 := hP w hw
  have fit : ∀ v : Int, -1 ≤ v ∧ v ≤ 255 → (⟨32, true⟩ : ITy) ∈ ITy.all ∧ (⟨32, true⟩ : ITy).fits v := by
    intro v h
    refine ⟨by simp [ITy.all], ?_⟩
    simp [ITy.fits]
    omega
  have no : ∀ (x : Int) (l l' : List Byte), 39 :: l ≠ intText {} ⟨32, true⟩ x ++ l' := by
    intro x l l' h
    obtain ⟨c, txt, e, hc⟩ := intText_cons (f := {}) rfl ⟨32, true⟩ x
    rw [e] at h
    have : c = 39 := (List.cons.inj h).1.symm
    subst this
    revert hc
    decide
  unfold byteText at e
  split at e <;> split at e
  · simp only [List.cons_append, List.nil_append, List.append_assoc, List.cons.injEq, true_and] at e
    exact ⟨toByte_inj (by omega) e.1, e.2⟩
  · exact absurd e (no _ _ _)
  · exact absurd e.symm (no _ _ _)
  · exact int_code rfl ⟨32, true⟩ v w r r' (fit v h1) (fit w h2) hr hr' e

theorem byteText_open (P : Int → Prop) : Open P byteText := by
  intro v hv
  unfold byteText
  split
  · exact ⟨39, _, rfl, by decide⟩
  · exact int_open rfl _ P v hv

theorem bool_code : Code (fun _ : Bool => True) (fun b => if b then "true".toUTF8.toList else "false".toUTF8.toList) := by
  have e1 : "true".toUTF8.toList = [116, 114, 117, 101] := by decide +kernel
  have e2 : "false".toUTF8.toList = [102, 97, 108, 115, 101] := by decide +kernel
  intro v w r r' _ _ _ _ e
  simp only [e1, e2] at e
  cases v <;> cases w <;> simp_all

/-! ## Lists -/

theorem tail_code {α : Type} {P : α → Prop} {T : α → List Byte} (hc : Code P T) : ∀ (vs ws : List α) (r r' : List Byte), (∀ v ∈ vs, P v) → (∀ w ∈ ws, P w) →
    (vs.flatMap fun v => 44 :: T v) ++ 41 :: r = (ws.flatMap fun v => 44 :: T v) ++ 41 :: r' → vs = ws ∧ r = r' := by
  have stop : ∀ (vs : List α) (r : List Byte), Stop ((vs.flatMap fun v => 44 :: T v) ++ 41 :: r) := by
    intro vs r
    cases vs with
    | nil => exact ⟨41, r, rfl, .inr rfl⟩
    | cons v vs => exact ⟨44, _, rfl, .inl rfl⟩
  intro vs
  induction vs with
  | nil =>
    intro ws r r' _ _ e
    cases ws with
    | nil => exact ⟨rfl, by simpa using e⟩
    | cons w ws => exact absurd (List.cons.inj e).1 (by decide)
  | cons v vs ih =>
    intro ws r r' hv hw e
    cases ws with
    | nil => exact absurd (List.cons.inj e).1 (by decide)
    | cons w ws =>
      rw [List.flatMap_cons, List.flatMap_cons, List.append_assoc, List.append_assoc, List.cons_append, List.cons_append] at e
      obtain ⟨e1, e2⟩ := hc v w _ _ (hv v (by simp)) (hw w (by simp)) (stop vs r) (stop ws r') (List.cons.inj e).2
      obtain ⟨e3, e4⟩ := ih ws r r' (fun x hx => hv x (by simp [hx])) (fun x hx => hw x (by simp [hx])) e2
      exact ⟨by rw [e1, e3], e4⟩

theorem intercalate_flat {α : Type} (T : α → List Byte) (v : α) (vs : List α) : [44].intercalate ((v :: vs).map T) = T v ++ vs.flatMap fun v => 44 :: T v := by
  induction vs generalizing v with
  | nil => simp [List.intercalate]
  | cons x xs ih =>
    have : [44].intercalate ((v :: x :: xs).map T) = T v ++ 44 :: [44].intercalate ((x :: xs).map T) := by simp [List.intercalate]
    rw [this, ih, List.flatMap_cons, List.cons_append]

theorem list_code {α : Type} {P : α → Prop} {T : α → List Byte} (hc : Code P T) (vs ws : List α) (r r' : List Byte) (hv : ∀ v ∈ vs, P v) (hw : ∀ w ∈ ws, P w)
    (h : Open P T ∨ vs.length = ws.length) (e : listText (vs.map T) ++ r = listText (ws.map T) ++ r') : vs = ws ∧ r = r' := by
  unfold listText at e
  simp only [List.append_assoc, List.cons_append, List.nil_append, List.cons.injEq, true_and] at e
  cases vs with
  | nil =>
    cases ws with
    | nil => simpa [List.intercalate] using e
    | cons w ws =>
      rcases h with h | h
      · obtain ⟨c, t, e1, hne⟩ := h w (hw w (by simp))
        rw [intercalate_flat, e1] at e
        exact absurd (List.cons.inj e).1.symm hne
      · simp at h
  | cons v vs =>
    cases ws with
    | nil =>
      rcases h with h | h
      · obtain ⟨c, t, e1, hne⟩ := h v (hv v (by simp))
        rw [intercalate_flat, e1] at e
        exact absurd (List.cons.inj e).1 hne
      · simp at h
    | cons w ws =>
      have := tail_code hc (v :: vs) (w :: ws) r r' hv hw
      rw [intercalate_flat, intercalate_flat, List.append_assoc, List.append_assoc] at e
      refine this ?_
      rw [List.flatMap_cons, List.flatMap_cons, List.append_assoc, List.append_assoc, List.cons_append, List.cons_append, e]

theorem mat_code {α : Type} {P : α → Prop} {T : α → List Byte} (hc : Code P T) (nx : Nat) : ∀ (rs qs : List (List α)) (r r' : List Byte), (∀ x ∈ rs, x.length = nx ∧ ∀ v ∈ x, P v) →
    (∀ x ∈ qs, x.length = nx ∧ ∀ v ∈ x, P v) → rs.length = qs.length →
    (rs.map fun x => listText (x.map T)).flatten ++ r = (qs.map fun x => listText (x.map T)).flatten ++ r' → rs = qs ∧ r = r' := by
  intro rs
  induction rs with
  | nil =>
    intro qs r r' _ _ hl e
    cases qs with
    | nil => exact ⟨rfl, e⟩
    | cons q qs => simp at hl
  | cons x rs ih =>
    intro qs r r' h1 h2 hl e
    cases qs with
    | nil => simp at hl
    | cons q qs =>
      rw [List.map_cons, List.map_cons, List.flatten_cons, List.flatten_cons, List.append_assoc, List.append_assoc] at e
      obtain ⟨a1, a2⟩ := h1 x (by simp)
      obtain ⟨b1, b2⟩ := h2 q (by simp)
      obtain ⟨e1, e2⟩ := list_code hc x q _ _ a2 b2 (.inr (by omega)) e
      obtain ⟨e3, e4⟩ := ih qs r r' (fun y hy => h1 y (by simp [hy])) (fun y hy => h2 y (by simp [hy])) (by simpa using hl) e2
      exact ⟨by rw [e1, e3], e4⟩

/-! ## The theorem -/

theorem text_code (f : Fmt) (hw : f.width = 0) : ∀ (a : TTy), a.Faithful → Code a.Fits (a.text f) := by
  intro a
  induction a with
  | int t => intro _; exact int_code hw t
  | byte sgn =>
    intro _ v w r r' h1 h2 _ _ e
    have e : toByte v :: r = toByte w :: r' := e
    obtain ⟨e1, e2⟩ := List.cons.inj e
    refine ⟨toByte_inj ?_ e1, e2⟩
    unfold TTy.Fits at h1 h2
    cases sgn <;> simp at h1 h2
    · exact .inr ⟨h1.1, h1.2, h2.1, h2.2⟩
    · exact .inl ⟨h1.1, h1.2, h2.1, h2.2⟩
  | bool => intro _; exact bool_code
  | char => intro h; exact h.elim
  | wchar => intro h; exact h.elim
  | str => intro h; exact h.elim
  | pair a b iha ihb =>
    rintro ⟨ha, hb⟩ ⟨v1, v2⟩ ⟨w1, w2⟩ r r' ⟨p1, p2⟩ ⟨q1, q2⟩ hr hr' e
    have e : listText [a.text f v1, b.text f v2] ++ r = listText [a.text f w1, b.text f w2] ++ r' := e
    have l : ∀ t u : List Byte, listText [t, u] = 40 :: (t ++ 44 :: (u ++ [41])) := by intro t u; simp [listText, List.intercalate]
    rw [l, l] at e
    simp only [List.cons_append, List.append_assoc, List.nil_append, List.cons.injEq, true_and] at e
    obtain ⟨e1, e2⟩ := iha ha v1 w1 _ _ p1 q1 ⟨44, _, rfl, .inl rfl⟩ ⟨44, _, rfl, .inl rfl⟩ e
    obtain ⟨e3, e4⟩ := ihb hb v2 w2 _ _ p2 q2 ⟨41, _, rfl, .inr rfl⟩ ⟨41, _, rfl, .inr rfl⟩ (List.cons.inj e2).2
    exact ⟨by rw [e1, e3], (List.cons.inj e4).2⟩
  | seq a ih =>
    intro ha vs ws r r' h1 h2 _ _ e
    have key : ∀ (P : a.Val → Prop) (T : a.Val → List Byte), Code P T → Open P T → (∀ v ∈ (show List a.Val from vs), P v) → (∀ v ∈ (show List a.Val from ws), P v) →
        TTy.ifByte byteText a (a.text f) = T → vs = ws ∧ r = r' := by
      intro P T hc ho p1 p2 eT
      refine list_code hc vs ws r r' p1 p2 (.inl ho) ?_
      rw [← eT]
      exact e
    cases a with
    | byte sgn =>
      refine key (fun v => -1 ≤ (show Int from v) ∧ (show Int from v) ≤ 255) byteText (byteText_code _ fun v h => h) (byteText_open _) (fun v hv => (h1 v hv).2) (fun v hv => (h2 v hv).2) rfl
    | int t => exact key _ _ (ih ha) (int_open hw t _) (fun v hv => (h1 v hv).1) (fun v hv => (h2 v hv).1) rfl
    | bool =>
      refine key _ _ (ih ha) ?_ (fun v hv => (h1 v hv).1) (fun v hv => (h2 v hv).1) rfl
      have e1 : "true".toUTF8.toList = [116, 114, 117, 101] := by decide +kernel
      have e2 : "false".toUTF8.toList = [102, 97, 108, 115, 101] := by decide +kernel
      rintro (_ | _) _
      · exact ⟨102, [97, 108, 115, 101], e2, by decide⟩
      · exact ⟨116, [114, 117, 101], e1, by decide⟩
    | char => exact ha.elim
    | wchar => exact ha.elim
    | str => exact ha.elim
    | pair a b => exact key _ _ (ih ha) (fun v _ => ⟨40, _, rfl, by decide⟩) (fun v hv => (h1 v hv).1) (fun v hv => (h2 v hv).1) rfl
    | seq a => exact key _ _ (ih ha) (fun v _ => ⟨40, _, rfl, by decide⟩) (fun v hv => (h1 v hv).1) (fun v hv => (h2 v hv).1) rfl
    | mat nx ny a => exact key _ _ (ih ha) (fun v _ => ⟨40, _, rfl, by decide⟩) (fun v hv => (h1 v hv).1) (fun v hv => (h2 v hv).1) rfl
  | mat nx ny a ih =>
    intro ha rs qs r r' h1 h2 _ _ e
    obtain ⟨_, l1, p1⟩ := h1
    obtain ⟨_, l2, p2⟩ := h2
    have e : ([40] ++ (List.map (fun r => listText (List.map (a.text f) r)) rs).flatten ++ [41]) ++ r =
      ([40] ++ (List.map (fun r => listText (List.map (a.text f) r)) qs).flatten ++ [41]) ++ r' := e
    simp only [List.append_assoc, List.cons_append, List.nil_append, List.cons.injEq, true_and] at e
    obtain ⟨e1, e2⟩ := mat_code (ih ha) nx rs qs _ _ p1 p2 (l1.trans l2.symm) e
    exact ⟨e1, (List.cons.inj e2).2⟩

/-- **C81** (partial): two values of one type built from numbers, bytes and truth values by pairs, containers and matrices have the same text only if they
are the same value. What is missing: characters and strings, see `ambiguous_violated`; widths. -/
theorem text_faithful_partial (a : TTy) (ha : a.Faithful) {f : Fmt} (hw : f.width = 0) {v w : a.Val} (hv : a.Fits v) (hw' : a.Fits w) (e : a.text f v = a.text f w) : v = w :=
  (text_code f hw a ha v w [41] [41] hv hw' ⟨41, [], rfl, .inr rfl⟩ ⟨41, [], rfl, .inr rfl⟩ (by rw [e])).1

/-- **C81** (negative result): a container of strings: `{"a,b"}` and `{"a","b"}` have the same text. -/
theorem ambiguous_violated (f : Fmt) : (TTy.seq .str).text f [[97, 44, 98]] = (TTy.seq .str).text f [[97], [98]] := rfl

example : (TTy.seq (.pair (.int ⟨32, true⟩) (.seq (.byte false)))).Faithful := ⟨trivial, trivial⟩

example (x y : List (Int × List Int)) (hx : (TTy.seq (.pair (.int ⟨32, true⟩) (.seq (.byte false)))).Fits x) (hy : (TTy.seq (.pair (.int ⟨32, true⟩) (.seq (.byte false)))).Fits y)
    (e : (TTy.seq (.pair (.int ⟨32, true⟩) (.seq (.byte false)))).text {} x = (TTy.seq (.pair (.int ⟨32, true⟩) (.seq (.byte false)))).text {} y) : x = y :=
  text_faithful_partial (.seq (.pair (.int ⟨32, true⟩) (.seq (.byte false)))) ⟨trivial, trivial⟩ rfl hx hy e

end Ustl.Text
