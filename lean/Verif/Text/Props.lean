import Verif.Text.Spec
/-! # istringstream: reading characters, words, quoted text and lines (C43) -/
namespace Ustl.Text
open Ustl.Stream

theorem TIS.Ok.adv1 {s : TIS} (h : s.Ok) {c : Byte} {r : List Byte} (hu : s.unread = c :: r) :
    (s.adv 1).Ok ∧ (s.adv 1).unread = r := h.adv (l := [c]) hu

/-- **C43**: reading a character skips the delimiters before it; at the end of the text it gives 0 and sets the error
bits. -/
theorem readChar_spec {s : TIS} (h : s.Ok) :
    (∀ ds c r, s.unread = ds ++ c :: r → (∀ d ∈ ds, s.isDelim d = true) → s.isDelim c = false →
      skipDelims s = .ret c (s.adv (ds.length + 1))) ∧
    ((∀ d ∈ s.unread, s.isDelim d = true) → skipDelims s = .ret 0 (s.adv s.unread.length).eof) :=
  ⟨fun _ _ _ hu hd hc => skipDelims_ok h hu hd hc, fun hd => skipDelims_end h hd⟩

example : skipDelims (.mk' [32, 59, 65, 66]) = .ret 65 ((TIS.mk' [32, 59, 65, 66]).adv 3) := by decide

theorem escape_val (c : Byte) : escape c = (Item.esc c).val := by
  unfold escape
  by_cases h1 : c = 116
  · subst h1; rfl
  by_cases h2 : c = 110
  · subst h2; rfl
  by_cases h3 : c = 114
  · subst h3; rfl
  by_cases h4 : c = 98
  · subst h4; rfl
  by_cases h5 : c = 69
  · subst h5; rfl
  simp only [if_neg h1, if_neg h2, if_neg h3, if_neg h4, if_neg h5]
  unfold Item.val
  split <;> simp_all

theorem val_ne (c : Byte) (h : c ≠ 92) : (Item.esc c).val ≠ 92 := by
  rw [← escape_val]
  unfold escape
  repeat' split
  all_goals first | decide | exact h

/-- One round of the loop on a character that is neither after a backslash nor the end. -/
theorem strRound_lit {s : TIS} (h : s.Ok) {c x q : Byte} {r v : List Byte} (k) (hu : s.unread = c :: r)
    (hx : x ≠ 92) (hq : c ≠ q) (hd : q = 0 → s.isDelim c = false) :
    strRound k q x v s = k q c (v ++ [c]) (s.adv 1) := by
  rw [strRound, M.bind_ret (more_yes h (by simp [hu])), if_pos rfl, M.bind_ret (getc_ok h hu), M.bind_ret (look_eq _ _),
    if_neg, if_neg hx, if_neg hq]
  rintro ⟨e, e'⟩
  rw [TIS.adv_isDelim, hd e] at e'
  cases e'

theorem strRound_esc {s : TIS} (h : s.Ok) {c q : Byte} {r v : List Byte} (k) (hu : s.unread = c :: r)
    (hv : v ≠ []) (hd : q = 0 → s.isDelim c = false) :
    strRound k q 92 v s = k q (escape c) (v.dropLast ++ [escape c]) (s.adv 1) := by
  rw [strRound, M.bind_ret (more_yes h (by simp [hu])), if_pos rfl, M.bind_ret (getc_ok h hu), M.bind_ret (look_eq _ _),
    if_neg, if_pos rfl, if_neg hv]
  rintro ⟨e, e'⟩
  rw [TIS.adv_isDelim, hd e] at e'
  cases e'

/-- The loop over items. -/
theorem strLoop_items (q : Byte) : ∀ (l : List Item) (f : Nat) (s : TIS) (x : Byte) (v t : List Byte), s.Ok →
    s.unread = rawAll l ++ t → x ≠ 92 → q ≠ 92 →
    (∀ c, Item.lit c ∈ l → c ≠ q ∧ c ≠ 92 ∧ (q = 0 → s.isDelim c = false)) →
    (∀ c, Item.esc c ∈ l → c ≠ 92 ∧ (q = 0 → s.isDelim c = false)) →
    (q = 0 → s.isDelim 92 = false) →
    ∃ y, y ≠ 92 ∧ strLoop (f + (rawAll l).length) q x v s = strLoop f q y (v ++ l.map Item.val) (s.adv (rawAll l).length) := by
  intro l
  induction l with
  | nil =>
    intro f s x v t h hu hx hq _ _ _
    exact ⟨x, hx, by simp [rawAll, TIS.adv_zero]⟩
  | cons i l ih =>
    intro f s x v t h hu hx hq hl he hb
    cases i with
    | lit c =>
      obtain ⟨a1, a2, a3⟩ := hl c (by simp)
      have hu1 : s.unread = [c] ++ (rawAll l ++ t) := by rw [hu]; simp [rawAll, Item.raw]
      have ha := h.adv1 hu1
      obtain ⟨y, hy, e⟩ := ih f (s.adv 1) c (v ++ [c]) t ha.1 ha.2 a2 hq (fun c' hc' => hl c' (by simp [hc']))
        (fun c' hc' => he c' (by simp [hc'])) hb
      refine ⟨y, hy, ?_⟩
      have hlen : (rawAll (Item.lit c :: l)).length = (rawAll l).length + 1 := by simp [rawAll, Item.raw]
      rw [hlen, ← Nat.add_assoc, strLoop, strRound_lit h _ hu1 hx a1 a3, e, TIS.adv_adv, Nat.add_comm 1]
      simp [Item.val]
    | esc c =>
      obtain ⟨a2, a3⟩ := he c (by simp)
      have hu1 : s.unread = [92] ++ (c :: (rawAll l ++ t)) := by rw [hu]; simp [rawAll, Item.raw]
      have ha := h.adv1 hu1
      have hu2 : (s.adv 1).unread = [c] ++ (rawAll l ++ t) := ha.2
      have hb2 := ha.1.adv1 hu2
      obtain ⟨y, hy, e⟩ := ih f ((s.adv 1).adv 1) (escape c) (v ++ [escape c]) t hb2.1 hb2.2
        (by rw [escape_val]; exact val_ne c a2) hq (fun c' hc' => hl c' (by simp [hc']))
        (fun c' hc' => he c' (by simp [hc'])) hb
      refine ⟨y, hy, ?_⟩
      have hlen : (rawAll (Item.esc c :: l)).length = (rawAll l).length + 1 + 1 := by simp [rawAll, Item.raw]
      rw [hlen, ← Nat.add_assoc, ← Nat.add_assoc, strLoop, strRound_lit h _ hu1 hx (Ne.symm hq) hb, strLoop,
        strRound_esc ha.1 _ ha.2 (by simp) a3]
      simp only [List.dropLast_concat]
      rw [e, TIS.adv_adv, TIS.adv_adv]
      have : 1 + (1 + (rawAll l).length) = (rawAll l).length + 1 + 1 := by omega
      rw [this]
      simp [escape_val]

theorem strLoop_end {s : TIS} (h : s.Ok) (hu : s.unread = []) (f : Nat) (q x : Byte) (v : List Byte) :
    strLoop (f + 1) q x v s = .ret v s.eof := by
  rw [strLoop, strRound, M.bind_ret (more_no h hu), if_neg (by simp)]
  rfl

theorem strLoop_delim {s : TIS} (h : s.Ok) {c : Byte} {r : List Byte} (hu : s.unread = c :: r) (hc : s.isDelim c = true)
    (f : Nat) (x : Byte) (v : List Byte) : strLoop (f + 1) 0 x v s = .ret v (s.adv 1) := by
  rw [strLoop, strRound, M.bind_ret (more_yes h (by simp [hu])), if_pos rfl, M.bind_ret (getc_ok h hu),
    M.bind_ret (look_eq _ _), if_pos ⟨rfl, hc⟩]
  rfl

theorem strLoop_quote {s : TIS} (h : s.Ok) {q : Byte} {r : List Byte} (hu : s.unread = q :: r) (hq : q ≠ 0)
    (f : Nat) (x : Byte) (hx : x ≠ 92) (v : List Byte) : strLoop (f + 1) q x v s = .ret v (s.adv 1) := by
  rw [strLoop, strRound, M.bind_ret (more_yes h (by simp [hu])), if_pos rfl, M.bind_ret (getc_ok h hu),
    M.bind_ret (look_eq _ _), if_neg (by simp [hq]), if_neg hx, if_pos rfl]
  rfl

/-- **C43** (partial): a word, that is, a maximal run of characters that are not delimiters, possibly with escapes, is read
as what it stands for; the delimiter after it is consumed; if the text ends after it, the error bits are set. What is
missing: an escaped backslash, see `readString_violated`. -/
theorem readWord_partial {s : TIS} (h : s.Ok) {ds t : List Byte} {l : List Item} (hu : s.unread = ds ++ rawAll l ++ t)
    (hd : ∀ d ∈ ds, s.isDelim d = true) (hl : l ≠ [])
    (hlit : ∀ c, Item.lit c ∈ l → s.isDelim c = false ∧ c ≠ 92 ∧ c ≠ 0)
    (hesc : ∀ c, Item.esc c ∈ l → s.isDelim c = false ∧ c ≠ 92) (hbs : s.isDelim 92 = false)
    (hq : l.head? ≠ some (.lit 34) ∧ l.head? ≠ some (.lit 39)) (ht : t = [] ∨ ∃ c r, t = c :: r ∧ s.isDelim c = true) :
    readString s = .ret (l.map Item.val)
      (if t = [] then (s.adv (ds.length + (rawAll l).length)).eof else s.adv (ds.length + (rawAll l).length + 1)) := by
  have fin : ∀ (s' : TIS) (n : Nat) (y : Byte) (v : List Byte), s'.Ok → s'.unread = t → (∀ c, s'.isDelim c = s.isDelim c) →
      strLoop (n + 1) 0 y v s' = .ret v (if t = [] then s'.eof else s'.adv 1) := by
    intro s' n y v h' hu' hdl
    rcases ht with rfl | ⟨c, r, rfl, hc⟩
    · rw [if_pos rfl]; exact strLoop_end h' hu' n 0 y v
    · rw [if_neg (by simp)]; exact strLoop_delim h' hu' (by rw [hdl]; exact hc) n y v
  cases l with
  | nil => exact absurd rfl hl
  | cons i l =>
    cases i with
    | lit c =>
      obtain ⟨a1, a2, a3⟩ := hlit c (by simp)
      have hu0 : s.unread = ds ++ c :: (rawAll l ++ t) := by rw [hu]; simp [rawAll, Item.raw]
      have hu1 : s.unread = (ds ++ [c]) ++ (rawAll l ++ t) := by rw [hu0]; simp
      have ha := h.adv hu1
      have hl1 : (ds ++ [c]).length = ds.length + 1 := by simp
      rw [hl1] at ha
      rw [readString, M.bind_ret (skipDelims_ok h hu0 hd a1), if_neg a3, M.bind_ret (look_eq _ _), ha.1.remaining, ha.2]
      rw [if_neg (by simp only [List.head?_cons, ne_eq, Option.some.injEq, Item.lit.injEq] at hq; exact not_or.2 hq)]
      have e1 : (rawAll l ++ t).length + 2 = (t.length + 1 + 1) + (rawAll l).length := by simp; omega
      rw [e1]
      obtain ⟨y, hy, e⟩ := strLoop_items 0 l (t.length + 1 + 1) (s.adv (ds.length + 1)) c [c] t ha.1 ha.2 a2 (by decide)
        (fun c' hc' => ⟨(hlit c' (by simp [hc'])).2.2, (hlit c' (by simp [hc'])).2.1, fun _ => (hlit c' (by simp [hc'])).1⟩)
        (fun c' hc' => ⟨(hesc c' (by simp [hc'])).2, fun _ => (hesc c' (by simp [hc'])).1⟩) (fun _ => hbs)
      have hb := ha.1.adv ha.2
      rw [e, fin _ _ _ _ hb.1 hb.2 (fun _ => rfl)]
      have hlen : (rawAll (Item.lit c :: l)).length = (rawAll l).length + 1 := by simp [rawAll, Item.raw]
      have hlen' : ds.length + 1 + (rawAll l).length = ds.length + (rawAll (Item.lit c :: l)).length := by omega
      simp only [TIS.adv_adv, hlen', List.map_cons, Item.val, List.singleton_append]
    | esc c =>
      obtain ⟨a1, a2⟩ := hesc c (by simp)
      have hu0 : s.unread = ds ++ 92 :: (c :: (rawAll l ++ t)) := by rw [hu]; simp [rawAll, Item.raw]
      have hu1 : s.unread = (ds ++ [92]) ++ (c :: (rawAll l ++ t)) := by rw [hu0]; simp
      have ha := h.adv hu1
      have hl1 : (ds ++ [(92 : Byte)]).length = ds.length + 1 := by simp
      rw [hl1] at ha
      have hu2 : (s.adv (ds.length + 1)).unread = [c] ++ (rawAll l ++ t) := ha.2
      have ha2 := ha.1.adv1 hu2
      rw [readString, M.bind_ret (skipDelims_ok h hu0 hd hbs), if_neg (by decide), M.bind_ret (look_eq _ _), ha.1.remaining, ha.2,
        if_neg (by decide)]
      have e1 : (c :: (rawAll l ++ t)).length + 2 = (t.length + 1 + 1) + (rawAll l).length + 1 := by simp; omega
      rw [e1, strLoop, strRound_esc ha.1 _ ha.2 (by simp) (fun _ => a1)]
      obtain ⟨y, hy, e⟩ := strLoop_items 0 l (t.length + 1 + 1) ((s.adv (ds.length + 1)).adv 1) (escape c) [escape c] t ha2.1 ha2.2
        (by rw [escape_val]; exact val_ne c a2) (by decide)
        (fun c' hc' => ⟨(hlit c' (by simp [hc'])).2.2, (hlit c' (by simp [hc'])).2.1, fun _ => (hlit c' (by simp [hc'])).1⟩)
        (fun c' hc' => ⟨(hesc c' (by simp [hc'])).2, fun _ => (hesc c' (by simp [hc'])).1⟩) (fun _ => hbs)
      have hb := ha2.1.adv (l := rawAll l) (r := t) ha2.2
      have e2 : ([92] : List Byte).dropLast ++ [escape c] = [escape c] := rfl
      rw [e2, e, fin _ _ _ _ hb.1 hb.2 (fun _ => rfl)]
      have hlen : (rawAll (Item.esc c :: l)).length = (rawAll l).length + 2 := by simp [rawAll, Item.raw]
      have hlen' : ds.length + 1 + 1 + (rawAll l).length = ds.length + (rawAll (Item.esc c :: l)).length := by omega
      simp only [TIS.adv_adv, hlen', List.map_cons, escape_val, List.singleton_append]

/-- A word with an escape, between delimiters. -/
example : readString (.mk' [32, 97, 92, 110, 98, 59, 99]) = .ret [97, 10, 98] ((TIS.mk' [32, 97, 92, 110, 98, 59, 99]).adv 6) :=
  readWord_partial (s := .mk' [32, 97, 92, 110, 98, 59, 99]) (ds := [32]) (l := [.lit 97, .esc 110, .lit 98]) (t := [59, 99])
    ⟨by decide, by decide, rfl, rfl⟩ rfl (by decide) (by simp) (by intro c hc; simp at hc; rcases hc with rfl | rfl <;> decide)
    (by intro c hc; simp at hc; subst hc; decide) (by decide) (by decide)
    (.inr ⟨59, [99], rfl, by decide⟩)

/-- **C43** (partial): a quoted text is read as what is between the quotes, whatever it contains, and the closing quote is
consumed; without a closing quote it is everything up to the end. What is missing: an escaped backslash, see
`readString_violated`. -/
theorem readQuoted_partial {s : TIS} (h : s.Ok) {ds t : List Byte} {q : Byte} {l : List Item}
    (hq : q = 34 ∨ q = 39) (hu : s.unread = ds ++ q :: rawAll l ++ t)
    (hd : ∀ d ∈ ds, s.isDelim d = true) (hqd : s.isDelim q = false)
    (hlit : ∀ c, Item.lit c ∈ l → c ≠ q ∧ c ≠ 92) (hesc : ∀ c, Item.esc c ∈ l → c ≠ 92)
    (ht : t = [] ∨ ∃ r, t = q :: r) :
    readString s = .ret (l.map Item.val)
      (if t = [] then (s.adv (ds.length + 1 + (rawAll l).length)).eof else s.adv (ds.length + 1 + (rawAll l).length + 1)) := by
  have q0 : q ≠ 0 := by rcases hq with rfl | rfl <;> decide
  have q92 : q ≠ 92 := by rcases hq with rfl | rfl <;> decide
  have hu0 : s.unread = ds ++ q :: (rawAll l ++ t) := by rw [hu]; simp
  have hu1 : s.unread = (ds ++ [q]) ++ (rawAll l ++ t) := by rw [hu0]; simp
  have ha := h.adv hu1
  have hl1 : (ds ++ [q]).length = ds.length + 1 := by simp
  rw [hl1] at ha
  rw [readString, M.bind_ret (skipDelims_ok h hu0 hd hqd), if_neg q0, M.bind_ret (look_eq _ _), ha.1.remaining, ha.2, if_pos hq]
  have e1 : (rawAll l ++ t).length + 2 = (t.length + 1 + 1) + (rawAll l).length := by simp; omega
  rw [e1]
  obtain ⟨y, hy, e⟩ := strLoop_items q l (t.length + 1 + 1) (s.adv (ds.length + 1)) q [] t ha.1 ha.2 q92 q92
    (fun c hc => ⟨(hlit c hc).1, (hlit c hc).2, fun e => absurd e q0⟩) (fun c hc => ⟨hesc c hc, fun e => absurd e q0⟩)
    (fun e => absurd e q0)
  have hb := ha.1.adv ha.2
  rw [e, List.nil_append]
  rcases ht with rfl | ⟨r, rfl⟩
  · rw [if_pos rfl, TIS.adv_adv, strLoop_end (by rw [← TIS.adv_adv]; exact hb.1) (by rw [← TIS.adv_adv]; exact hb.2)]
  · rw [if_neg (by simp), strLoop_quote hb.1 hb.2 q0 _ _ hy, TIS.adv_adv, TIS.adv_adv, Nat.add_assoc (ds.length + 1)]

/-- A quoted text with a delimiter, an escape and an escaped quote. -/
example : readString (.mk' [34, 97, 32, 92, 116, 92, 34, 34, 99]) = .ret [97, 32, 9, 34] ((TIS.mk' [34, 97, 32, 92, 116, 92, 34, 34, 99]).adv 8) :=
  readQuoted_partial (s := .mk' [34, 97, 32, 92, 116, 92, 34, 34, 99]) (ds := []) (q := 34)
    (l := [.lit 97, .lit 32, .esc 116, .esc 34]) (t := [34, 99])
    ⟨by decide, by decide, rfl, rfl⟩ (.inl rfl) rfl (by decide) (by decide) (by intro c hc; simp at hc; rcases hc with rfl | rfl <;> decide)
    (by intro c hc; simp at hc; rcases hc with rfl | rfl <;> decide) (.inr ⟨[99], rfl⟩)

/-- **C43** is false for an escaped backslash: the next character is taken as escaped too. The words `a\\tb` (an escaped
backslash, then `t`) reads as `a`, tab, `b`; and the quoted text ending in an escaped backslash does not end. -/
theorem readString_violated :
    (∃ l : List Item, ∃ v s', readString (.mk' (rawAll l)) = .ret v s' ∧ v ≠ l.map Item.val) ∧
    (∃ l : List Item, ∃ v s', readString (.mk' ([34] ++ rawAll l ++ [34, 98])) = .ret v s' ∧ v ≠ l.map Item.val) := by
  refine ⟨⟨[.lit 97, .esc 92, .lit 116, .lit 98], [97, 9, 98],
    ((TIS.mk' (rawAll [.lit 97, .esc 92, .lit 116, .lit 98])).adv 5).eof, by decide, by decide⟩,
    ⟨[.lit 97, .esc 92], [97, 34, 98], ((TIS.mk' ([34] ++ rawAll [.lit 97, .esc 92] ++ [34, 98])).adv 6).eof, by decide, by decide⟩⟩

end Ustl.Text
