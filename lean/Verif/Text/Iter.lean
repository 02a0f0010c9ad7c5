import Verif.Text.RoundTrip
/-! # C69: reading text through `istream_iterator<T, istringstream>` (mistream.h:110-167), for integers -/
namespace Ustl.Text
open Ustl.Stream

/-- `istream_iterator<T, istringstream>` for an integer type: whether `_pis` is set, and `_v`. Models mistream.h:125-167. -/
structure TItr where
  /-- `_pis != nullptr` -/
  on : Bool
  /-- `_v` -/
  v : Int
deriving DecidableEq, Repr

/-- `*_pis >> _v`, and `stream_at_eof`, which asks a text stream for `eof ()`. Models mistream.h:115-116, 160-162. -/
def TItr.fetch (t : ITy) : M TIS TItr := do
  let v ← readInt t
  let e ← look (fun s : TIS => s.is.ios.eof)
  pure ⟨!e, v⟩

/-- `Read ()`: for a text stream one byte is asked for. Models mistream.h:110-111, 151-163. -/
def TItr.next (t : ITy) (it : TItr) : M TIS TItr :=
  if it.on then (do if ← more then TItr.fetch t else pure ⟨false, it.v⟩) else pure it

/-- `copy (i, istream_iterator<T, istringstream>(), out)`: it stores `vs` and leaves the stream `s'`.
Models ualgobase.h:77-84, mistream.h:139-148. -/
inductive TCopies (t : ITy) : TItr → TIS → List Int → TIS → Prop
  /-- the iterator is at the end -/
  | done {it : TItr} {s : TIS} : it.on = false → TCopies t it s [] s
  /-- one more value -/
  | more {it it' : TItr} {s s' s'' : TIS} {vs : List Int} : it.on = true → it.next t s = .ret it' s' →
      TCopies t it' s' vs s'' → TCopies t it s (it.v :: vs) s''

/-- `copy (istream_iterator<T, istringstream>(is), istream_iterator<T, istringstream>(), out)`.
Models mistream.h:136, ualgobase.h:77-84. -/
inductive TCopiesAll (t : ITy) : TIS → List Int → TIS → Prop
  /-- the constructor returns an iterator -/
  | made {it : TItr} {s s' s'' : TIS} {vs : List Int} : TItr.next t ⟨true, 0⟩ s = .ret it s' → TCopies t it s' vs s'' →
      TCopiesAll t s vs s''

theorem TCopies.det {t : ITy} {it : TItr} {s a b : TIS} {vs ws : List Int} (h : TCopies t it s vs a)
    (h' : TCopies t it s ws b) : vs = ws ∧ a = b := by
  induction h generalizing ws b with
  | done e =>
    cases h' with
    | done => exact ⟨rfl, rfl⟩
    | more e' => rw [e] at e'; cases e'
  | more e n _ ih =>
    cases h' with
    | done e' => rw [e] at e'; cases e'
    | more e' n' h' =>
      rw [n] at n'; injection n' with n1 n2
      subst n1; subst n2
      obtain ⟨rfl, rfl⟩ := ih h'
      exact ⟨rfl, rfl⟩

/-- **C69** one copy has one outcome. -/
theorem text_iter_unique {t : ITy} {s a b : TIS} {vs ws : List Int} (h : TCopiesAll t s vs a)
    (h' : TCopiesAll t s ws b) : vs = ws ∧ a = b := by
  cases h with
  | made n c =>
    cases h' with
    | made n' c' => rw [n] at n'; injection n' with n1 n2; subst n1; subst n2; exact c.det c'

theorem eof_eof (s : TIS) : s.eof.is.ios.eof = true := by
  unfold TIS.eof Ios.eof
  simp only [decide_eq_true_eq]
  intro h0
  have : ((s.is.ios.state ||| 6) &&& 2).testBit 1 = false := by rw [h0]; simp
  simp [Nat.testBit_and, Nat.testBit_or, show Nat.testBit 6 1 = true by decide, show Nat.testBit 2 1 = true by decide] at this

/-- `Read ()` when the text of a number follows. -/
theorem next_number {s : TIS} (h : s.Ok) {f : Fmt} (hw : f.width = 0) (hr : Reads s f.base) {t : ITy}
    (ht : t ∈ ITy.all) {v : Int} (hv : t.fits v) (h64 : t.bits = 64 → v < 2 ^ 63 ∧ (f.base = .dec ∨ 0 ≤ v))
    {ds rest : List Byte} (hu : s.unread = ds ++ intText f t v ++ rest) (hd : ∀ d ∈ ds, s.isDelim d = true)
    (hend : ∃ c r, rest ++ s.after = c :: r ∧ digitVal c = none) (he : s.is.ios.eof = false) (w : Int) :
    TItr.next t ⟨true, w⟩ s = if rest = [] then .ret ⟨false, v⟩ (s.adv (ds.length + (intText f t v).length)).eof
      else .ret ⟨true, v⟩ (s.adv (ds.length + (intText f t v).length)) := by
  have e := readInt_text h hw hr hu hd hend
  rw [conv_back ht hv h64] at e
  have hne : s.unread ≠ [] := by
    obtain ⟨c, txt, e, _⟩ := intText_cons hw t v
    rw [hu, e]; simp
  unfold TItr.next
  rw [if_pos rfl, M.bind_ret (more_yes h hne), if_pos rfl, TItr.fetch, M.bind_ret e, M.bind_ret (look_eq _ _)]
  by_cases hr0 : rest = []
  · rw [if_pos hr0, if_pos hr0, eof_eof]; rfl
  · rw [if_neg hr0, if_neg hr0]
    have : (s.adv (ds.length + (intText f t v).length)).is.ios.eof = false := he
    rw [this]; rfl

/-- `Read ()` when nothing but delimiters follows. -/
theorem next_end {s : TIS} (h : s.Ok) (hd : ∀ d ∈ s.unread, s.isDelim d = true) (t : ITy) (w : Int) :
    ∃ v s', TItr.next t ⟨true, w⟩ s = .ret ⟨false, v⟩ s' := by
  unfold TItr.next
  rw [if_pos rfl]
  by_cases hu : s.unread = []
  · rw [M.bind_ret (more_no h hu), if_neg (by simp)]
    exact ⟨w, _, rfl⟩
  · rw [M.bind_ret (more_yes h hu), if_pos rfl]
    have e : ∀ b, readNumber b s = .ret 0 (s.adv s.unread.length).eof := by
      intro b
      rw [readNumber, M.bind_ret (skipDelims_end h hd), if_pos rfl]; rfl
    have e2 : readInt t s = .ret (t.conv 0) (s.adv s.unread.length).eof := by
      rw [readInt, M.bind_ret (e _)]; rfl
    rw [TItr.fetch, M.bind_ret e2, M.bind_ret (look_eq _ _), eof_eof]
    exact ⟨_, _, rfl⟩

theorem tcopies_text {f : Fmt} (hw : f.width = 0) {t : ITy} (ht : t ∈ ITy.all) {sep : Byte} (hsep : digitVal sep = none)
    (last : Option Int) (vs : List Int) :
    ∀ {s : TIS} {w : Int} {ds : List Byte}, s.Ok → Reads s f.base → s.isDelim sep = true → s.is.ios.eof = false →
    (∀ v ∈ vs ++ last.toList, t.fits v) →
    (∀ v ∈ vs ++ last.toList, t.bits = 64 → v < 2 ^ 63 ∧ (f.base = .dec ∨ 0 ≤ v)) →
    (∃ c r, s.after = c :: r ∧ digitVal c = none) →
    s.unread = ds ++ intsText f t sep vs ++ (last.toList.flatMap (intText f t)) → (∀ d ∈ ds, s.isDelim d = true) →
    ∃ it s' s'', TItr.next t ⟨true, w⟩ s = .ret it s' ∧ TCopies t it s' vs s'' := by
  induction vs with
  | nil =>
    intro s w ds h hr hs he hv h64 ha hu hd
    cases last with
    | none =>
      obtain ⟨v, s', e⟩ := next_end h (by rw [hu]; simpa [intsText] using hd) t w
      exact ⟨_, s', s', e, .done rfl⟩
    | some v =>
      have hu1 : s.unread = ds ++ intText f t v ++ [] := by rw [hu]; simp [intsText]
      have e := next_number h hw hr ht (hv v (by simp)) (h64 v (by simp)) hu1 hd (by simpa using ha) he w
      rw [if_pos rfl] at e
      exact ⟨_, _, _, e, .done rfl⟩
  | cons v vs ih =>
    intro s w ds h hr hs he hv h64 ha hu hd
    have hu1 : s.unread = ds ++ intText f t v ++
        (sep :: (intsText f t sep vs ++ last.toList.flatMap (intText f t))) := by rw [hu]; simp [intsText]
    have e := next_number h hw hr ht (hv v (by simp)) (h64 v (by simp)) hu1 hd ⟨sep, _, rfl, hsep⟩ he w
    rw [if_neg (by simp)] at e
    have hadv := h.adv hu1
    rw [List.length_append] at hadv
    obtain ⟨it, s', s'', n, c⟩ := ih (w := v) (ds := [sep]) hadv.1 ⟨hr.base, hr.sign, hr.digit⟩ hs he
      (fun x hx => hv x (List.mem_cons_of_mem _ hx)) (fun x hx => h64 x (List.mem_cons_of_mem _ hx)) ha
      (by rw [hadv.2]; simp) (by intro d hd'; simp at hd'; subst hd'; exact hs)
    exact ⟨_, _, s'', e, .more rfl n c⟩

/-- **C69** copying integers from text through an `istream_iterator`, when each of them is followed by a separator: it stores
exactly the numbers, in order. What is missing: a last number without a separator (`text_iter_last_violated`). -/
theorem text_iter_partial {s : TIS} (h : s.Ok) {f : Fmt} (hw : f.width = 0) (hr : Reads s f.base) {t : ITy}
    (ht : t ∈ ITy.all) {sep : Byte} (hsep : digitVal sep = none) (hs : s.isDelim sep = true)
    (he : s.is.ios.eof = false) {vs : List Int} (hv : ∀ v ∈ vs, t.fits v)
    (h64 : ∀ v ∈ vs, t.bits = 64 → v < 2 ^ 63 ∧ (f.base = .dec ∨ 0 ≤ v))
    (ha : ∃ c r, s.after = c :: r ∧ digitVal c = none) (hu : s.unread = intsText f t sep vs) :
    ∃ s', TCopiesAll t s vs s' := by
  obtain ⟨it, s', s'', n, c⟩ := tcopies_text hw ht hsep none vs (w := 0) (ds := []) h hr hs he (by simpa using hv)
    (by simpa using h64) ha (by rw [hu]; simp) (by simp)
  exact ⟨s'', .made n c⟩

/-- **C69** if the text ends with the last number, that number is lost: reading it reaches the end, `eof ()` is true, and the
iterator takes this to mean that nothing was read. -/
theorem text_iter_last_violated {s : TIS} (h : s.Ok) {f : Fmt} (hw : f.width = 0) (hr : Reads s f.base) {t : ITy}
    (ht : t ∈ ITy.all) {sep : Byte} (hsep : digitVal sep = none) (hs : s.isDelim sep = true)
    (he : s.is.ios.eof = false) {vs : List Int} {l : Int} (hv : ∀ v ∈ vs ++ [l], t.fits v)
    (h64 : ∀ v ∈ vs ++ [l], t.bits = 64 → v < 2 ^ 63 ∧ (f.base = .dec ∨ 0 ≤ v))
    (ha : ∃ c r, s.after = c :: r ∧ digitVal c = none) (hu : s.unread = intsText f t sep vs ++ intText f t l) :
    ∃ s', TCopiesAll t s vs s' := by
  obtain ⟨it, s', s'', n, c⟩ := tcopies_text hw ht hsep (some l) vs (w := 0) (ds := []) h hr hs he hv
    h64 ha (by rw [hu]; simp) (by simp)
  exact ⟨s'', .made n c⟩

/-- The text "5 -7". -/
example : ∃ s', TCopiesAll ⟨32, true⟩ (.mk' [53, 32, 45, 55]) [5] s' := by
  refine text_iter_last_violated (f := {}) (l := -7) (sep := 32) ⟨by decide, by decide, rfl, rfl⟩ rfl (reads_default _ _)
    (by decide) (by decide) rfl rfl ?_ ?_ ⟨0, [], rfl, by decide⟩ (by decide)
  · intro v hv; simp at hv; rcases hv with rfl | rfl <;> (unfold ITy.fits; decide)
  · intro v hv h; simp at h

end Ustl.Text
