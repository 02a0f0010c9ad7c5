import Verif.Text.History
import Verif.Text.Safety
/-! # Delimiters, wide characters, booleans and str (s): theorems for C43 and C57 -/
namespace Ustl.Text
open Ustl.Stream

/-! ## Delimiters -/

/-- **C43** after `set_delimiters (d)` a character is a delimiter exactly if it is one of the first 15 of `d`, or the zero
character if `d` has fewer than 15; the array of 16 is filled exactly and ends with a zero. -/
theorem delimiters_spec (s : TIS) (d : List Byte) (c : Byte) :
    (delimArray d).length = 16 ∧ (delimArray d)[15]? = some 0 ∧
    (({ s with delims := delimArray d } : TIS).isDelim c = true ↔ c ∈ d.take 15 ∨ (c = 0 ∧ d.length < 15)) := by
  have hlen : (delimArray d).length = 16 := by unfold delimArray; simp
  refine ⟨hlen, ?_, ?_⟩
  · unfold delimArray
    rw [List.getElem?_append_right (by simp), List.getElem?_replicate]
    rw [if_pos (by simp; omega)]
  · unfold TIS.isDelim
    show ((delimArray d).take 15).contains c = true ↔ _
    unfold delimArray
    rw [List.contains_iff_mem, List.take_append, List.mem_append, List.take_take, List.take_replicate, List.mem_replicate]
    simp only [Nat.min_self, List.length_take]
    constructor
    · rintro (h | ⟨h, rfl⟩)
      · exact Or.inl h
      · exact Or.inr ⟨rfl, by omega⟩
    · rintro (h | ⟨rfl, h⟩)
      · exact Or.inl h
      · exact Or.inr ⟨by omega, rfl⟩

example : (delimArray [44]).length = 16 ∧ ({ TIS.mk' [] with delims := delimArray [44] } : TIS).isDelim 44 = true ∧
    ({ TIS.mk' [] with delims := delimArray [44] } : TIS).isDelim 32 = false := by decide

/-- **C43** a new stream separates words at spaces, tabs, newlines, returns, zeros and the characters `;:,.?`, and at no
others. -/
theorem default_delimiters (text after : List Byte) (c : Byte) :
    (TIS.mk' text after).isDelim c = true ↔ c = 0 ∨ c ∈ " \t\n\r;:,.?".toUTF8.toList := by
  have h := (delimiters_spec (TIS.mk' text after) defaultDelims c).2.2
  have e : ({ TIS.mk' text after with delims := delimArray defaultDelims } : TIS) = TIS.mk' text after := rfl
  rw [e] at h
  rw [h]
  have e2 : defaultDelims.take 15 = " \t\n\r;:,.?".toUTF8.toList := by decide +kernel
  rw [e2]
  constructor
  · rintro (h | ⟨h, _⟩)
    · exact Or.inr h
    · exact Or.inl h
  · rintro (h | h)
    · exact Or.inr ⟨h, by decide⟩
    · exact Or.inl h

example : (TIS.mk' []).isDelim 58 = true ∧ (TIS.mk' []).isDelim 97 = false := by decide

/-! ## Wide characters -/

/-- **C43** reading a wide character: after any delimiters, the UTF-8 encoding of any value (not zero, below 2^31) is read
as that value, and exactly its bytes are consumed. -/
theorem read_wchar {s : TIS} (h : s.Ok) {ds rest : List Byte} {v : Nat} (hv : v < 2 ^ 31)
    (hu : s.unread = ds ++ (Utf8.table v ++ rest)) (hd : ∀ d ∈ ds, s.isDelim d = true)
    (hc : ∀ c ∈ (Utf8.table v).head?, s.isDelim c = false ∧ c ≠ 0) :
    readWchar s = .ret v (s.adv (ds.length + (Utf8.table v).length)) := by
  obtain ⟨hr, c, r, et, hs⟩ := Utf8.read_table hv (s.is.buf.take (s.is.pos + ds.length)) rest
  obtain ⟨hc1, hc0⟩ := hc c (by rw [et]; rfl)
  have hu' : s.unread = ds ++ c :: (r ++ rest) := by rw [hu, et]; rfl
  have hlen : s.is.pos + (ds.length + 1) ≤ s.is.buf.length := by
    have := congrArg List.length hu'
    have hp := h.pos
    simp [TIS.unread] at this
    omega
  have ha := h.adv hu
  have hbuf : s.is.buf = s.is.buf.take (s.is.pos + ds.length) ++ (Utf8.table v ++ rest) := by
    have e : s.is.buf.drop (s.is.pos + ds.length) = Utf8.table v ++ rest := ha.2
    rw [← e, List.take_append_drop]
  have hw : wcharAt (s.adv ds.length) = some v := by
    show (Utf8.read s.is.buf (s.is.pos + ds.length)).map (·.v) = some v
    have hl : (s.is.buf.take (s.is.pos + ds.length)).length = s.is.pos + ds.length := by simp; omega
    rw [hl, ← hbuf] at hr
    rw [hr]
    rfl
  rw [Text.readWchar]
  rw [M.bind_ret (skipDelims_ok h hu' hd hc1), if_neg hc0, M.bind_ret (ungetc_adv h hlen), M.bind_ret (look_eq _ _), hs,
    ha.1.remaining, ha.2, if_neg (by simp), M.bind_ret (M.pure_eq _ _)]
  beta_reduce
  rw [if_neg (by decide), M.bind_ret (look_eq _ _), hw]
  dsimp only
  rw [M.bind_ret (skip_ok ha.1 ha.2)]
  rw [M.pure_eq, TIS.adv_adv]

example : (TIS.mk' [32, 0xC3, 0xA9, 33]).Ok ∧ (TIS.mk' [32, 0xC3, 0xA9, 33]).unread = [32] ++ (Utf8.table 0xE9 ++ [33]) :=
  ⟨⟨by decide, by decide, rfl, rfl⟩, by decide⟩

/-- **C57** a wide character written is read back: the text of `os << c` read by `is >> c`. -/
theorem wchar_roundtrip {o : TOS} (ho : o.Ok) {v : Nat} (hv : v < 2 ^ 31) (hl : o.text.length + 6 + 1 < 2 ^ 31) :
    ∃ o', writeWchar v o = .ret () o' ∧ o'.text = o.text ++ Utf8.table v ∧
      ∀ (s : TIS) (rest : List Byte), s.Ok → s.unread = Utf8.table v ++ rest →
        (∀ c ∈ (Utf8.table v).head?, s.isDelim c = false ∧ c ≠ 0) →
        readWchar s = .ret v (s.adv (Utf8.table v).length) := by
  have h6 : (Utf8.table v).length ≤ 6 := by
    unfold Utf8.table
    repeat' split
    all_goals simp
  have hlen := Utf8.table_length hv
  obtain ⟨o', e, w⟩ := write_ok' ho (Utf8.table v) (by omega)
  refine ⟨o', ?_, w.text, fun s rest hs hu hc => ?_⟩
  · unfold writeWchar
    rw [Utf8.out_table hv]
    simp only
    rw [if_pos (by omega), ← hlen, List.take_length]
    exact e
  · have := read_wchar (ds := []) hs hv hu (by simp) hc
    simpa using this

/-! ## Booleans -/

/-- The names. -/
def boolName (b : Bool) : List Byte := if b then "true".toUTF8.toList else "false".toUTF8.toList

theorem boolName_eq (b : Bool) : boolName b = if b then [116, 114, 117, 101] else [102, 97, 108, 115, 101] := by
  revert b; decide +kernel

theorem boolLoop_stop {s : TIS} {i : Nat} {c t : Byte} (ht : tf[i]? = some t) (hc : c ≠ t) (f : Nat) :
    boolLoop (f + 1) i c s = .ret () s := by
  rw [boolLoop, boolRound, ht]
  dsimp only
  rw [if_neg hc]
  rfl

theorem boolLoop_out {s : TIS} (h : s.Ok) (hu : s.unread = []) {i : Nat} {c : Byte} (ht : tf[i]? = some c) (f : Nat) :
    boolLoop (f + 1) i c s = .ret () s.eof := by
  rw [boolLoop, boolRound, ht]
  dsimp only
  rw [if_pos rfl, M.bind_ret (more_no h hu), if_neg (by simp)]
  rfl

/-- The loop runs through the rest of a name and stops at a character that is not zero. -/
theorem boolLoop_name (l : List Byte) : ∀ (f i : Nat) (c d : Byte) (r : List Byte) (s : TIS), s.Ok →
    s.unread = l ++ d :: r → l.length + 1 < f → tf[i]? = some c → (∀ k (h : k < l.length), tf[i + 1 + k]? = some l[k]) →
    tf[i + 1 + l.length]? = some 0 → d ≠ 0 → boolLoop f i c s = .ret () (s.adv (l.length + 1)) := by
  induction l with
  | nil =>
    intro f i c d r s h hu hf hc _ h0 hd
    obtain ⟨f, rfl⟩ : ∃ g, f = g + 2 := ⟨f - 2, by simp at hf; omega⟩
    rw [boolLoop_step h hu hc]
    exact boolLoop_stop (i := i + 1) h0 hd f
  | cons e l ih =>
    intro f i c d r s h hu hf hc hl h0 hd
    obtain ⟨f, rfl⟩ : ∃ g, f = g + 1 := ⟨f - 1, by simp at hf; omega⟩
    have hu' : s.unread = e :: (l ++ d :: r) := hu
    have ha := h.adv1 hu'
    rw [boolLoop_step h hu' hc]
    rw [ih f (i + 1) e d r _ ha.1 ha.2 (by simp at hf; omega) (hl 0 (by simp))
      (fun k hk => by have := hl (k + 1) (by simpa using hk); rw [show i + 1 + 1 + k = i + 1 + (k + 1) by omega]; simpa using this)
      (by rw [show i + 1 + 1 + l.length = i + 1 + (e :: l).length by simp; omega]; exact h0) hd]
    rw [TIS.adv_adv]
    congr 2
    simp; omega

theorem readBool_run {s : TIS} (h : s.Ok) {ds : List Byte} {b : Bool} {c : Byte} {l r : List Byte} {d : Byte}
    (hu : s.unread = ds ++ c :: (l ++ d :: r)) (hd : ∀ d ∈ ds, s.isDelim d = true) (hcd : s.isDelim c = false)
    (hv : decide (c = 116 ∨ c = 49) = b) (hc : c = if b then 116 else 102)
    (hl : l.length < 18) (ht : ∀ k (h : k < l.length), tf[(if b then 8 else 0) + 1 + k]? = some l[k])
    (h1 : tf[if b then 8 else 0]? = some c) (h0 : tf[(if b then 8 else 0) + 1 + l.length]? = some 0) (hd0 : d ≠ 0) :
    readBool s = .ret b (s.adv (ds.length + (l.length + 1))) := by
  have hs := skipDelims_ok h hu hd hcd
  have ha := h.adv (l := ds ++ [c]) (r := l ++ d :: r) (by rw [hu]; simp)
  rw [List.length_append, List.length_singleton] at ha
  rw [Text.readBool]
  rw [M.bind_ret hs]
  rw [hv, if_neg (by simpa using hc)]
  rw [M.bind_ret (boolLoop_name l 20 _ c d r _ ha.1 ha.2 (by omega) h1 ht h0 hd0)]
  rw [TIS.adv_adv, show ds.length + 1 + (l.length + 1) = (ds.length + (l.length + 1)) + 1 by omega]
  have hlen : s.is.pos + ((ds.length + (l.length + 1)) + 1) ≤ s.is.buf.length := by
    have := congrArg List.length hu
    have hp := h.pos
    simp [TIS.unread] at this
    omega
  rw [M.bind_ret (ungetc_adv h hlen)]
  rfl

/-- **C43** reading a boolean: after any delimiters, `true` or `false` followed by another character is read as that value
and exactly the word is consumed. -/
theorem read_bool_partial {s : TIS} (h : s.Ok) {ds rest : List Byte} {b : Bool} {d : Byte}
    (hu : s.unread = ds ++ (boolName b ++ d :: rest)) (hd : ∀ d ∈ ds, s.isDelim d = true)
    (hc : ∀ c ∈ (boolName b).head?, s.isDelim c = false) (hd0 : d ≠ 0) :
    readBool s = .ret b (s.adv (ds.length + (boolName b).length)) := by
  rw [boolName_eq] at hu hc ⊢
  cases b with
  | true =>
    exact readBool_run h (b := true) (l := [114, 117, 101]) hu hd (hc _ rfl) (by decide) rfl (by decide)
      (by decide) rfl rfl hd0
  | false =>
    exact readBool_run h (b := false) (l := [97, 108, 115, 101]) hu hd (hc _ rfl) (by decide) rfl (by decide)
      (by decide) rfl rfl hd0

example : (TIS.mk' [32, 116, 114, 117, 101, 44]).unread = [32] ++ (boolName true ++ 44 :: []) := by decide +kernel

/-- **C43** the digits: `1` is read as true, any other character that is neither a delimiter nor the `f` or `t` of a name as
false, and one character is consumed. -/
theorem read_bool_digit {s : TIS} (h : s.Ok) {ds rest : List Byte} {c : Byte} (hu : s.unread = ds ++ c :: rest)
    (hd : ∀ d ∈ ds, s.isDelim d = true) (hc : s.isDelim c = false) (hn : c ≠ 116 ∧ c ≠ 102) :
    readBool s = .ret (decide (c = 49)) (s.adv (ds.length + 1)) := by
  rw [Text.readBool]
  rw [M.bind_ret (skipDelims_ok h hu hd hc)]
  by_cases e : c = 49
  · subst e
    rw [if_pos (by decide)]
    rfl
  · have : decide (c = 116 ∨ c = 49) = false := by simp [hn.1, e]
    rw [this, if_pos (by simpa using hn.2)]
    simp [e, M.pure_eq]

example : (TIS.mk' [49, 32]).isDelim 49 = false := by decide

/-- **C43** a boolean at the very end of the text: the value is read, but the last letter is put back, so the next thing
read is the letter `e`, and the stream reports the end of the text although it is not at the end. -/
theorem read_bool_end_violated :
    ∃ s', readBool (.mk' [116, 114, 117, 101]) = .ret true s' ∧ s'.unread = [101] ∧ s'.is.ios.state = 6 := by
  have h : (TIS.mk' [116, 114, 117, 101]).Ok := ⟨by decide, by decide, rfl, rfl⟩
  have e : (TIS.mk' [116, 114, 117, 101]).unread = [] ++ 116 :: [114, 117, 101] := rfl
  have hd : (TIS.mk' [116, 114, 117, 101]).isDelim 116 = false := by decide
  have hst : (TIS.mk' [116, 114, 117, 101]).is.ios.state = 0 := rfl
  have hl : (TIS.mk' [116, 114, 117, 101]).is.pos + (3 + 1) ≤ (TIS.mk' [116, 114, 117, 101]).is.buf.length := by decide
  have hun : ((TIS.mk' [116, 114, 117, 101]).adv 3).unread = [101] := by decide
  generalize TIS.mk' [116, 114, 117, 101] = s at h e hd hst hl hun ⊢
  have h1 := h.adv1 (c := 116) (r := [114, 117, 101]) e
  have h2 := h1.1.adv1 (c := 114) (r := [117, 101]) h1.2
  have h3 := h2.1.adv1 (c := 117) (r := [101]) h2.2
  have h4 := h3.1.adv1 (c := 101) (r := []) h3.2
  have hb : boolLoop 20 8 116 (s.adv 1) = .ret () ((((s.adv 1).adv 1).adv 1).adv 1).eof := by
    rw [boolLoop_step h1.1 h1.2 rfl, boolLoop_step h2.1 h2.2 rfl, boolLoop_step h3.1 h3.2 rfl]
    exact boolLoop_out h4.1 h4.2 rfl _
  have hu := ungetc_adv h.eof (k := 3) hl
  refine ⟨s.eof.adv 3, ?_, hun, ?_⟩
  · unfold readBool
    rw [M.bind_ret (skipDelims_ok h e (by simp) hd)]
    rw [show decide ((116 : Byte) = 116 ∨ (116 : Byte) = 49) = true from by decide, if_neg (by decide)]
    have hb' : boolLoop 20 (if true = true then 8 else 0) 116 (s.adv (([] : List Byte).length + 1)) = .ret () (s.eof.adv (3 + 1)) := hb
    rw [M.bind_ret hb', M.bind_ret hu]
    rfl
  · show s.is.ios.state ||| 6 = 6
    rw [hst]; rfl

/-! ## str (s) -/

/-- **C57** `str (v)` replaces the text: afterwards the stream holds exactly `v`, and what is written then follows it. -/
theorem set_str {s : TOS} (h : s.os.ios.state = 0) (hf : s.fmt.Plain) (v : List Byte) (ops : List WOp)
    (ho : ∀ op ∈ ops, op.Fits) (hl : v.length + (ops.map (WOp.text s.fmt)).flatten.length + 1 < 2 ^ 31) :
    ∃ s' s'', setStr v s = .ret () s' ∧ s'.Ok ∧ s'.text = v ∧
      (do writeAll ops; str : M TOS (List Byte)) s' = .ret (v ++ (ops.map (WOp.text s.fmt)).flatten) s'' := by
  have hok : ({ s with os := { s.os with buf := v, pos := v.length }, own := true, cap := max s.cap (v.length + 1), copy := none } : TOS).Ok :=
    ⟨rfl, rfl, Nat.le_refl _, by show v.length < 2 ^ 31; omega, h⟩
  have ht : ({ s with os := { s.os with buf := v, pos := v.length }, own := true, cap := max s.cap (v.length + 1), copy := none } : TOS).text = v := by
    show v.take v.length = v
    exact List.take_length
  obtain ⟨s'', e, _⟩ := ostringstream_history ops hok hf ho (by rw [ht]; exact hl)
  rw [ht] at e
  exact ⟨_, s'', rfl, hok, ht, e⟩

example : (TOS.ofString [97] (fun _ => 0)).os.ios.state = 0 ∧ (TOS.ofString [] (fun _ => 0)).fmt.Plain :=
  ⟨rfl, (new_ok _).2.2⟩

end Ustl.Text
