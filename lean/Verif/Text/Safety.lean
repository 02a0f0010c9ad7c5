import Verif.Text.RoundTrip
/-! # istringstream: any sequence of operations stays inside the text (C43) -/
namespace Ustl.Text
open Ustl.Stream

/-- A C string: no zero byte in it, one after it. -/
structure TIS.CStr (s : TIS) : Prop where
  ok : s.Ok
  nz : (0 : Byte) ∉ s.is.buf
  term : s.after.head? = some 0

/-- `m` on a C string returns, and leaves the text, and what is after it, alone. -/
def Safe {α : Type} (m : M TIS α) : Prop :=
  ∀ s : TIS, s.CStr → ∃ a s', m s = .ret a s' ∧ s'.Ok ∧ s'.is.buf = s.is.buf ∧ s'.after = s.after

theorem TIS.CStr.next {s s' : TIS} (h : s.CStr) (h' : s'.Ok) (hb : s'.is.buf = s.is.buf) (ha : s'.after = s.after) : s'.CStr :=
  ⟨h', by rw [hb]; exact h.nz, by rw [ha]; exact h.term⟩

theorem Safe.bind {α β : Type} {m : M TIS α} {f : α → M TIS β} (hm : Safe m) (hf : ∀ a, Safe (f a)) : Safe (m >>= f) := by
  intro s h
  obtain ⟨a, s1, e1, h1, b1, a1⟩ := hm s h
  obtain ⟨b, s2, e2, h2, b2, a2⟩ := hf a s1 (h.next h1 b1 a1)
  exact ⟨b, s2, by rw [M.bind_ret e1]; exact e2, h2, b2.trans b1, a2.trans a1⟩

theorem Safe.pure {α : Type} (a : α) : Safe (Pure.pure a : M TIS α) := fun s h => ⟨a, s, rfl, h.ok, rfl, rfl⟩

theorem Safe.look {α : Type} (f : TIS → α) : Safe (Text.look f) := fun s h => ⟨f s, s, rfl, h.ok, rfl, rfl⟩

theorem Safe.setCount (n : Nat) : Safe (Text.setCount n) := fun _ h => ⟨(), _, rfl, h.ok.cnt _, rfl, rfl⟩

theorem seek_any {s : TIS} (h : s.Ok) (p : Nat) : ∃ s', lift (IS.seek p) s = .ret () s' ∧ s'.Ok ∧ s'.is.buf = s.is.buf ∧ s'.after = s.after ∧
    s'.delims = s.delims := by
  by_cases hp : p ≤ s.is.buf.length
  · exact ⟨_, seek_ok p hp, ⟨hp, h.len, h.exc, h.del⟩, rfl, rfl, rfl⟩
  · have e : IS.seek p s.is = IS.over () s.is.buf.length s.is := by unfold IS.seek; rw [if_pos (by omega)]
    rw [over_eq _ _ _ h.exc] at e
    exact ⟨_, lift_ret e, ⟨h.pos, h.len, h.exc, h.del⟩, rfl, rfl, rfl⟩

theorem ungetc_any {s : TIS} (h : s.Ok) : ∃ s', lift IS.ungetc s = .ret () s' ∧ s'.Ok ∧ s'.is.buf = s.is.buf ∧ s'.after = s.after ∧
    s'.delims = s.delims := by
  rw [ungetc_seek rfl]
  exact seek_any h _

theorem skip_seek (s : TIS) (n : Nat) : lift (IS.skip n) s = lift (IS.seek ((s.is.pos + n) % W)) s := lift_congr (by rw [IS.skip])

theorem skip_any {s : TIS} (h : s.Ok) (n : Nat) : ∃ s', lift (IS.skip n) s = .ret () s' ∧ s'.Ok ∧ s'.is.buf = s.is.buf ∧ s'.after = s.after ∧
    s'.delims = s.delims := by
  rw [skip_seek]
  exact seek_any h _

theorem Safe.ungetc : Safe (lift IS.ungetc) := by
  intro s h
  obtain ⟨s', e, a, b, c, _⟩ := ungetc_any h.ok
  exact ⟨(), s', e, a, b, c⟩

theorem Safe.skip (n : Nat) : Safe (lift (IS.skip n)) := by
  intro s h
  obtain ⟨s', e, a, b, c, _⟩ := skip_any h.ok n
  exact ⟨(), s', e, a, b, c⟩

theorem Safe.verify (n : Nat) : Safe (lift (IS.verify n)) := by
  intro s h
  by_cases hn : s.unread.length < n
  · refine ⟨_, _, verify_short h.ok n hn, ?_, ?_, ?_⟩ <;> split
    · exact h.ok.eof
    · exact h.ok.failed
    all_goals rfl
  · have e : IS.verify n s.is = .ret true s.is := by
      unfold IS.verify; rw [h.ok.remaining, if_pos (by omega)]
    exact ⟨_, _, lift_ret e, h.ok, rfl, rfl⟩

theorem underflow_any {s : TIS} (h : s.Ok) (n : Nat) :
    ∃ s', lift (IS.underflow n) s = .ret s.unread.length s' ∧ s'.Ok ∧ s'.is.buf = s.is.buf ∧ s'.after = s.after ∧ s'.is.pos = s.is.pos := by
  by_cases hn : s.unread.length < n
  · refine ⟨_, underflow_short h n hn, ?_, ?_, ?_, ?_⟩ <;> split
    · exact h.eof
    · exact h.failed
    all_goals rfl
  · have hv : IS.verify n s.is = .ret true s.is := by
      unfold IS.verify; rw [h.remaining, if_pos (by omega)]
    have e := lift_ret (underflow_ret hv)
    rw [h.remaining] at e
    exact ⟨_, e, h, rfl, rfl, rfl⟩

theorem Safe.underflow (n : Nat) : Safe (lift (IS.underflow n)) := by
  intro s h
  obtain ⟨s', e, a, b, c, _⟩ := underflow_any h.ok n
  exact ⟨_, s', e, a, b, c⟩

/-! ## The operations -/

theorem delim_split (p : Byte → Bool) (l : List Byte) :
    (∀ d ∈ l, p d = true) ∨ ∃ ds c r, l = ds ++ c :: r ∧ (∀ d ∈ ds, p d = true) ∧ p c = false := by
  induction l with
  | nil => left; simp
  | cons a l ih =>
    cases ha : p a with
    | false => right; exact ⟨[], a, l, rfl, by simp, ha⟩
    | true =>
      rcases ih with h | ⟨ds, c, r, e, h, hc⟩
      · left; intro d hd; simp at hd; rcases hd with rfl | hd
        · exact ha
        · exact h d hd
      · right
        refine ⟨a :: ds, c, r, by rw [e]; rfl, ?_, hc⟩
        intro d hd; simp at hd; rcases hd with rfl | hd
        · exact ha
        · exact h d hd

theorem Safe.skipDelims : Safe Text.skipDelims := by
  intro s h
  rcases delim_split s.isDelim s.unread with hd | ⟨ds, c, r, e, hd, hc⟩
  · have ha := h.ok.adv (l := s.unread) (r := []) (by simp)
    exact ⟨_, _, skipDelims_end h.ok hd, ha.1.eof, rfl, rfl⟩
  · have ha := h.ok.adv (l := ds ++ [c]) (r := r) (by rw [e]; simp)
    rw [List.length_append] at ha
    exact ⟨_, _, skipDelims_ok h.ok e hd hc, ha.1, rfl, rfl⟩

theorem strLoop_safe (f : Nat) : ∀ (q x : Byte) (v : List Byte) (s : TIS), s.Ok → (x = 92 → v ≠ []) → s.unread.length < f →
    ∃ a s', strLoop f q x v s = .ret a s' ∧ s'.Ok ∧ s'.is.buf = s.is.buf ∧ s'.after = s.after := by
  induction f with
  | zero => intro q x v s _ _ hf; omega
  | succ f ih =>
    intro q x v s h hx hf
    cases hu : s.unread with
    | nil => exact ⟨_, _, strLoop_end h hu f q x v, h.eof, rfl, rfl⟩
    | cons c r =>
      have ha := h.adv1 hu
      have hl : (s.adv 1).unread.length < f := by rw [ha.2]; rw [hu] at hf; simp at hf; omega
      rw [strLoop, strRound, M.bind_ret (more_yes h (by simp [hu])), if_pos rfl, M.bind_ret (getc_ok h hu), M.bind_ret (look_eq _ _)]
      split
      · exact ⟨_, _, rfl, ha.1, rfl, rfl⟩
      · split
        · rename_i hx'
          rw [if_neg (hx hx')]
          obtain ⟨a, s', e, b⟩ := ih q (escape c) (v.dropLast ++ [escape c]) (s.adv 1) ha.1 (by simp) hl
          exact ⟨a, s', e, b⟩
        · split
          · exact ⟨_, _, rfl, ha.1, rfl, rfl⟩
          · obtain ⟨a, s', e, b⟩ := ih q c (v ++ [c]) (s.adv 1) ha.1 (by simp) hl
            exact ⟨a, s', e, b⟩

theorem Safe.readString : Safe Text.readString := by
  rw [Text.readString]
  refine Safe.skipDelims.bind fun c => ?_
  split
  · exact Safe.pure _
  · rename_i hc
    intro s h
    rw [M.bind_ret (look_eq _ _), h.ok.remaining]
    split
    · rename_i hq
      refine strLoop_safe _ c c [] s h.ok ?_ (by omega)
      rintro rfl; revert hq; decide
    · exact strLoop_safe _ 0 c [c] s h.ok (by simp) (by omega)

/-- The text `strtol` is given keeps its terminating zero. -/
def Tail (u a s : List Byte) : Prop := ∃ w, w <:+ u ∧ s = w ++ 0 :: a

theorem Tail.dropWhile {u a s : List Byte} (h : Tail u a s) {p : Byte → Bool} (hp : p 0 = false) : Tail u a (s.dropWhile p) := by
  obtain ⟨w, hw, rfl⟩ := h
  induction w with
  | nil => exact ⟨[], hw, by simp [hp]⟩
  | cons c w ih =>
    by_cases hc : p c = true
    · rw [List.cons_append, List.dropWhile_cons_of_pos hc]
      exact ih ((List.suffix_cons c w).trans hw)
    · rw [List.cons_append, List.dropWhile_cons_of_neg hc]
      exact ⟨c :: w, hw, rfl⟩

theorem Tail.tail {u a s : List Byte} {c : Byte} (h : Tail u a (c :: s)) (hc : c ≠ 0) : Tail u a s := by
  obtain ⟨w, hw, e⟩ := h
  cases w with
  | nil => simp at e; exact absurd e.1 hc
  | cons d w => simp at e; exact ⟨w, (List.suffix_cons d w).trans hw, e.2⟩

theorem Tail.signed {u a s : List Byte} (h : Tail u a s) : Tail u a (signed s).2 := by
  unfold Text.signed
  split
  · exact h.tail (by decide)
  · exact h.tail (by decide)
  · exact h

theorem Tail.prefixed {u a s : List Byte} (h : Tail u a s) (base : Nat) : Tail u a (prefixed base s).2 := by
  unfold Text.prefixed
  split
  · rename_i x d rest
    split
    · rename_i hx
      refine (h.tail (by decide)).tail ?_
      rcases hx.1 with rfl | rfl <;> decide
    · exact h
  · exact h
  · exact h

theorem strtol_safe (u a : List Byte) (base : Nat) : ∃ v k, strtol (u ++ 0 :: a) base = some (v, k) ∧ k ≤ u.length := by
  have h0 : Tail u a (u ++ 0 :: a) := ⟨u, List.suffix_refl _, rfl⟩
  have h1 := h0.dropWhile (p := isSpace) (by decide)
  have h2 := h1.signed
  have h3 := h2.prefixed base
  have h4 := h3.dropWhile (p := isDigit (prefixed base (signed ((u ++ 0 :: a).dropWhile isSpace)).2).1) (by
    show isDigit _ 0 = false
    simp [isDigit, digitVal])
  have hne : ∀ {s}, Tail u a s → s ≠ [] ∧ s ≠ [48, 120] ∧ s ≠ [48, 88] := by
    rintro s ⟨w, _, rfl⟩
    refine ⟨by simp, ?_, ?_⟩ <;>
    · intro e
      have : (0 : Byte) ∈ w ++ 0 :: a := by simp
      rw [e] at this
      revert this; decide
  unfold strtol
  simp only
  rw [if_neg]
  · split
    · exact ⟨_, _, rfl, Nat.zero_le _⟩
    · refine ⟨_, _, rfl, ?_⟩
      obtain ⟨w, hw, e⟩ := h4
      rw [e]
      simp
  · rintro (e | ⟨_, e | e⟩)
    · exact (hne h4).1 e
    · exact (hne h2).2.1 e
    · exact (hne h2).2.2 e

theorem Safe.readNumber (bits : Nat) : Safe (Text.readNumber bits) := by
  rw [Text.readNumber]
  refine Safe.skipDelims.bind fun c => ?_
  split
  · exact Safe.pure _
  · refine Safe.ungetc.bind fun _ => ?_
    intro s h
    rw [M.bind_ret (look_eq _ _)]
    obtain ⟨a, ha⟩ : ∃ a, s.after = 0 :: a := by
      have := h.term
      cases e : s.after with
      | nil => rw [e] at this; cases this
      | cons x a => rw [e] at this; simp at this; exact ⟨a, by rw [this]⟩
    obtain ⟨v, k, e, _⟩ := strtol_safe (s.is.buf.drop s.is.pos) a (readBase s.flags)
    rw [← ha] at e
    rw [e]
    have : Safe (do
      let p0 ← Text.look (fun s : TIS => s.is.pos)
      lift (IS.skip k)
      if ← Text.look (fun s : TIS => decide (p0 + k = s.is.buf.length)) then
        let _ ← lift (IS.underflow 1)
        Pure.pure (toS bits v)
      else Pure.pure (toS bits v) : M TIS Int) := by
      refine (Safe.look _).bind fun p0 => (Safe.skip k).bind fun _ => (Safe.look _).bind fun b => ?_
      split
      · exact (Safe.underflow 1).bind fun _ => Safe.pure _
      · exact Safe.pure _
    exact this s h

theorem Safe.readInt (t : ITy) : Safe (Text.readInt t) := by
  rw [Text.readInt]
  exact (Safe.readNumber _).bind fun _ => Safe.pure _

theorem readLoop_some (m : List Byte) : ∀ (k i v : Nat), i + k < m.length → ∃ q, Utf8.readLoop m k i v = some q := by
  intro k
  induction k with
  | zero => intro i v _; exact ⟨_, rfl⟩
  | succ k ih =>
    intro i v h
    unfold Utf8.readLoop
    have : Ustl.rd m (i + 1) = some m[i + 1] := by simp only [Ustl.rd]; exact List.getElem?_eq_getElem (by omega)
    rw [this]
    simp only
    split
    · exact ⟨_, rfl⟩
    · exact ih _ _ (by omega)

theorem Safe.readWchar : Safe Text.readWchar := by
  rw [Text.readWchar]
  intro s h
  -- after the delimiters the character is still there
  rcases delim_split s.isDelim s.unread with hd | ⟨ds, c, r, e, hd, hc⟩
  · have ha := h.ok.adv (l := s.unread) (r := []) (by simp)
    rw [M.bind_ret (skipDelims_end h.ok hd), if_pos rfl]
    exact ⟨_, _, rfl, ha.1.eof, rfl, rfl⟩
  · rw [M.bind_ret (skipDelims_ok h.ok e hd hc)]
    have hlen : s.is.pos + (ds.length + 1) ≤ s.is.buf.length := by
      have := congrArg List.length e
      have hp := h.ok.pos
      simp [TIS.unread] at this
      omega
    have ha := h.ok.adv (l := ds ++ [c]) (r := r) (by rw [e]; simp)
    rw [List.length_append] at ha
    have ha0 := h.ok.adv (l := ds) (r := c :: r) e
    split
    · exact ⟨_, _, rfl, ha.1, rfl, rfl⟩
    · rw [M.bind_ret (ungetc_adv h.ok hlen), M.bind_ret (look_eq _ _), ha0.1.remaining, ha0.2]
      have hb : (s.adv ds.length).is.buf[(s.adv ds.length).is.pos]? = some c := by
        have : ((s.adv ds.length).is.buf.drop (s.adv ds.length).is.pos)[0]? = some c := by
          have hu' : (s.adv ds.length).is.buf.drop (s.adv ds.length).is.pos = c :: r := ha0.2
          rw [hu']; rfl
        simpa using this
      have hp0 : (s.adv ds.length).is.pos + (c :: r).length = (s.adv ds.length).is.buf.length := by
        have := congrArg List.length ha0.2
        have hp := ha0.1.pos
        simp only [TIS.unread, List.length_drop] at this
        omega
      generalize hcs : Utf8.seqBytes c.toNat = cs
      have hpos : 0 < cs := by rw [← hcs]; exact Utf8.seqBytes_pos _
      -- what happens with enough bytes
      have hgood : cs ≤ (c :: r).length → ∃ q, wcharAt (s.adv ds.length) = some q := by
        intro hle
        have hrd : Ustl.rd (s.adv ds.length).is.buf (s.adv ds.length).is.pos = some c := hb
        unfold wcharAt Utf8.read
        rw [hrd]
        simp only
        rw [hcs]
        obtain ⟨q, hq⟩ := readLoop_some (s.adv ds.length).is.buf (cs - 1) (s.adv ds.length).is.pos (c.toNat &&& (0xFF >>> cs)) (by omega)
        rw [hq]
        exact ⟨_, rfl⟩
      by_cases hshort : (c :: r).length < cs
      · rw [if_pos hshort]
        obtain ⟨s1, e1, h1, b1, a1, _⟩ := underflow_any ha0.1 cs
        have e2 : (do let u ← lift (IS.underflow cs); Pure.pure (decide (u < cs)) : M TIS Bool) (s.adv ds.length) = .ret true s1 := by
          rw [M.bind_ret e1, ha0.2]
          simp only [hshort, decide_true]; rfl
        rw [M.bind_ret e2]
        beta_reduce
        rw [if_pos rfl]
        obtain ⟨a, s2, e3, h2, b2, a2⟩ := Safe.verify cs s1 (h.next h1 b1 a1)
        rw [M.bind_ret e3]
        exact ⟨_, _, rfl, h2, b2.trans b1, a2.trans a1⟩
      · rw [if_neg hshort, M.bind_ret (M.pure_eq _ _)]
        beta_reduce
        rw [if_neg (by decide), M.bind_ret (look_eq _ _)]
        obtain ⟨q, hq⟩ := hgood (by omega)
        rw [hq]
        obtain ⟨s2, e3, h2, b2, a2, _⟩ := skip_any ha0.1 cs
        simp only
        rw [M.bind_ret e3]
        exact ⟨_, _, rfl, h2, b2, a2⟩

theorem boolLoop_safe (f : Nat) : ∀ (i : Nat) (c : Byte) (s : TIS), s.Ok → (0 : Byte) ∉ s.unread → c ≠ 0 → i ≤ 12 → (i ≤ 12 → 13 < f + i) →
    (i ≤ 5 ∨ 8 ≤ i) →
    ∃ s', boolLoop f i c s = .ret () s' ∧ s'.Ok ∧ s'.is.buf = s.is.buf ∧ s'.after = s.after := by
  induction f with
  | zero => intro i c s _ _ _ hi hf _; exact absurd (hf hi) (by omega)
  | succ f ih =>
    intro i c s h hz hc hi hf hr
    rw [boolLoop, boolRound]
    have ht : ∃ t, tf[i]? = some t ∧ (i = 5 ∨ i = 12 → t = 0) := by
      have : ∀ i ≤ 12, ∃ t, tf[i]? = some t ∧ (i = 5 ∨ i = 12 → t = 0) := by decide
      exact this i hi
    obtain ⟨t, et, ht0⟩ := ht
    rw [et]
    simp only
    split
    · rename_i hct
      have hi5 : i ≠ 5 ∧ i ≠ 12 := by
        constructor <;> (intro e; apply hc; rw [hct]; exact ht0 (by omega))
      cases hu : s.unread with
      | nil => rw [M.bind_ret (more_no h hu), if_neg (by simp)]; exact ⟨_, rfl, h.eof, rfl, rfl⟩
      | cons d r =>
        have ha := h.adv1 hu
        rw [M.bind_ret (more_yes h (by simp [hu])), if_pos rfl, M.bind_ret (getc_ok h hu)]
        rw [hu] at hz
        simp at hz
        exact ih (i + 1) d (s.adv 1) ha.1 (by rw [ha.2]; exact hz.2) (fun e => hz.1 e.symm) (by omega) (by omega) (by omega)
    · exact ⟨_, rfl, h, rfl, rfl⟩

theorem Safe.readBool : Safe Text.readBool := by
  rw [Text.readBool]
  intro s h
  rcases delim_split s.isDelim s.unread with hd | ⟨ds, c, r, e, hd, hc⟩
  · have ha := h.ok.adv (l := s.unread) (r := []) (by simp)
    rw [M.bind_ret (skipDelims_end h.ok hd)]
    exact ⟨_, _, rfl, ha.1.eof, rfl, rfl⟩
  · rw [M.bind_ret (skipDelims_ok h.ok e hd hc)]
    have ha := h.ok.adv (l := ds ++ [c]) (r := r) (by rw [e]; simp)
    rw [List.length_append] at ha
    have hnz : (0 : Byte) ∉ s.unread := fun h0 => h.nz (List.mem_of_mem_drop h0)
    have hc0 : c ≠ 0 := by rintro rfl; apply hnz; rw [e]; simp
    have ha1 : (s.adv (ds.length + 1)).unread = r := ha.2
    have key : ∀ i : Nat, i ≤ 5 ∨ i = 8 → ∀ b : Bool, ∃ a s', (do boolLoop 20 i c; lift IS.ungetc; Pure.pure b : M TIS Bool) (s.adv (ds.length + 1)) =
        .ret a s' ∧ s'.Ok ∧ s'.is.buf = s.is.buf ∧ s'.after = s.after := by
      intro i hi b
      obtain ⟨s1, e1, h1, b1, a1⟩ := boolLoop_safe 20 i c (s.adv (ds.length + 1)) ha.1
        (by rw [ha1]; intro h0; apply hnz; rw [e]; simp [h0]) hc0 (by omega) (by omega) (by omega)
      obtain ⟨s2, e2, h2, b2, a2, _⟩ := ungetc_any h1
      rw [M.bind_ret e1, M.bind_ret e2]
      exact ⟨_, _, rfl, h2, b2.trans b1, a2.trans a1⟩
    by_cases hct : c = if decide (c = 116 ∨ c = 49) = true then 116 else 102
    · rw [if_neg (c := c ≠ _) (fun hn => hn hct)]
      exact key _ (by split <;> omega) _
    · rw [if_pos (c := c ≠ _) hct]
      exact ⟨_, _, rfl, ha.1, rfl, rfl⟩

theorem Safe.getBuf (n : Nat) (hn : 0 < n) (delim : Byte) : Safe (Text.getBuf n delim) := by
  intro s h
  obtain ⟨w, hw, e⟩ := getBuf_spec h.ok n hn delim
  have hpre : ∃ t, s.unread = w ++ t := by
    have h1 : w <+: s.unread := by rw [hw]; exact (List.take_prefix _ _).trans (List.takeWhile_prefix _)
    obtain ⟨t, ht⟩ := h1
    exact ⟨t, ht.symm⟩
  obtain ⟨t, ht⟩ := hpre
  have ha := h.ok.adv ht
  refine ⟨_, _, e, ?_, ?_, ?_⟩ <;> split
  · exact (ha.1.cnt _).eof
  · exact ha.1.cnt _
  all_goals rfl

theorem Safe.getStr (delim : Byte) : Safe (Text.getStr delim) := by
  intro s h
  rcases upTo_nil_or (delim := delim) (l := s.unread) with e | ⟨r, e⟩
  · have ha := h.ok.adv (l := s.unread) (r := []) (by simp)
    exact ⟨_, _, (getStr_spec h.ok delim).2 (by rw [e]; exact upTo_not_mem), (ha.1.cnt _).eof, rfl, rfl⟩
  · have ha := h.ok.adv e
    exact ⟨_, _, (getStr_spec h.ok delim).1 _ r upTo_not_mem e, ha.1.cnt _, rfl, rfl⟩

theorem Safe.eatDelim (delim : Byte) : Safe (Text.eatDelim delim) := by
  intro s h
  rw [Text.eatDelim, M.bind_ret (look_eq _ _), h.ok.remaining]
  cases hu : s.unread with
  | nil => rw [if_neg (by simp)]; exact ⟨_, _, rfl, h.ok, rfl, rfl⟩
  | cons c r =>
    have hb : s.is.buf[s.is.pos]? = some c := by
      have : (s.is.buf.drop s.is.pos)[0]? = some c := by
        have hu' : s.is.buf.drop s.is.pos = c :: r := hu
        rw [hu']; rfl
      simpa using this
    rw [if_pos (by simp), M.bind_ret (look_eq _ _), hb]
    simp only
    split
    · have : Safe (do lift (IS.skip 1); Text.setCount ((← Text.look (fun s : TIS => s.gcount)) + 1) : M TIS Unit) :=
        (Safe.skip 1).bind fun _ => (Safe.look _).bind fun _ => Safe.setCount _
      exact this s h
    · exact ⟨_, _, rfl, h.ok, rfl, rfl⟩

theorem Safe.read (old : List Byte) (n : Nat) : Safe (Text.read old n) := by
  intro s h
  by_cases hn : s.unread.length < n
  · rw [Text.read, M.bind_ret (look_eq _ _), h.ok.remaining, if_pos hn]
    obtain ⟨s1, e1, h1, b1, a1, _⟩ := underflow_any h.ok n
    have e2 : (do let u ← lift (IS.underflow n); Pure.pure (decide (u < n)) : M TIS Bool) s = .ret true s1 := by
      rw [M.bind_ret e1]; simp only [hn, decide_true]; rfl
    rw [M.bind_ret e2]
    beta_reduce
    rw [if_pos rfl]
    obtain ⟨a, s2, e3, h2, b2, a2⟩ := Safe.getBuf n (by omega) 0 s1 (h.next h1 b1 a1)
    exact ⟨a, s2, e3, h2, b2.trans b1, a2.trans a1⟩
  · obtain ⟨w, r, e, hw⟩ : ∃ w r, s.unread = w ++ r ∧ w.length = n :=
      ⟨s.unread.take n, s.unread.drop n, (List.take_append_drop _ _).symm, by simp; omega⟩
    have ha := h.ok.adv e
    have e1 := read_enough h.ok (old := old) e
    rw [hw] at e1 ha
    exact ⟨_, _, e1, ha.1.cnt _, rfl, rfl⟩

theorem Safe.get : Safe Text.get := by
  rw [Text.get]
  exact (Safe.read _ _).bind fun _ => Safe.pure _

theorem Safe.peek : Safe Text.peek := by
  rw [Text.peek]
  exact Safe.get.bind fun _ => Safe.ungetc.bind fun _ => Safe.pure _

theorem Safe.more : Safe Text.more := by
  rw [Text.more]
  refine (Safe.look _).bind fun r => ?_
  split
  · exact Safe.pure _
  · exact (Safe.underflow 1).bind fun _ => Safe.pure _

theorem Safe.ignoreLoop (delim : Byte) (n : Nat) : Safe (Text.ignoreLoop delim n) := by
  induction n with
  | zero => exact Safe.pure _
  | succ n ih =>
    rw [Text.ignoreLoop, Text.ignoreRound]
    refine Safe.more.bind fun b => ?_
    split
    · refine Safe.get.bind fun c => ?_
      split
      · exact Safe.pure _
      · exact ih
    · exact Safe.pure _

/-- The reading operations of `istringstream`. -/
inductive ROp
  | char | int (t : ITy) | wchar | bool | string
  | getBuf (n : Nat) (d : Byte) | getStr (d : Byte) | getlineBuf (n : Nat) (d : Byte) | getlineStr (d : Byte)
  | read (old : List Byte) (n : Nat) | get | peek | ignore (n : Nat) (d : Byte) | unget | skip (n : Nat) | sync

/-- Ignore the result. -/
def void {α : Type} (m : M TIS α) : M TIS Unit := do let _ ← m; pure ()

/-- Do one operation. -/
def ROp.run : ROp → M TIS Unit
  | .char => void skipDelims
  | .int t => void (readInt t)
  | .wchar => void readWchar
  | .bool => void readBool
  | .string => void readString
  | .getBuf n d => void (Text.getBuf n d)
  | .getStr d => void (Text.getStr d)
  | .getlineBuf n d => void (Text.getlineBuf n d)
  | .getlineStr d => void (Text.getlineStr d)
  | .read o n => void (Text.read o n)
  | .get => void Text.get
  | .peek => void Text.peek
  | .ignore n d => Text.ignore n d
  | .unget => lift IS.ungetc
  | .skip n => lift (IS.skip n)
  | .sync => Text.sync

/-- The operation has a buffer of at least one byte. -/
def ROp.Room : ROp → Prop
  | .getBuf n _ => 0 < n
  | .getlineBuf n _ => 0 < n
  | _ => True

theorem Safe.void {α : Type} {m : M TIS α} (h : Safe m) : Safe (Text.void m) := h.bind fun _ => Safe.pure _

theorem run_safe (op : ROp) (hr : op.Room) : Safe op.run := by
  cases op with
  | char => exact Safe.skipDelims.void
  | int t => exact (Safe.readInt t).void
  | wchar => exact Safe.readWchar.void
  | bool => exact Safe.readBool.void
  | string => exact Safe.readString.void
  | getBuf n d => exact (Safe.getBuf n hr d).void
  | getStr d => exact (Safe.getStr d).void
  | getlineBuf n d =>
    refine Safe.void ?_
    rw [Text.getlineBuf]
    exact (Safe.getBuf n hr d).bind fun _ => (Safe.eatDelim d).bind fun _ => Safe.pure _
  | getlineStr d =>
    refine Safe.void ?_
    rw [Text.getlineStr]
    exact (Safe.getStr d).bind fun _ => (Safe.eatDelim d).bind fun _ => Safe.pure _
  | read o n => exact (Safe.read o n).void
  | get => exact Safe.get.void
  | peek => exact Safe.peek.void
  | ignore n d =>
    show Safe (Text.ignore n d)
    rw [Text.ignore]
    exact (Safe.setCount n).bind fun _ => (Safe.ignoreLoop d n).bind fun _ => (Safe.look _).bind fun _ => Safe.setCount _
  | unget => exact Safe.ungetc
  | skip n => exact Safe.skip n
  | sync =>
    show Safe Text.sync
    rw [Text.sync]
    exact (Safe.look _).bind fun _ => Safe.skip _

/-- Do several operations. -/
def runAll : List ROp → M TIS Unit
  | [] => pure ()
  | op :: ops => do op.run; runAll ops

/-- **C43** (partial): on a C string, any sequence of reading operations reads nothing outside the string, throws nothing,
and leaves the position in the string and the string as it was. What is missing: text that is not terminated by a zero
(`readInt_violated`), text with a zero byte in it (`readBool_violated`) and buffers of no bytes (`getBuf_violated`). -/
theorem reading_safe_partial (ops : List ROp) (hr : ∀ op ∈ ops, op.Room) {s : TIS} (h : s.CStr) :
    ∃ s', runAll ops s = .ret () s' ∧ s'.is.pos ≤ s'.is.buf.length ∧ s'.is.buf = s.is.buf := by
  have : Safe (runAll ops) := by
    induction ops with
    | nil => exact Safe.pure _
    | cons op ops ih =>
      rw [runAll]
      exact (run_safe op (hr op (by simp))).bind fun _ => ih fun op' h' => hr op' (by simp [h'])
  obtain ⟨_, s', e, h', b, _⟩ := this s h
  exact ⟨s', e, h'.pos, b⟩

example : ∃ s', runAll [.int ⟨32, true⟩, .bool, .string, .peek, .getBuf 3 10, .wchar] (.mk' [49, 50, 32, 116, 114, 117, 101]) = .ret () s' := by
  obtain ⟨s', e, _⟩ := reading_safe_partial [.int ⟨32, true⟩, .bool, .string, .peek, .getBuf 3 10, .wchar] (by
    intro op hop
    simp at hop
    rcases hop with rfl | rfl | rfl | rfl | rfl | rfl <;> simp [ROp.Room]) (s := .mk' [49, 50, 32, 116, 114, 117, 101])
    ⟨⟨by decide, by decide, rfl, rfl⟩, by decide, rfl⟩
  exact ⟨s', e⟩

/-- **C43** is false for numbers at the end of a block that is not followed by a zero: the block is the two characters 1 2,
and the number read is 123, of which the 3 is outside the block; and if the memory ends there, `strtol` runs off it. -/
theorem readInt_violated :
    (∃ s', readInt ⟨32, true⟩ (.mk' [49, 50] [51, 0]) = .ret 123 s') ∧ readInt ⟨32, true⟩ (.mk' [49, 50] []) = .oob :=
  ⟨⟨{ (TIS.mk' [49, 50] [51, 0]) with is := { buf := [49, 50], ios := { state := 4, exc := 0 } } }, by decide⟩, by decide⟩

theorem boolLoop_step {s : TIS} (h : s.Ok) {d : Byte} {r : List Byte} (hu : s.unread = d :: r) {i : Nat} {c : Byte} (ht : tf[i]? = some c) (f : Nat) :
    boolLoop (f + 1) i c s = boolLoop f (i + 1) d (s.adv 1) := by
  rw [boolLoop, boolRound, ht]
  dsimp only
  rw [if_pos rfl, M.bind_ret (more_yes h (by simp [hu])), if_pos rfl, M.bind_ret (getc_ok h hu)]

theorem boolLoop_names (l : List Byte) : ∀ (f i : Nat) (c d : Byte) (s : TIS), s.Ok → s.unread = l ++ [d] → l.length < f → tf.drop i = c :: l →
    boolLoop f i c s = .oob := by
  induction l with
  | nil =>
    intro f i c d s h hu hf ht
    obtain ⟨f, rfl⟩ : ∃ g, f = g + 1 := ⟨f - 1, by simp at hf; omega⟩
    have hi : i = 15 := by have := congrArg List.length ht; simp [tf] at this; omega
    subst hi
    have hc : c = 0 := by simp [tf] at ht; exact ht.symm
    subst hc
    rw [boolLoop_step h hu (by rfl)]
    cases f with
    | zero => rfl
    | succ f => rw [boolLoop, boolRound, show tf[15 + 1]? = none from rfl]; rfl
  | cons e l ih =>
    intro f i c d s h hu hf ht
    obtain ⟨f, rfl⟩ : ∃ g, f = g + 1 := ⟨f - 1, by simp at hf; omega⟩
    have h1 : tf[i]? = some c := by
      have : (tf.drop i)[0]? = some c := by rw [ht]; rfl
      simpa using this
    have hu' : s.unread = e :: (l ++ [d]) := hu
    rw [boolLoop_step h hu' h1]
    have ha := h.adv1 hu'
    exact ih f (i + 1) e d _ ha.1 ha.2 (by simp at hf; omega) (by rw [← List.drop_drop, ht]; rfl)

/-- **C43** is false for `bool` in text with zero bytes: after `true` and four zeros the comparison runs off the end of the
table of names. -/
theorem readBool_violated : readBool (.mk' [116, 114, 117, 101, 0, 0, 0, 0, 32]) = .oob := by
  have h : (TIS.mk' [116, 114, 117, 101, 0, 0, 0, 0, 32]).Ok := ⟨by decide, by decide, rfl, rfl⟩
  have e : (TIS.mk' [116, 114, 117, 101, 0, 0, 0, 0, 32]).unread = [] ++ 116 :: [114, 117, 101, 0, 0, 0, 0, 32] := rfl
  have ha := h.adv1 (c := 116) (r := [114, 117, 101, 0, 0, 0, 0, 32]) e
  have hd : (TIS.mk' [116, 114, 117, 101, 0, 0, 0, 0, 32]).isDelim 116 = false := by decide
  generalize TIS.mk' [116, 114, 117, 101, 0, 0, 0, 0, 32] = s at h e ha hd ⊢
  have hb : boolLoop 20 8 116 (s.adv (([] : List Byte).length + 1)) = .oob :=
    boolLoop_names [114, 117, 101, 0, 0, 0, 0] 20 8 116 32 _ ha.1 ha.2 (by decide) rfl
  rw [readBool, M.bind_ret (skipDelims_ok h e (by simp) hd)]
  rw [if_neg (by decide)]
  exact M.bind_oob hb

end Ustl.Text
