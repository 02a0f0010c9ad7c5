import Verif.Text.Model
import Verif.Stream.Lemmas
/-! # Text streams: lemmas about reading -/
namespace Ustl.Text
open Ustl.Stream

/-- What has not been read. -/
def TIS.unread (s : TIS) : List Byte := s.is.buf.drop s.is.pos

/-- `s` with the position moved on by `k`. -/
def TIS.adv (s : TIS) (k : Nat) : TIS := { s with is := { s.is with pos := s.is.pos + k } }

/-- `s` after trying to read beyond the end: `failbit` and `eofbit` are set. -/
def TIS.eof (s : TIS) : TIS := { s with is := { s.is with ios := { s.is.ios with state := s.is.ios.state ||| 6 } } }

/-- `s` after trying to read more than there is: `failbit` is set. -/
def TIS.failed (s : TIS) : TIS := { s with is := { s.is with ios := { s.is.ios with state := s.is.ios.state ||| 4 } } }

/-- A stream in an ordinary state: the position is in the block, exceptions are off (as the constructors leave them),
the block fits in memory. -/
structure TIS.Ok (s : TIS) : Prop where
  pos : s.is.pos ≤ s.is.buf.length
  len : s.is.buf.length < 2 ^ 32
  exc : s.is.ios.exc = 0
  del : s.delims.length = 16

theorem TIS.Ok.adv {s : TIS} (h : s.Ok) {l r : List Byte} (hu : s.unread = l ++ r) :
    (s.adv l.length).Ok ∧ (s.adv l.length).unread = r := by
  obtain ⟨h1, h2, h3, h4⟩ := h
  have hl : s.is.buf.length - s.is.pos = l.length + r.length := by
    have := congrArg List.length hu
    simpa [TIS.unread] using this
  refine ⟨⟨?_, h2, h3, h4⟩, ?_⟩
  · simp only [TIS.adv]; omega
  · have : (s.is.buf.drop s.is.pos).drop l.length = r := by
      have hu' : s.is.buf.drop s.is.pos = l ++ r := hu
      rw [hu', List.drop_left]
    rw [List.drop_drop] at this
    exact this

theorem TIS.Ok.eof {s : TIS} (h : s.Ok) : s.eof.Ok := ⟨h.1, h.2, h.3, h.4⟩
theorem TIS.Ok.failed {s : TIS} (h : s.Ok) : s.failed.Ok := ⟨h.1, h.2, h.3, h.4⟩

theorem TIS.eof_eof (s : TIS) : s.eof.eof = s.eof := by
  simp [TIS.eof, Nat.or_assoc]

theorem TIS.eof_adv (s : TIS) (k : Nat) : (s.adv k).eof = s.eof.adv k := rfl

theorem TIS.adv_adv (s : TIS) (a b : Nat) : (s.adv a).adv b = s.adv (a + b) := by
  simp [TIS.adv, Nat.add_assoc]

theorem TIS.adv_zero (s : TIS) : s.adv 0 = s := rfl

theorem TIS.adv_isDelim (s : TIS) (k : Nat) (c : Byte) : (s.adv k).isDelim c = s.isDelim c := rfl

theorem TIS.Ok.remaining {s : TIS} (h : s.Ok) : s.is.remaining = s.unread.length := by
  have h1 := h.pos
  have h2 := h.len
  have : s.unread.length = s.is.buf.length - s.is.pos := by simp [TIS.unread]
  rw [this, IS.remaining]
  have e : s.is.buf.length + W - s.is.pos = (s.is.buf.length - s.is.pos) + W := by omega
  rw [e, Nat.add_mod_right, Nat.mod_eq_of_lt]
  show _ < 2 ^ 64
  omega

theorem TIS.Ok.remaining_lt {s : TIS} (h : s.Ok) : s.unread.length < 2 ^ 32 := by
  have h2 := h.len
  have : s.unread.length = s.is.buf.length - s.is.pos := by simp [TIS.unread]
  omega

theorem look_eq {σ α : Type} (f : σ → α) (s : σ) : look f s = .ret (f s) s := rfl

theorem over_eq {α : Type} (a : α) (r : Nat) (s : IS) (he : s.ios.exc = 0) :
    IS.over a r s = .ret a { s with ios := { s.ios with state := s.ios.state ||| (if r % 2 ^ 32 ≠ 0 then 4 else 6) } } := by
  unfold IS.over Ios.overrun
  simp only [he]
  by_cases h : r % 2 ^ 32 ≠ 0 <;> simp [h, he]

theorem more_yes {s : TIS} (h : s.Ok) (hu : s.unread ≠ []) : more s = .ret true s := by
  unfold more
  rw [M.bind_ret (look_eq _ s)]
  rw [h.remaining]
  have : s.unread.length ≠ 0 := by simpa using hu
  rw [if_pos this]
  rfl

theorem remaining_congr {i j : IS} (h : i.buf = j.buf) (h' : i.pos = j.pos) : i.remaining = j.remaining := by
  unfold IS.remaining; rw [h, h']

theorem lift_ret {α : Type} {m : M IS α} {s : TIS} {a : α} {i : IS} (h : m s.is = .ret a i) :
    lift m s = .ret a { s with is := i } := by
  unfold lift; rw [h]

theorem lift_congr {α : Type} {m m' : M IS α} {s : TIS} (h : m s.is = m' s.is) : lift m s = lift m' s := by
  unfold lift; rw [h]

theorem underflow_ret {n : Nat} {i j : IS} {b : Bool} (h : IS.verify n i = .ret b j) :
    IS.underflow n i = .ret j.remaining j := M.bind_ret h

theorem verify_short {s : TIS} (h : s.Ok) (n : Nat) (hn : s.unread.length < n) :
    lift (IS.verify n) s = .ret false (if s.unread = [] then s.eof else s.failed) := by
  unfold lift IS.verify
  rw [h.remaining, if_neg (by omega), over_eq _ _ _ h.exc, Nat.mod_eq_of_lt h.remaining_lt]
  by_cases e : s.unread = []
  · simp [e, TIS.eof]
  · have : s.unread.length ≠ 0 := by simpa using e
    simp [e, TIS.failed]

theorem underflow_short {s : TIS} (h : s.Ok) (n : Nat) (hn : s.unread.length < n) :
    lift (IS.underflow n) s = .ret s.unread.length (if s.unread = [] then s.eof else s.failed) := by
  have hv : IS.verify n s.is = .ret false (if s.unread = [] then s.eof else s.failed).is := by
    unfold IS.verify
    rw [h.remaining, if_neg (by omega), over_eq _ _ _ h.exc, Nat.mod_eq_of_lt h.remaining_lt]
    by_cases e : s.unread = []
    · simp [e, TIS.eof]
    · have : s.unread.length ≠ 0 := by simpa using e
      simp [e, TIS.failed]
  rw [lift_ret (underflow_ret hv)]
  have hr := h.remaining
  by_cases e : s.unread = []
  · simp only [if_pos e]
    rw [remaining_congr (i := s.eof.is) (j := s.is) rfl rfl, hr]; rfl
  · simp only [if_neg e]
    rw [remaining_congr (i := s.failed.is) (j := s.is) rfl rfl, hr]; rfl

theorem more_no {s : TIS} (h : s.Ok) (hu : s.unread = []) : more s = .ret false s.eof := by
  unfold more
  rw [M.bind_ret (look_eq _ s), h.remaining]
  rw [if_neg (by simp [hu]), M.bind_ret (underflow_short h 1 (by simp [hu]))]
  simp [hu, M.pure_eq]

theorem slice_unread {s : TIS} {l r : List Byte} (hp : s.is.pos ≤ s.is.buf.length) (hu : s.unread = l ++ r) :
    slice s.is.buf s.is.pos l.length = some l := by
  have hl : s.is.buf.length - s.is.pos = l.length + r.length := by
    have := congrArg List.length hu
    simpa [TIS.unread] using this
  have hu' : s.is.buf.drop s.is.pos = l ++ r := hu
  unfold slice
  rw [if_pos (by omega), hu', List.take_left]

theorem take_ok {s : TIS} (h : s.Ok) {l r : List Byte} (hu : s.unread = l ++ r) :
    lift (IS.take l.length) s = .ret l (s.adv l.length) := by
  have := h.adv hu
  have hl := this.1.pos
  have h2 := h.len
  unfold lift IS.take
  rw [slice_unread h.pos hu]
  simp only [TIS.adv] at hl ⊢
  rw [Nat.mod_eq_of_lt (show _ < 2 ^ 64 by omega)]

theorem read_ok {s : TIS} (h : s.Ok) {old l r : List Byte} (hu : s.unread = l ++ r) :
    lift (IS.read old l.length) s = .ret l (s.adv l.length) := by
  have ht := take_ok h hu
  unfold lift at ht ⊢
  have hv : IS.verify l.length s.is = .ret true s.is := by
    unfold IS.verify
    rw [h.remaining, if_pos]
    simp [hu]
  unfold IS.read
  rw [M.bind_ret hv]
  exact ht

theorem iread_eq (old : List Byte) (n : Nat) : IS.iread old n = IS.read old n := rfl

theorem getc_ok {s : TIS} (h : s.Ok) {c x : Byte} {r : List Byte} (hu : s.unread = c :: r) :
    getc x s = .ret c (s.adv 1) := by
  have := read_ok h (old := [x]) (l := [c]) (r := r) hu
  have e : lift (IS.read [x] 1) s = .ret [c] (s.adv 1) := this
  rw [getc, iread_eq, M.bind_ret e]
  exact M.pure_eq _ _

theorem seek_ok {s : TIS} (p : Nat) (hp : p ≤ s.is.buf.length) :
    lift (IS.seek p) s = .ret () { s with is := { s.is with pos := p } } := by
  unfold lift IS.seek
  rw [if_neg (by omega)]

theorem skip_ok {s : TIS} (h : s.Ok) {l r : List Byte} (hu : s.unread = l ++ r) :
    lift (IS.skip l.length) s = .ret () (s.adv l.length) := by
  have := (h.adv hu).1.pos
  have h2 := h.len
  have : lift (IS.skip l.length) s = lift (IS.seek (s.is.pos + l.length)) s := by
    unfold lift IS.skip
    simp only [TIS.adv] at this
    rw [Nat.mod_eq_of_lt (show _ < 2 ^ 64 by omega)]
  rw [this, seek_ok _ (by simpa [TIS.adv] using (h.adv hu).1.pos)]
  rfl

theorem back_eq (p k w : Nat) (h : p + k < w) : (p + (k + 1) + (w - 1)) % w = p + k := by
  have : p + (k + 1) + (w - 1) = p + k + w := by omega
  rw [this, Nat.add_mod_right, Nat.mod_eq_of_lt h]

theorem ungetc_seek {s : TIS} {p : Nat} (h : s.is.back = p) : lift IS.ungetc s = lift (IS.seek p) s := by
  refine lift_congr ?_
  rw [IS.ungetc]
  simp only [h]

theorem ungetc_adv {s : TIS} (h : s.Ok) {k : Nat} (hk : s.is.pos + (k + 1) ≤ s.is.buf.length) :
    lift IS.ungetc (s.adv (k + 1)) = .ret () (s.adv k) := by
  have h2 := h.len
  have hw : s.is.pos + k < W := by
    have : (2:Nat) ^ 32 < W := by decide
    omega
  have hb : (s.adv (k + 1)).is.back = s.is.pos + k := by
    have hp : (s.adv (k + 1)).is.pos = s.is.pos + (k + 1) := rfl
    unfold IS.back
    rw [hp]
    exact back_eq _ _ _ hw
  rw [ungetc_seek hb, seek_ok _ (by simp only [TIS.adv]; omega)]
  rfl

theorem delim0 {s : TIS} (h : s.Ok) : s.isDelim (s.delims.headD 0) = true := by
  have := h.del
  unfold TIS.isDelim
  cases e : s.delims with
  | nil => simp [e] at this
  | cons d ds => simp

/-- The loop of `skip_delimiters` finds the first character that is not a delimiter. -/
theorem skipLoop_ok (ds : List Byte) : ∀ (f : Nat) (s : TIS) (x c : Byte) (r : List Byte), s.Ok → s.unread = ds ++ c :: r →
    (∀ d ∈ ds, s.isDelim d = true) → s.isDelim c = false → s.isDelim x = true → ds.length + 2 ≤ f →
    skipLoop f x s = .ret c (s.adv (ds.length + 1)) := by
  induction ds with
  | nil =>
    intro f s x c r h hu _ hc hx hf
    obtain ⟨f, rfl⟩ : ∃ g, f = g + 2 := ⟨f - 2, by simp at hf; omega⟩
    rw [skipLoop, skipRound]
    rw [M.bind_ret (look_eq _ s), if_pos hx, M.bind_ret (more_yes h (by simp [hu])), if_pos rfl,
      M.bind_ret (getc_ok h hu)]
    rw [skipLoop, skipRound]
    rw [M.bind_ret (look_eq _ _), if_neg (by simp [TIS.adv_isDelim, hc])]
    rfl
  | cons d ds ih =>
    intro f s x c r h hu hd hc hx hf
    obtain ⟨f, rfl⟩ : ∃ g, f = g + 1 := ⟨f - 1, by simp at hf; omega⟩
    rw [skipLoop, skipRound]
    have hu1 : s.unread = [d] ++ (ds ++ c :: r) := hu
    have ha := h.adv hu1
    rw [M.bind_ret (look_eq _ s), if_pos hx, M.bind_ret (more_yes h (by simp [hu])), if_pos rfl,
      M.bind_ret (getc_ok h hu)]
    have := ih f (s.adv 1) d c r ha.1 ha.2 (fun y hy => hd y (by simp [hy])) hc (hd d (by simp)) (by simp at hf ⊢; omega)
    rw [this, TIS.adv_adv]
    congr 2
    simp; omega

theorem skipLoop_end (ds : List Byte) : ∀ (f : Nat) (s : TIS) (x : Byte), s.Ok → s.unread = ds →
    (∀ d ∈ ds, s.isDelim d = true) → s.isDelim x = true → ds.length + 2 ≤ f →
    skipLoop f x s = .ret 0 (s.adv ds.length).eof := by
  induction ds with
  | nil =>
    intro f s x h hu _ hx hf
    obtain ⟨f, rfl⟩ : ∃ g, f = g + 1 := ⟨f - 1, by simp at hf; omega⟩
    rw [skipLoop, skipRound]
    rw [M.bind_ret (look_eq _ s), if_pos hx, M.bind_ret (more_no h hu), if_neg (by simp),
      M.bind_ret (verify_short h.eof 1 (by show s.unread.length < 1; simp [hu]))]
    have : s.eof.unread = [] := hu
    simp [this, TIS.eof_eof, TIS.adv_zero, M.pure_eq]
  | cons d ds ih =>
    intro f s x h hu hd hx hf
    obtain ⟨f, rfl⟩ : ∃ g, f = g + 1 := ⟨f - 1, by simp at hf; omega⟩
    rw [skipLoop, skipRound]
    have hu1 : s.unread = [d] ++ ds := hu
    have ha := h.adv hu1
    rw [M.bind_ret (look_eq _ s), if_pos hx, M.bind_ret (more_yes h (by simp [hu])), if_pos rfl,
      M.bind_ret (getc_ok h hu)]
    have := ih f (s.adv 1) d ha.1 ha.2 (fun y hy => hd y (by simp [hy])) (hd d (by simp)) (by simp at hf ⊢; omega)
    rw [this, TIS.adv_adv]
    congr 3
    simp; omega

theorem skipDelims_ok {s : TIS} (h : s.Ok) {ds r : List Byte} {c : Byte} (hu : s.unread = ds ++ c :: r)
    (hd : ∀ d ∈ ds, s.isDelim d = true) (hc : s.isDelim c = false) :
    skipDelims s = .ret c (s.adv (ds.length + 1)) :=
  skipLoop_ok ds _ s _ c r h hu hd hc (delim0 h) (by rw [h.remaining, hu]; simp)

theorem skipDelims_end {s : TIS} (h : s.Ok) (hd : ∀ d ∈ s.unread, s.isDelim d = true) :
    skipDelims s = .ret 0 (s.adv s.unread.length).eof :=
  skipLoop_end s.unread _ s _ h rfl hd (delim0 h) (by rw [h.remaining]; exact Nat.le_refl _)

end Ustl.Text
