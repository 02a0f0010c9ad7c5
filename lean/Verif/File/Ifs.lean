import Verif.File.Props
import Verif.Text.Lines
import Verif.Text.Props
/-! # ifstream: reading text does not depend on how the system hands out the data (C59) -/
namespace Ustl.File
open Ustl.Stream

/-- What is ahead of the reader: what the buffer holds and what the file still has. -/
def IFS.ahead (s : IFS) : List Byte := s.unread ++ s.file.src

/-- A system that gives something whenever there is something (or is interrupted). -/
def Gives (l : List Sys) : Prop := ∀ a ∈ l, a = .eintr ∨ ∃ k, a = .did (k + 1)

/-- A stream in working order: the position is in the part of the buffer that was read, exceptions are off, as the
constructors leave them, the system gives what there is, and the state is good or says that the file has ended. -/
structure IFS.Ok (s : IFS) : Prop where
  pos : s.pos ≤ s.lim
  lim : s.lim ≤ s.buf.length
  exc : s.ios.exc = 0
  fexc : s.file.ios.exc = 0
  sys : Gives s.file.sys
  same : s.ios.state = s.file.ios.state
  state : s.file.ios.state = 0 ∨ (s.file.ios.state = 6 ∧ s.file.src = [])

theorem IFS.Ok.len {s : IFS} (h : s.Ok) : s.unread.length = s.remaining := by
  have := h.lim
  simp [IFS.unread, IFS.remaining]; omega

theorem IFS.Ok.left {s : IFS} (h : s.Ok) : s.left = s.ahead.length := by
  simp [IFS.left, IFS.ahead, h.len]

/-- What the loop of `underflow` works on: the buffer from `p` on. -/
structure Fill (s s' : IFS) (p : Nat) (d : List Byte) : Prop where
  src : s.file.src = d ++ s'.file.src
  buf : s'.buf.take (p + d.length) = s.buf.take p ++ d
  len : s'.buf.length = s.buf.length
  le : p + d.length ≤ s'.buf.length
  ios : s'.ios = s.ios
  fexc : s'.file.ios.exc = s.file.ios.exc
  sys : Gives s'.file.sys
  gc : s'.gcount = s.gcount
  del : s'.delims = s.delims

theorem Gives.tail {a b : List Sys} (h : Gives (a ++ b)) : Gives b := fun x hx => h x (List.mem_append_right _ hx)

theorem ifile_is {α : Type} {m : P File α} {s : IFS} {R : α → File → Prop} {E U : File → Prop} (h : (m s.file).Is R E U) :
    (ifile m s).Is (fun a s' => ∃ f, s' = { s with file := f } ∧ R a f) (fun s' => ∃ f, s' = { s with file := f } ∧ E f)
      (fun s' => ∃ f, s' = { s with file := f } ∧ U f) := by
  unfold ifile
  cases e : m s.file with
  | ret a f => rw [e] at h; exact ⟨f, rfl, h⟩
  | exn f => rw [e] at h; exact ⟨f, rfl, h⟩
  | oob => rw [e] at h; exact h
  | run f => rw [e] at h; exact ⟨f, rfl, h⟩

theorem fillLoop_is (k : Nat) : ∀ (upto br : Nat) (s : IFS), s.file.sys.length < k → upto ≤ s.buf.length → br ≤ s.buf.length → s.file.ios.exc = 0 → Gives s.file.sys →
    s.file.ios.state = 0 → (fillLoop k upto br s).Is
    (fun br' s' => ∃ d, Fill s s' br d ∧ br' = br + d.length ∧
      ((upto ≤ br' ∧ s'.file.ios.state = 0) ∨ (br' < upto ∧ s'.file.ios.state = 6 ∧ s'.file.src = [])))
    (fun _ => False) (fun s' => s'.file.sys = []) := by
  induction k with
  | zero => intro _ _ _ h; omega
  | succ k ih =>
    intro upto br s hk hup hbr hx hg hst
    unfold fillLoop
    split
    · rename_i hc
      have hrd : (readsome (s.buf.length - br) s.file).Is _ _ _ := readsomeLoop_is (s.buf.length - br) s.file.sys s.file
      refine Res.Is.bind ((ifile_is hrd).mono (fun _ _ h => h) ?_ ?_) ?_
      · rintro s' ⟨f, rfl, _, _, _, _, h6, _⟩; exact h6 (by rw [hx]; exact Nat.zero_and 6)
      · rintro s' ⟨f, rfl, h, _⟩; exact h
      · rintro d s1 ⟨f, rfl, used, h1, h2, h3, h4, h5, h6, h7, h8, h9⟩
        have hstore : store s.buf br d = some (s.buf.take br ++ d ++ s.buf.drop (br + d.length)) := by
          unfold store; rw [if_pos (by omega)]
        rw [hstore]
        simp only
        rw [modify_bind]
        have hf1 : Fill s { s with file := f, buf := s.buf.take br ++ d ++ s.buf.drop (br + d.length) } br d := by
          have hl : (s.buf.take br ++ d ++ s.buf.drop (br + d.length)).length = s.buf.length := by simp; omega
          refine ⟨h4, ?_, hl, by show _ ≤ (s.buf.take br ++ d ++ s.buf.drop (br + d.length)).length; omega, rfl, h8.exc, ?_, rfl, rfl⟩
          · show (s.buf.take br ++ d ++ s.buf.drop (br + d.length)).take (br + d.length) = _
            rw [List.take_left' (by simp; omega)]
          · rw [h1] at hg; exact hg.tail
        by_cases hd : d = []
        · subst hd
          rw [if_pos rfl]
          refine Res.Is.pure ⟨[], hf1, rfl, Or.inr ⟨hc.1, ?_⟩⟩
          have hlast : ∀ a, used.getLast? = some a → a = .eintr ∨ ∃ k, a = .did (k + 1) := fun a ha =>
            hg a (by rw [h1]; exact List.mem_append_left _ (List.mem_of_getLast? ha))
          rcases h9 with ⟨hne, _⟩ | ⟨_, hn, _⟩
          · exact absurd rfl hne
          · rcases hn with ⟨j, hl, hz, hs⟩ | ⟨hl, hs⟩ | ⟨hl, hs⟩
            · refine ⟨by show f.ios.state = 6; rw [hs, hst]; rfl, ?_⟩
              rcases hlast _ hl with h | ⟨i, h⟩
              · cases h
              · injection h with h
                rcases hz with hz | hz | hz
                · omega
                · omega
                · have : s.file.src = f.src := h4
                  show f.src = []; rw [← this]; exact hz
            · rcases hlast _ hl with h | ⟨i, h⟩ <;> cases h
            · rcases hlast _ hl with h | ⟨i, h⟩ <;> cases h
        · rw [if_neg hd]
          have hio : f.ios = s.file.ios := by
            rcases h9 with ⟨_, h, _⟩ | ⟨h, _⟩
            · exact h
            · exact absurd h hd
          have hul : 0 < used.length := List.length_pos_iff.2 h2
          have hll : s.file.sys.length = used.length + f.sys.length := by rw [h1, List.length_append]
          refine (ih upto (br + d.length) { s with file := f, buf := s.buf.take br ++ d ++ s.buf.drop (br + d.length) } ?_ ?_ ?_ ?_ ?_ ?_).mono ?_ (fun _ h => h) (fun _ h => h)
          · show f.sys.length < k; omega
          · rw [hf1.len]; exact hup
          · exact hf1.le
          · show f.ios.exc = 0; rw [hio]; exact hx
          · exact hf1.sys
          · show f.ios.state = 0; rw [hio]; exact hst
          · rintro br' s' ⟨e, g, g2, g3⟩
            have gs : f.src = e ++ s'.file.src := g.src
            have gb := g.buf
            rw [hf1.buf] at gb
            refine ⟨d ++ e, ⟨?_, ?_, g.len.trans hf1.len, by rw [List.length_append, ← Nat.add_assoc]; exact g.le, g.ios.trans hf1.ios, g.fexc.trans hf1.fexc, g.sys, g.gc, g.del⟩, by rw [g2, List.length_append]; omega, g3⟩
            · rw [hf1.src]; show d ++ f.src = _; rw [gs, List.append_assoc]
            · rw [List.length_append, ← Nat.add_assoc, gb, List.append_assoc]
    · rename_i hc
      refine ⟨[], ⟨rfl, by simp, rfl, by simpa using hbr, rfl, rfl, hg, rfl, rfl⟩, rfl, Or.inl ⟨?_, hst⟩⟩
      have : s.file.good = true := by simpa [File.good] using hst
      rcases Nat.lt_or_ge br upto with hlt | hge
      · exact absurd ⟨hlt, this⟩ hc
      · simpa using hge

theorem iverify_short {s : IFS} (hx : s.ios.exc = 0) (n : Nat) (hn : s.remaining < n) (hst : s.ios.state = 6) : iverify n s = .ret () s := by
  have ho : s.ios.overrun s.remaining = (s.ios, false) := by
    unfold Ios.overrun
    rcases hi : s.ios with ⟨st, ex⟩
    rw [hi] at hx hst
    simp only at hx hst
    subst hx hst
    split <;> simp
  unfold iverify
  rw [if_neg (by omega), ho]

theorem makeRoom_is {s : IFS} (hp : s.pos ≤ s.buf.length) (n : Nat) : ∃ s', makeRoom n s = .ret () s' ∧ s'.file = s.file ∧ s'.ios = s.ios ∧
    s'.gcount = s.gcount ∧ s'.delims = s.delims ∧ s.pos - toErase n s + n ≤ s'.buf.length := by
  refine ⟨_, rfl, ?_⟩
  simp only
  have hl : (s.buf.drop (toErase n s) ++ s.buf.take (toErase n s)).length = s.buf.length := by simp; omega
  rw [hl]
  split
  · refine ⟨rfl, rfl, rfl, rfl, ?_⟩
    show _ ≤ (Text.growTo _ _ _).length
    generalize s.buf.drop (toErase n s) ++ s.buf.take (toErase n s) = b
    simp only [Text.growTo, List.length_append, List.length_take, List.length_map, List.length_range']
    omega
  · refine ⟨rfl, rfl, rfl, rfl, ?_⟩
    show _ ≤ (s.buf.drop (toErase n s) ++ s.buf.take (toErase n s)).length
    rw [hl]; omega

/-- `underflow (n)` when everything in the buffer was read: it brings at least `n` bytes, or all that is left. -/
theorem underflow_is (n : Nat) (hn : 0 < n) {s : IFS} (h : s.Ok) (hr : s.remaining = 0) : (underflow n s).Is
    (fun r s' => s'.Ok ∧ s'.ahead = s.ahead ∧ r = s'.remaining ∧ s'.gcount = s.gcount ∧ s'.delims = s.delims ∧
      ((n ≤ r ∧ s.ios.state = 0 ∧ s'.ios.state = 0) ∨ (r < n ∧ s'.ios.state = 6 ∧ s'.file.src = [])))
    (fun _ => False) (fun s' => s'.file.sys = []) := by
  have hu : s.unread = [] := by rw [← List.length_eq_zero_iff, h.len, hr]
  unfold underflow
  rcases h.state with h0 | ⟨h6, hsrc⟩
  · -- not at the end of the file
    obtain ⟨s1, e1, a1, a2, a3, a4, a5⟩ := makeRoom_is (Nat.le_trans h.pos h.lim) n
    have hrefill : (refill n s).Is (fun _ s' => s'.Ok ∧ s'.ahead = s.ahead ∧ s'.gcount = s.gcount ∧ s'.delims = s.delims ∧
        ((n ≤ s'.remaining ∧ s'.file.ios.state = 0) ∨ (s'.remaining < n ∧ s'.file.ios.state = 6 ∧ s'.file.src = [])))
        (fun _ => False) (fun s' => s'.file.sys = []) := by
      unfold refill
      rw [if_neg (by simp [Ios.eof, h0]), P.bind_ret e1]
      generalize hp : s.pos - toErase n s = p
      rw [hp] at a5
      refine (fillLoop_is (s.file.sys.length + 1) (p + n) p s1 (by rw [a1]; omega) a5 (by omega) (by rw [a1]; exact h.fexc) (by rw [a1]; exact h.sys) (by rw [a1]; exact h0)).bind ?_
      rintro br s2 ⟨d, g, rfl, g3⟩
      unfold relink
      rw [if_pos ⟨g.le, by omega⟩]
      have hun : ({ s2 with ios := { s2.ios with state := s2.file.ios.state }, buf := s2.buf.set (p + d.length) 0, lim := p + d.length, pos := p } : IFS).unread = d := by
        show ((s2.buf.set (p + d.length) 0).take (p + d.length)).drop p = d
        rw [List.take_set_of_le (Nat.le_refl _), g.buf, List.drop_left' (by simp; omega)]
      have hrem : ({ s2 with ios := { s2.ios with state := s2.file.ios.state }, buf := s2.buf.set (p + d.length) 0, lim := p + d.length, pos := p } : IFS).remaining = d.length := by
        show p + d.length - p = _; omega
      refine ⟨⟨by show p ≤ p + d.length; omega, by show p + d.length ≤ (s2.buf.set _ _).length; rw [List.length_set]; exact g.le, ?_, ?_, g.sys, rfl, ?_⟩, ?_, g.gc.trans a3, g.del.trans a4, ?_⟩
      · show s2.ios.exc = 0; rw [g.ios, a2]; exact h.exc
      · show s2.file.ios.exc = 0; rw [g.fexc, a1]; exact h.fexc
      · rcases g3 with g3 | g3
        · exact Or.inl g3.2
        · exact Or.inr g3.2
      · rw [IFS.ahead, hun, IFS.ahead, hu, List.nil_append]
        show d ++ s2.file.src = _
        rw [← g.src, a1]
      · rw [hrem]
        rcases g3 with g3 | g3
        · exact Or.inl ⟨by omega, g3.2⟩
        · exact Or.inr ⟨by omega, g3.2⟩
    refine hrefill.bind ?_
    rintro _ s2 ⟨b1, b2, b3, b4, b5⟩
    have hcheck : eofCheck n s2 = .ret () s2 := by
      unfold eofCheck
      split
      · rename_i he
        rcases b5 with b5 | b5
        · simp [Ios.eof, b5.2] at he
        · exact iverify_short b1.exc n b5.1 (by rw [b1.same]; exact b5.2.1)
      · rfl
    rw [P.bind_ret hcheck]
    refine ⟨b1, b2, rfl, b3, b4, ?_⟩
    rcases b5 with b5 | b5
    · exact Or.inl ⟨b5.1, by rw [h.same]; exact h0, by rw [b1.same]; exact b5.2⟩
    · exact Or.inr ⟨b5.1, by rw [b1.same]; exact b5.2.1, b5.2.2⟩
  · have e1 : refill n s = .ret () s := by unfold refill; rw [if_pos (by simp [Ios.eof, h6])]
    have e2 : eofCheck n s = .ret () s := by
      unfold eofCheck
      rw [if_pos (by simp [Ios.eof, h6])]
      exact iverify_short h.exc n (by omega) (by rw [h.same]; exact h6)
    rw [P.bind_ret e1, P.bind_ret e2]
    exact ⟨h, rfl, rfl, rfl, rfl, Or.inr ⟨by show s.remaining < n; omega, by rw [h.same]; exact h6, hsrc⟩⟩

/-! ## The file stream and a string stream on all of the text -/

open Text (TIS)

/-- The file stream `s` and the string stream `t` are to read the same text, in the same way. -/
structure Rel (s : IFS) (t : TIS) : Prop where
  ok : s.Ok
  tok : t.Ok
  text : t.unread = s.ahead
  del : t.delims = s.delims
  gc : t.gcount = s.gcount
  st : t.is.ios.state = s.ios.state

/-- The two operations do the same: the file stream returns what the string stream returns, or waits for the system. -/
def Sim {α : Type} (R : IFS → TIS → Prop) (m : P IFS α) (m' : M TIS α) (Q : α → IFS → TIS → Prop) : Prop :=
  ∀ s t, R s t → match m s with
    | .ret a s' => ∃ t', m' t = .ret a t' ∧ Q a s' t'
    | .exn _ => False
    | .oob => m' t = .oob
    | .run s' => s'.file.sys = []

theorem P.bind_oob {σ α β : Type} {m : P σ α} {f : α → P σ β} {s : σ} (h : m s = .oob) : (m >>= f) s = .oob := by
  show (match m s with | .ret a s' => f a s' | .exn s' => .exn s' | .oob => .oob | .run s' => .run s') = _
  rw [h]

theorem M.bind_oob' {σ α β : Type} {m : M σ α} {f : α → M σ β} {s : σ} (h : m s = .oob) : (m >>= f) s = .oob := by
  show (match m s with | .ret a s' => f a s' | .exn s' => .exn s' | .oob => .oob) = _
  rw [h]

theorem Sim.bind {α β : Type} {R : IFS → TIS → Prop} {m : P IFS α} {m' : M TIS α} {Q : α → IFS → TIS → Prop} {f : α → P IFS β} {f' : α → M TIS β} {Q' : β → IFS → TIS → Prop}
    (h : Sim R m m' Q) (hf : ∀ a, Sim (Q a) (f a) (f' a) Q') : Sim R (m >>= f) (m' >>= f') Q' := by
  intro s t hr
  have := h s t hr
  cases e : m s with
  | ret a s' =>
    rw [e] at this
    obtain ⟨t', e', q⟩ := this
    rw [P.bind_ret e, M.bind_ret e']
    exact hf a s' t' q
  | exn s' => rw [e] at this; exact this.elim
  | oob =>
    rw [e] at this
    rw [P.bind_oob e]; exact M.bind_oob' this
  | run s' =>
    rw [e] at this
    rw [P.bind_run e]
    exact this

theorem Sim.pure {α : Type} {R : IFS → TIS → Prop} {Q : α → IFS → TIS → Prop} {a : α} (h : ∀ s t, R s t → Q a s t) : Sim R (Pure.pure a) (Pure.pure a) Q :=
  fun s t r => ⟨t, rfl, h s t r⟩

theorem Sim.look {α : Type} {R : IFS → TIS → Prop} {Q : α → IFS → TIS → Prop} {f : IFS → α} {f' : TIS → α} (h : ∀ s t, R s t → f' t = f s ∧ Q (f s) s t) :
    Sim R (look f) (Text.look f') Q := by
  intro s t r
  refine ⟨t, ?_, (h s t r).2⟩
  show Out.ret (f' t) t = _
  rw [(h s t r).1]

theorem Sim.weaken {α : Type} {R : IFS → TIS → Prop} {m : P IFS α} {m' : M TIS α} {Q Q' : α → IFS → TIS → Prop} (h : Sim R m m' Q)
    (hq : ∀ a s t, Q a s t → Q' a s t) : Sim R m m' Q' := by
  intro s t r
  have := h s t r
  cases e : m s with
  | ret a s' => rw [e] at this; obtain ⟨t', e', q⟩ := this; exact ⟨t', e', hq _ _ _ q⟩
  | exn s' => rw [e] at this; exact this.elim
  | oob => rw [e] at this; exact this
  | run s' => rw [e] at this; exact this

theorem Sim.pre {α : Type} {R R' : IFS → TIS → Prop} {m : P IFS α} {m' : M TIS α} {Q : α → IFS → TIS → Prop} (h : Sim R m m' Q)
    (hr : ∀ s t, R' s t → R s t) : Sim R' m m' Q := fun s t r => h s t (hr s t r)

/-- `remaining() || underflow()`. -/
theorem sim_more : Sim Rel imore Text.more (fun b s t => Rel s t ∧ (b = true → s.unread ≠ []) ∧ (b = false → s.ahead = [] ∧ s.ios.state = 6)) := by
  intro s t r
  unfold imore
  rw [look_bind]
  by_cases hr : s.remaining = 0
  · rw [if_neg (by simpa using hr)]
    have hu := underflow_is 1 (by decide) r.ok hr
    cases e : underflow 1 s with
    | ret u s1 =>
      rw [e] at hu
      obtain ⟨h1, h2, h3, h4, h5, h6⟩ := hu
      rw [P.bind_ret e]
      rcases h6 with ⟨h6, h7, h8⟩ | ⟨h6, h7, h8⟩
      · have hb : decide (u ≠ 0) = true := by simp; omega
        have hun : s1.unread ≠ [] := by
          intro e; have := h1.len; rw [e] at this; simp at this; omega
        have hne : t.unread ≠ [] := by rw [r.text, ← h2, IFS.ahead]; simp [hun]
        rw [hb]
        exact ⟨t, Text.more_yes r.tok hne, ⟨h1, r.tok, by rw [r.text, h2], by rw [r.del, h5], by rw [r.gc, h4], by rw [r.st, h7, h8]⟩, fun _ => hun, fun h => by cases h⟩
      · have hb : decide (u ≠ 0) = false := by simp; omega
        have hun : s1.unread = [] := by
          rw [← List.length_eq_zero_iff, h1.len]; omega
        have ha : s1.ahead = [] := by rw [IFS.ahead, hun, h8]; rfl
        have hne : t.unread = [] := by rw [r.text, ← h2, ha]
        rw [hb]
        refine ⟨t.eof, Text.more_no r.tok hne, ⟨h1, r.tok.eof, by rw [ha]; exact hne, by show t.delims = _; rw [r.del, h5], by show t.gcount = _; rw [r.gc, h4], ?_⟩, (fun h => by cases h), fun _ => ⟨ha, h7⟩⟩
        show t.is.ios.state ||| 6 = s1.ios.state
        rw [r.st, h7, r.ok.same]
        rcases r.ok.state with h | h
        · rw [h]; rfl
        · rw [h.1]; rfl
    | exn s1 => rw [e] at hu; exact hu.elim
    | oob => rw [e] at hu; exact hu.elim
    | run s1 => rw [e] at hu; rw [P.bind_run e]; exact hu
  · rw [if_pos (by simpa using hr)]
    have hun : s.unread ≠ [] := by intro e; have := r.ok.len; rw [e] at this; exact hr (by simpa using this.symm)
    have hne : t.unread ≠ [] := by rw [r.text, IFS.ahead]; simp [hun]
    exact ⟨t, Text.more_yes r.tok hne, r, fun _ => hun, fun h => by cases h⟩

/-- The states after a character was read. -/
def After (s : IFS) (t : TIS) : Prop := ∃ s0 t0, Rel s0 t0 ∧ s = { s0 with pos := s0.pos + 1 } ∧ t = t0.adv 1 ∧ s0.unread ≠ []

theorem unread_cons {s : IFS} (h : s.Ok) (hu : s.unread ≠ []) : ∃ c, s.buf[s.pos]? = some c ∧ s.pos < s.lim ∧
    s.unread = c :: ({ s with pos := s.pos + 1 } : IFS).unread := by
  have hl := h.len
  have hne : 0 < s.unread.length := List.length_pos_iff.2 hu
  have h1 := h.lim
  unfold IFS.remaining at hl
  have hp : s.pos < s.buf.length := by omega
  refine ⟨s.buf[s.pos], List.getElem?_eq_getElem hp, by omega, ?_⟩
  unfold IFS.unread
  have hp' : s.pos < (s.buf.take s.lim).length := by simp; omega
  rw [List.drop_eq_getElem_cons hp']
  simp

theorem After.rel {s : IFS} {t : TIS} (h : After s t) : Rel s t := by
  obtain ⟨s0, t0, r, rfl, rfl, hu⟩ := h
  obtain ⟨c, hc, hp, he⟩ := unread_cons r.ok hu
  have ht : t0.unread = [c] ++ ({ s0 with pos := s0.pos + 1 } : IFS).ahead := by rw [r.text, IFS.ahead, he]; rfl
  obtain ⟨ta, tb⟩ := r.tok.adv ht
  exact ⟨⟨hp, r.ok.lim, r.ok.exc, r.ok.fexc, r.ok.sys, r.ok.same, r.ok.state⟩, ta, tb, r.del, r.gc, r.st⟩

theorem sim_getc (x : Byte) : Sim (fun s t => Rel s t ∧ s.unread ≠ []) (igetc x) (Text.getc x) (fun _ s t => After s t) := by
  rintro s t ⟨r, hu⟩
  obtain ⟨c, hc, hp, he⟩ := unread_cons r.ok hu
  have ht : t.unread = c :: ({ s with pos := s.pos + 1 } : IFS).ahead := by rw [r.text, IFS.ahead, he]; rfl
  unfold igetc
  rw [look_bind, if_pos (by unfold IFS.remaining; omega)]
  unfold itake
  rw [hc]
  exact ⟨t.adv 1, Text.getc_ok r.tok ht, s, t, r, rfl, rfl, hu⟩

theorem sim_ungetc : Sim After iungetc (Text.lift IS.ungetc) (fun _ s t => Rel s t) := by
  rintro s t ⟨s0, t0, r, rfl, rfl, hu⟩
  obtain ⟨c, hc, hp, he⟩ := unread_cons r.ok hu
  have ht : t0.unread = [c] ++ ({ s0 with pos := s0.pos + 1 } : IFS).ahead := by rw [r.text, IFS.ahead, he]; rfl
  have htp := (r.tok.adv ht).1.pos
  have e : iungetc { s0 with pos := s0.pos + 1 } = .ret () s0 := by
    unfold iungetc iseek
    rw [if_neg (by simp)]
    have h1 := r.ok.pos
    simp only [Nat.add_sub_cancel]
    rw [if_pos h1]
  rw [e]
  refine ⟨t0, ?_, r⟩
  have := Text.ungetc_adv r.tok (k := 0) (by simpa [TIS.adv] using htp)
  simpa [TIS.adv_zero] using this

theorem isDelim_same {s : IFS} {t : TIS} (r : Rel s t) (c : Byte) : t.isDelim c = s.isDelim c := by
  unfold TIS.isDelim IFS.isDelim; rw [r.del]

theorem sim_verify : Sim (fun s t => Rel s t ∧ s.ahead = [] ∧ s.ios.state = 6) (do iverify 1; pure (0 : Byte)) (do let _ ← Text.lift (IS.verify 1); pure 0) (fun _ s t => Rel s t) := by
  rintro s t ⟨r, ha, h6⟩
  have hr : s.remaining = 0 := by
    rw [← r.ok.len, List.length_eq_zero_iff]
    exact (List.append_eq_nil_iff.1 ha).1
  have ht : t.unread = [] := by rw [r.text, ha]
  rw [P.bind_ret (iverify_short r.ok.exc 1 (by omega) h6)]
  have hv := Text.verify_short r.tok 1 (by rw [ht]; decide)
  rw [if_pos ht] at hv
  refine ⟨t.eof, M.bind_ret hv, ⟨r.ok, r.tok.eof, by rw [ha]; exact ht, r.del, r.gc, ?_⟩⟩
  show t.is.ios.state ||| 6 = s.ios.state
  rw [r.st, h6]; rfl

theorem sim_ub {α : Type} {R : IFS → TIS → Prop} {Q : α → IFS → TIS → Prop} : Sim R (iub : P IFS α) Text.ub Q := fun _ _ _ => rfl

theorem sim_skipLoop (k : Nat) : ∀ c, Sim Rel (iskipLoop k c) (Text.skipLoop k c) (fun _ s t => Rel s t) := by
  induction k with
  | zero => intro c; exact sim_ub
  | succ k ih =>
    intro c
    unfold iskipLoop Text.skipLoop iskipRound Text.skipRound
    refine Sim.bind (Sim.look (Q := fun b s t => Rel s t) fun s t r => ⟨isDelim_same r c, r⟩) ?_
    intro b
    cases b with
    | false => exact Sim.pure fun _ _ r => r
    | true =>
      refine Sim.bind sim_more ?_
      intro b
      cases b with
      | true =>
        refine Sim.bind ((sim_getc c).pre fun s t h => ⟨h.1, h.2.1 rfl⟩) fun c' => (ih c').pre fun _ _ h => h.rel
      | false => exact sim_verify.pre fun s t h => ⟨h.1, h.2.2 rfl⟩

theorem sim_skipDelims : Sim Rel iskipDelims Text.skipDelims (fun _ s t => Rel s t) := by
  intro s t r
  have h1 : s.left = t.is.remaining := by rw [r.ok.left, r.tok.remaining, r.text]
  have := sim_skipLoop (s.left + 2) (s.delims.headD 0) s t r
  unfold iskipDelims Text.skipDelims
  rw [← h1, r.del]
  exact this

theorem sim_strLoop (k : Nat) : ∀ q c v, Sim Rel (istrLoop k q c v) (Text.strLoop k q c v) (fun _ s t => Rel s t) := by
  induction k with
  | zero => intro q c v; exact sim_ub
  | succ k ih =>
    intro q c v
    unfold istrLoop Text.strLoop istrRound Text.strRound
    refine Sim.bind sim_more ?_
    intro b
    cases b with
    | false => exact Sim.pure fun _ _ r => r.1
    | true =>
      refine Sim.bind ((sim_getc c).pre fun s t h => ⟨h.1, h.2.1 rfl⟩) fun c' => ?_
      refine Sim.bind (Sim.look (Q := fun b s t => Rel s t) fun s t r => ⟨isDelim_same r.rel c', r.rel⟩) ?_
      intro d
      by_cases h1 : q = 0 ∧ d = true
      · rw [if_pos h1, if_pos h1]; exact Sim.pure fun _ _ r => r
      · rw [if_neg h1, if_neg h1]
        by_cases h2 : c = 92
        · rw [if_pos h2, if_pos h2]
          by_cases h3 : v = []
          · rw [if_pos h3, if_pos h3]; exact sim_ub
          · rw [if_neg h3, if_neg h3]; exact ih _ _ _
        · rw [if_neg h2, if_neg h2]
          by_cases h3 : c' = q
          · rw [if_pos h3, if_pos h3]; exact Sim.pure fun _ _ r => r
          · rw [if_neg h3, if_neg h3]; exact ih _ _ _

theorem sim_left : Sim Rel (look IFS.left) (Text.look (fun t : TIS => t.is.remaining)) (fun _ s t => Rel s t) :=
  Sim.look fun s t r => ⟨by rw [r.ok.left, r.tok.remaining, r.text], r⟩

theorem sim_readString : Sim Rel ireadString Text.readString (fun _ s t => Rel s t) := by
  unfold ireadString Text.readString
  refine Sim.bind sim_skipDelims ?_
  intro c
  by_cases h1 : c = 0
  · rw [if_pos h1, if_pos h1]; exact Sim.pure fun _ _ r => r
  · rw [if_neg h1, if_neg h1]
    refine Sim.bind sim_left ?_
    intro r
    by_cases h2 : c = 34 ∨ c = 39
    · rw [if_pos h2, if_pos h2]; exact sim_strLoop _ _ _ _
    · rw [if_neg h2, if_neg h2]; exact sim_strLoop _ _ _ _

theorem sim_setCount (n : Nat) : Sim Rel (isetCount n) (Text.setCount n) (fun _ s t => Rel s t) :=
  fun _ _ r => ⟨_, rfl, ⟨⟨r.ok.pos, r.ok.lim, r.ok.exc, r.ok.fexc, r.ok.sys, r.ok.same, r.ok.state⟩, r.tok.cnt _, r.text, r.del, rfl, r.st⟩⟩

theorem sim_gcount : Sim Rel (look IFS.gcount) (Text.look (fun t : TIS => t.gcount)) (fun _ s t => Rel s t) :=
  Sim.look fun _ _ r => ⟨r.gc, r⟩

theorem sim_getLoop (delim : Byte) (k : Nat) : ∀ c acc, Sim Rel (igetLoop delim k c acc) (Text.getLoop delim k c acc) (fun _ s t => Rel s t) := by
  induction k with
  | zero => intro c acc; exact Sim.pure fun _ _ r => r
  | succ k ih =>
    intro c acc
    unfold igetLoop Text.getLoop igetRound Text.getRound
    refine Sim.bind sim_more ?_
    intro b
    cases b with
    | false => exact Sim.pure fun _ _ r => r.1
    | true =>
      refine Sim.bind ((sim_getc c).pre fun s t h => ⟨h.1, h.2.1 rfl⟩) fun c' => ?_
      by_cases h1 : c' = delim
      · rw [if_pos h1, if_pos h1]
        exact Sim.bind sim_ungetc fun _ => Sim.pure fun _ _ r => r
      · rw [if_neg h1, if_neg h1]
        exact Sim.bind (sim_gcount.pre fun _ _ h => h.rel) fun n => Sim.bind (sim_setCount _) fun _ => ih _ _

theorem sim_getBuf (n : Nat) (delim : Byte) : Sim Rel (igetBuf n delim) (Text.getBuf n delim) (fun _ s t => Rel s t) := by
  unfold igetBuf Text.getBuf
  by_cases h : n = 0
  · rw [if_pos h, if_pos h]; exact sim_ub
  · rw [if_neg h, if_neg h]
    exact Sim.bind (sim_setCount 0) fun _ => Sim.bind (sim_getLoop _ _ _ _) fun _ => Sim.pure fun _ _ r => r

theorem imore_is {s : IFS} (h : s.Ok) : (imore s).Is
    (fun b s' => s'.Ok ∧ s'.ahead = s.ahead ∧ s'.gcount = s.gcount ∧ s'.delims = s.delims ∧
      (b = true → s'.unread ≠ [] ∧ s'.ios.state = s.ios.state) ∧ (b = false → s'.ahead = [] ∧ s'.ios.state = 6))
    (fun _ => False) (fun s' => s'.file.sys = []) := by
  unfold imore
  rw [look_bind]
  by_cases hr : s.remaining = 0
  · rw [if_neg (by simpa using hr)]
    refine (underflow_is 1 (by decide) h hr).bind ?_
    rintro u s1 ⟨h1, h2, h3, h4, h5, h6⟩
    refine Res.Is.pure ⟨h1, h2, h4, h5, ?_, ?_⟩
    · intro hb
      have hu : u ≠ 0 := by simpa using hb
      rcases h6 with ⟨h6, h7, h8⟩ | ⟨h6, h7, h8⟩
      · refine ⟨?_, by rw [h7, h8]⟩
        intro e; have := h1.len; rw [e] at this; simp at this; omega
      · omega
    · intro hb
      have hu : u = 0 := by simpa using hb
      rcases h6 with ⟨h6, h7, h8⟩ | ⟨h6, h7, h8⟩
      · omega
      · refine ⟨?_, h7⟩
        rw [IFS.ahead, h8, List.append_nil, ← List.length_eq_zero_iff, h1.len]; omega
  · rw [if_pos (by simpa using hr)]
    have hun : s.unread ≠ [] := by intro e; have := h.len; rw [e] at this; exact hr (by simpa using this.symm)
    exact Res.Is.pure ⟨h, rfl, rfl, rfl, fun _ => ⟨hun, rfl⟩, fun h => by cases h⟩

/-- The states after the text up to `delim` was read. -/
structure UpTo (delim : Byte) (s s' : IFS) : Prop where
  ok : s'.Ok
  text : s.ahead = Text.upTo delim s.ahead ++ s'.ahead
  gc : s'.gcount = (s.gcount + (Text.upTo delim s.ahead).length) % 2 ^ 32
  del : s'.delims = s.delims
  st : (Text.upTo delim s.ahead = s.ahead ∧ s'.ios.state = 6) ∨ (s'.ios.state = s.ios.state ∧ ∃ r, s'.unread = delim :: r)

theorem igetStrLoop_is (delim : Byte) (k : Nat) : ∀ (v : List Byte) (s : IFS), s.Ok → s.gcount < 2 ^ 32 → s.ahead.length < k → (igetStrLoop delim k v s).Is
    (fun w s' => w = v ++ Text.upTo delim s.ahead ∧ UpTo delim s s') (fun _ => False) (fun s' => s'.file.sys = []) := by
  induction k with
  | zero => intro _ _ _ _ h; omega
  | succ k ih =>
    intro v s h hg hk
    unfold igetStrLoop igetStrRound
    refine (imore_is h).bind ?_
    rintro b s1 ⟨h1, h2, h3, h4, h5, h6⟩
    cases b with
    | false =>
      obtain ⟨ha, hs⟩ := h6 rfl
      have ha' : s.ahead = [] := by rw [← h2, ha]
      refine Res.Is.pure ⟨by rw [ha']; simp [Text.upTo], ⟨h1, by rw [ha', ha]; rfl, ?_, h4, Or.inl ⟨by rw [ha']; rfl, hs⟩⟩⟩
      rw [ha', h3]; simp [Text.upTo]; omega
    | true =>
      obtain ⟨hu, hs⟩ := h5 rfl
      obtain ⟨c, hc, hp, he⟩ := unread_cons h1 hu
      simp only [if_pos]
      rw [look_bind, hc]
      simp only
      by_cases hcd : c = delim
      · rw [if_pos hcd]
        subst hcd
        have hz : Text.upTo c s.ahead = [] := by rw [← h2, IFS.ahead, he]; simp [Text.upTo]
        refine Res.Is.pure ⟨by rw [hz]; simp, ⟨h1, by rw [hz, h2]; rfl, ?_, h4, Or.inr ⟨hs, _, he⟩⟩⟩
        rw [hz, h3]; simp; omega
      · rw [if_neg hcd, look_bind]
        generalize hd : s1.unread.takeWhile (· ≠ delim) = d
        have hsplit : s1.unread = d ++ s1.unread.dropWhile (· ≠ delim) := by rw [← hd]; exact List.takeWhile_append_dropWhile.symm
        have hdne : d ≠ [] := by rw [← hd, he]; simp [hcd]
        have hdn : delim ∉ d := by rw [← hd]; exact Text.upTo_not_mem
        have hlen := h1.len
        have hll := congrArg List.length hsplit
        rw [List.length_append, hlen] at hll
        unfold IFS.remaining at hll
        have hpl := h1.pos
        have e1 : iskip d.length s1 = .ret () { s1 with pos := s1.pos + d.length } := by
          unfold iskip iseek
          rw [if_pos (by omega)]
        rw [P.bind_ret e1, look_bind, isetCount, modify_bind]
        have hun : ({ s1 with pos := s1.pos + d.length, gcount := (s1.gcount + d.length) % 2 ^ 32 } : IFS).unread = s1.unread.dropWhile (· ≠ delim) := by
          show (s1.buf.take s1.lim).drop (s1.pos + d.length) = _
          rw [← List.drop_drop]
          show s1.unread.drop d.length = _
          conv => lhs; rw [hsplit]
          exact List.drop_left
        have hah : s.ahead = d ++ ({ s1 with pos := s1.pos + d.length, gcount := (s1.gcount + d.length) % 2 ^ 32 } : IFS).ahead := by
          rw [← h2, IFS.ahead, IFS.ahead, hun, ← List.append_assoc, ← hsplit]
        have hup : Text.upTo delim s.ahead = d ++ Text.upTo delim ({ s1 with pos := s1.pos + d.length, gcount := (s1.gcount + d.length) % 2 ^ 32 } : IFS).ahead := by
          rw [hah, Text.upTo_append hdn]
        have hdl : 0 < d.length := List.length_pos_iff.2 hdne
        have hal := congrArg List.length hah
        rw [List.length_append] at hal
        refine (ih (v ++ d) { s1 with pos := s1.pos + d.length, gcount := (s1.gcount + d.length) % 2 ^ 32 }
          ⟨by show s1.pos + d.length ≤ s1.lim; omega, h1.lim, h1.exc, h1.fexc, h1.sys, h1.same, h1.state⟩ (Nat.mod_lt _ (by decide)) (by omega)).mono ?_ (fun _ h => h) (fun _ h => h)
        rintro w s' ⟨hw, u⟩
        refine ⟨by rw [hw, hup, List.append_assoc], ⟨u.ok, ?_, ?_, u.del.trans h4, ?_⟩⟩
        · rw [hup, List.append_assoc, ← u.text]; exact hah
        · rw [u.gc, hup, List.length_append]
          show ((s1.gcount + d.length) % 2 ^ 32 + _) % 2 ^ 32 = _
          rw [h3]; omega
        · rcases u.st with ⟨ua, ub⟩ | ⟨ua, ub⟩
          · exact Or.inl ⟨by rw [hup, ua]; exact hah.symm, ub⟩
          · exact Or.inr ⟨ua.trans hs, ub⟩

/-- The string stream does what `UpTo` says. -/
theorem upTo_rel {delim : Byte} {s s' : IFS} {t : TIS} (r : Rel s t) (hg : s.gcount = 0) (u : UpTo delim s s') :
    ∃ t', Text.getStr delim t = .ret (Text.upTo delim s.ahead) t' ∧ Rel s' t' ∧ (t'.unread = [] ∨ ∃ r, t'.unread = delim :: r) ∧
      t'.gcount = (Text.upTo delim s.ahead).length := by
  obtain ⟨g1, g2⟩ := Text.getStr_spec r.tok delim
  rw [r.text] at g1 g2
  have hl : s.ahead.length < 2 ^ 32 := by rw [← r.text]; exact r.tok.remaining_lt
  have hlu : (Text.upTo delim s.ahead).length ≤ s.ahead.length := by
    have := congrArg List.length u.text; rw [List.length_append] at this; omega
  have hgc : s'.gcount = (Text.upTo delim s.ahead).length := by rw [u.gc, hg, Nat.zero_add, Nat.mod_eq_of_lt (by omega)]
  have ht : t.unread = Text.upTo delim s.ahead ++ s'.ahead := by rw [r.text]; exact u.text
  obtain ⟨a1, a2⟩ := r.tok.adv ht
  rcases u.st with ⟨ua, ub⟩ | ⟨ua, w, ub⟩
  · have hn : delim ∉ s.ahead := by rw [← ua]; exact Text.upTo_not_mem
    have hnil : s'.ahead = [] := by
      have := u.text; rw [ua] at this; simpa using this
    refine ⟨((t.adv s.ahead.length).cnt s.ahead.length).eof, by rw [ua]; exact g2 hn, ⟨u.ok, ?_, ?_, r.del.trans u.del.symm, ?_, ?_⟩, Or.inl ?_, by rw [ua]; rfl⟩
    · rw [ua] at a1; exact (a1.cnt _).eof
    · rw [ua] at a2; exact a2
    · rw [hgc, ua]; rfl
    · show t.is.ios.state ||| 6 = s'.ios.state
      rw [ub, r.st, r.ok.same]
      rcases r.ok.state with h | h
      · rw [h]; rfl
      · rw [h.1]; rfl
    · rw [ua] at a2; rw [← hnil]; exact a2
  · have hs' : s'.ahead = delim :: (w ++ s'.file.src) := by rw [IFS.ahead, ub]; rfl
    have hg1 := g1 (Text.upTo delim s.ahead) (w ++ s'.file.src) Text.upTo_not_mem (by rw [← hs']; exact u.text)
    refine ⟨_, hg1, ⟨u.ok, a1.cnt _, a2, r.del.trans u.del.symm, hgc.symm, ?_⟩, Or.inr ⟨w ++ s'.file.src, ?_⟩, rfl⟩
    · show t.is.ios.state = _; rw [r.st, ua]
    · rw [← hs']; exact a2

theorem sim_getStr' (delim : Byte) : Sim Rel (igetStr delim) (Text.getStr delim)
    (fun _ s t => Rel s t ∧ (s.unread = [] ∧ s.ahead = [] ∨ ∃ r, s.unread = delim :: r) ∧ s.gcount + s.ahead.length < 2 ^ 32) := by
  intro s t r
  unfold igetStr
  rw [isetCount, modify_bind, look_bind]
  have hok : ({ s with gcount := 0 % 2 ^ 32 } : IFS).Ok := ⟨r.ok.pos, r.ok.lim, r.ok.exc, r.ok.fexc, r.ok.sys, r.ok.same, r.ok.state⟩
  have hrel : Rel { s with gcount := 0 % 2 ^ 32 } (t.cnt 0) := ⟨hok, r.tok.cnt 0, r.text, r.del, rfl, r.st⟩
  have hl : s.ahead.length < 2 ^ 32 := by rw [← r.text]; exact r.tok.remaining_lt
  have h := igetStrLoop_is delim (({ s with gcount := 0 % 2 ^ 32 } : IFS).left + 2) [] { s with gcount := 0 % 2 ^ 32 } hok (by show 0 % 2 ^ 32 < 2 ^ 32; decide) (by rw [hok.left]; omega)
  have heq : Text.getStr delim (t.cnt 0) = Text.getStr delim t := rfl
  cases e : igetStrLoop delim (({ s with gcount := 0 % 2 ^ 32 } : IFS).left + 2) [] { s with gcount := 0 % 2 ^ 32 } with
  | ret w s' =>
    rw [e] at h
    obtain ⟨hw, u⟩ := h
    obtain ⟨t', c1, c2, c3, c4⟩ := upTo_rel hrel (by show 0 % 2 ^ 32 = 0; rfl) u
    rw [heq] at c1
    refine ⟨t', by rw [c1, hw, List.nil_append], c2, ?_, ?_⟩
    · rcases u.st with ⟨ua, ub⟩ | ⟨ua, ub⟩
      · have hnil : s'.ahead = [] := by
          have := u.text; rw [ua] at this; simpa using this
        exact Or.inl ⟨(List.append_eq_nil_iff.1 hnil).1, hnil⟩
      · exact Or.inr ub
    · rw [← c2.gc, c4]
      have := congrArg List.length u.text
      rw [List.length_append] at this
      rw [← this]; exact hl
  | exn s' => rw [e] at h; exact h.elim
  | oob => rw [e] at h; exact h.elim
  | run s' => rw [e] at h; exact h

theorem sim_getStr (delim : Byte) : Sim Rel (igetStr delim) (Text.getStr delim) (fun _ s t => Rel s t) :=
  (sim_getStr' delim).weaken fun _ _ _ h => h.1

theorem sim_eatDelim (delim : Byte) : Sim (fun s t => Rel s t ∧ (s.unread = [] ∧ s.ahead = [] ∨ ∃ r, s.unread = delim :: r) ∧ s.gcount + s.ahead.length < 2 ^ 32)
    (ieatDelim delim) (Text.eatDelim delim) (fun _ s t => Rel s t) := by
  rintro s t ⟨r, hu, hc⟩
  unfold ieatDelim
  rw [look_bind]
  rcases hu with ⟨hu, ha⟩ | ⟨w, hu⟩
  · have hr : s.remaining = 0 := by rw [← r.ok.len, hu]; rfl
    rw [if_neg (by simpa using hr)]
    exact ⟨t, Text.eatDelim_no r.tok delim (Or.inl (by rw [r.text, ha])), r⟩
  · have hr : s.remaining ≠ 0 := by rw [← r.ok.len, hu]; simp
    rw [if_pos hr, look_bind]
    obtain ⟨c, hc', hp, he⟩ := unread_cons r.ok (by rw [hu]; simp)
    have hcd : c = delim := by rw [hu] at he; injection he with h _; exact h.symm
    subst hcd
    rw [hc']
    simp only [if_pos]
    have e1 : iskip 1 s = .ret () { s with pos := s.pos + 1 } := by unfold iskip iseek; rw [if_pos (by omega)]
    rw [P.bind_ret e1, look_bind]
    have ht : t.unread = [c] ++ ({ s with pos := s.pos + 1 } : IFS).ahead := by rw [r.text, IFS.ahead, he]; rfl
    obtain ⟨a1, a2⟩ := r.tok.adv ht
    have hal : s.ahead.length ≠ 0 := by rw [IFS.ahead, hu]; simp
    refine ⟨_, Text.eatDelim_yes r.tok ht (by rw [r.gc]; omega), ⟨⟨hp, r.ok.lim, r.ok.exc, r.ok.fexc, r.ok.sys, r.ok.same, r.ok.state⟩, a1.cnt _, a2, r.del, ?_, r.st⟩⟩
    show t.gcount + 1 = (s.gcount + 1) % 2 ^ 32
    rw [r.gc]; omega

theorem sim_getline (delim : Byte) : Sim Rel (igetlineStr delim) (Text.getlineStr delim) (fun _ s t => Rel s t) := by
  unfold igetlineStr Text.getlineStr
  exact Sim.bind (sim_getStr' delim) fun _ => Sim.bind (sim_eatDelim delim) fun _ => Sim.pure fun _ _ r => r

theorem sim_get : Sim (fun s t => Rel s t ∧ s.unread ≠ []) iget Text.get (fun _ s t => Rel s t) := by
  rintro s t ⟨r, hu⟩
  obtain ⟨c, hc, hp, he⟩ := unread_cons r.ok hu
  have ht : t.unread = [c] ++ ({ s with pos := s.pos + 1 } : IFS).ahead := by rw [r.text, IFS.ahead, he]; rfl
  have hr : 1 ≤ s.remaining := by unfold IFS.remaining; omega
  have e0 : ishort 1 s = .ret false s := by
    unfold ishort
    rw [look_bind, if_neg (by omega)]; rfl
  have e2 : itakeN (1 % 2 ^ 32) { s with gcount := 1 % 2 ^ 32 } = .ret [c] { s with gcount := 1 % 2 ^ 32, pos := s.pos + 1 } := by
    unfold itakeN
    have h1 : s.pos + 1 % 2 ^ 32 ≤ s.buf.length := by have := r.ok.lim; omega
    rw [if_pos (show 1 % 2 ^ 32 ≤ ({ s with gcount := 1 % 2 ^ 32 } : IFS).remaining from hr)]
    have h2 : slice s.buf s.pos (1 % 2 ^ 32) = some [c] := by
      unfold slice
      rw [if_pos h1]
      have hpb : s.pos < s.buf.length := by have := r.ok.lim; omega
      rw [List.getElem?_eq_getElem hpb] at hc
      injection hc with hc
      rw [List.drop_eq_getElem_cons hpb, hc]; rfl
    rw [show ({ s with gcount := 1 % 2 ^ 32 } : IFS).buf = s.buf from rfl, show ({ s with gcount := 1 % 2 ^ 32 } : IFS).pos = s.pos from rfl, h2]
  have e : iget s = .ret c { s with gcount := 1 % 2 ^ 32, pos := s.pos + 1 } := by
    unfold iget
    have e1 : iread 1 s = .ret [c] { s with gcount := 1 % 2 ^ 32, pos := s.pos + 1 } := by
      unfold iread
      rw [P.bind_ret e0, if_neg (by simp), isetCount, modify_bind]
      exact e2
    rw [P.bind_ret e1]; rfl
  rw [e]
  obtain ⟨a1, a2⟩ := r.tok.adv ht
  exact ⟨_, Text.get_ok r.tok ht, ⟨⟨hp, r.ok.lim, r.ok.exc, r.ok.fexc, r.ok.sys, r.ok.same, r.ok.state⟩, a1.cnt _, a2, r.del, rfl, r.st⟩⟩

theorem sim_ignoreLoop (delim : Byte) (n : Nat) : Sim Rel (iignoreLoop delim n) (Text.ignoreLoop delim n) (fun _ s t => Rel s t) := by
  induction n with
  | zero => exact Sim.pure fun _ _ r => r
  | succ n ih =>
    unfold iignoreLoop Text.ignoreLoop iignoreRound Text.ignoreRound
    refine Sim.bind sim_more ?_
    intro b
    cases b with
    | false => exact Sim.pure fun _ _ r => r.1
    | true =>
      refine Sim.bind (sim_get.pre fun s t h => ⟨h.1, h.2.1 rfl⟩) fun c => ?_
      by_cases h : c = delim
      · rw [if_pos h, if_pos h]; exact Sim.pure fun _ _ r => r
      · rw [if_neg h, if_neg h]; exact ih

theorem sim_ignore (n : Nat) (delim : Byte) : Sim Rel (iignore n delim) (Text.ignore n delim) (fun _ s t => Rel s t) := by
  unfold iignore Text.ignore
  exact Sim.bind (sim_setCount n) fun _ => Sim.bind (sim_ignoreLoop delim n) fun _ => Sim.bind sim_gcount fun _ => sim_setCount _

/-- What a user reads. -/
inductive RdOp
  /-- `is >> c` -/
  | char
  /-- `is >> str` -/
  | word
  /-- `is.get (str, delim)` -/
  | get (delim : Byte)
  /-- `is.getline (str, delim)` -/
  | getline (delim : Byte)
  /-- `is.get (p, n, delim)` -/
  | getBuf (n : Nat) (delim : Byte)
  /-- `is.ignore (n, delim)` -/
  | ignore (n : Nat) (delim : Byte)

/-- From a file: the bytes that were read. -/
def RdOp.file : RdOp → P IFS (List Byte)
  | .char => do let c ← iskipDelims; pure [c]
  | .word => ireadString
  | .get d => igetStr d
  | .getline d => igetlineStr d
  | .getBuf n d => igetBuf n d
  | .ignore n d => do iignore n d; pure []

/-- From a string. -/
def RdOp.string : RdOp → M TIS (List Byte)
  | .char => do let c ← Text.skipDelims; pure [c]
  | .word => Text.readString
  | .get d => Text.getStr d
  | .getline d => Text.getlineStr d
  | .getBuf n d => Text.getBuf n d
  | .ignore n d => do Text.ignore n d; pure []

theorem sim_op (op : RdOp) : Sim Rel op.file op.string (fun _ s t => Rel s t) := by
  cases op with
  | char => exact Sim.bind sim_skipDelims fun _ => Sim.pure fun _ _ r => r
  | word => exact sim_readString
  | get d => exact sim_getStr d
  | getline d => exact sim_getline d
  | getBuf n d => exact sim_getBuf n d
  | ignore n d => exact Sim.bind (sim_ignore n d) fun _ => Sim.pure fun _ _ r => r

/-- Read a number of things. -/
def fileAll : List RdOp → P IFS (List (List Byte))
  | [] => pure []
  | op :: ops => do let w ← op.file; let l ← fileAll ops; pure (w :: l)

/-- Read a number of things. -/
def stringAll : List RdOp → M TIS (List (List Byte))
  | [] => pure []
  | op :: ops => do let w ← op.string; let l ← stringAll ops; pure (w :: l)

theorem sim_all (ops : List RdOp) : Sim Rel (fileAll ops) (stringAll ops) (fun _ s t => Rel s t) := by
  induction ops with
  | nil => exact Sim.pure fun _ _ r => r
  | cons op ops ih => exact Sim.bind (sim_op op) fun _ => Sim.bind ih fun _ => Sim.pure fun _ _ r => r

/-- `ifstream (fd)` on a file. The buffer is 4095 bytes. -/
def IFS.ofFile (f : File) (size : Nat := 4095) (fill : Byte := 0) : IFS := { buf := List.replicate size fill, file := f }

/-- A new stream and a string stream on the contents of the file. -/
theorem ofFile_rel (text after : List Byte) (sys : List Sys) (size : Nat) (fill : Byte) (hs : Gives sys) (hl : text.length < 2 ^ 32) :
    Rel (.ofFile { src := text, sys := sys } size fill) (.mk' text after) :=
  ⟨⟨Nat.le_refl _, Nat.zero_le _, rfl, rfl, hs, rfl, Or.inl rfl⟩, ⟨Nat.zero_le _, hl, rfl, rfl⟩, by simp [IFS.ahead, IFS.unread, IFS.ofFile, TIS.unread, TIS.mk'], rfl, rfl, rfl⟩

/-- **C59**: reading characters, words, lines and parts of lines from a file gives the same as reading them from a string with
all of the file's contents, for every size of the buffer and however the system hands out the data, in pieces and with
interruptions; also the state of the stream and `gcount()` are the same after it. It reads nothing outside its buffer, and if it
has not returned, it waits for the system. -/
theorem ifstream_as_string_partial (ops : List RdOp) (text after : List Byte) (sys : List Sys) (size : Nat) (fill : Byte) (hs : Gives sys) (hl : text.length < 2 ^ 32)
    (l : List (List Byte)) (t' : TIS) (ht : stringAll ops (.mk' text after) = .ret l t') :
    (fileAll ops (.ofFile { src := text, sys := sys } size fill)).Is
      (fun l' s' => l' = l ∧ s'.ahead = t'.unread ∧ s'.ios.state = t'.is.ios.state ∧ s'.gcount = t'.gcount) (fun _ => False) (fun s' => s'.file.sys = []) := by
  have := sim_all ops _ _ (ofFile_rel text after sys size fill hs hl)
  cases e : fileAll ops (.ofFile { src := text, sys := sys } size fill) with
  | ret l1 s1 =>
    rw [e] at this
    obtain ⟨t1, e1, r⟩ := this
    rw [ht] at e1
    injection e1 with e1 e2
    subst e1 e2
    exact ⟨rfl, r.text.symm, r.st.symm, r.gc.symm⟩
  | exn s1 => rw [e] at this; exact this.elim
  | oob =>
    rw [e] at this
    have this' : stringAll ops (.mk' text after) = .oob := this
    rw [ht] at this'
    cases this'
  | run s1 => rw [e] at this; exact this

end Ustl.File
