import Verif.File.Model
/-! # fstream: transfers (C44), for every behaviour of the system -/
namespace Ustl.File
open Ustl.Stream

theorem P.bind_ret {σ α β : Type} {m : P σ α} {f : α → P σ β} {s s' : σ} {a : α} (h : m s = .ret a s') : (m >>= f) s = f a s' := by
  show (match m s with | .ret a s' => f a s' | .exn s' => .exn s' | .oob => .oob | .run s' => .run s') = _
  rw [h]

theorem P.bind_exn {σ α β : Type} {m : P σ α} {f : α → P σ β} {s s' : σ} (h : m s = .exn s') : (m >>= f) s = .exn s' := by
  show (match m s with | .ret a s' => f a s' | .exn s' => .exn s' | .oob => .oob | .run s' => .run s') = _
  rw [h]

theorem P.bind_run {σ α β : Type} {m : P σ α} {f : α → P σ β} {s s' : σ} (h : m s = .run s') : (m >>= f) s = .run s' := by
  show (match m s with | .ret a s' => f a s' | .exn s' => .exn s' | .oob => .oob | .run s' => .run s') = _
  rw [h]

theorem modify_bind {σ β : Type} (g : σ → σ) (f : Unit → P σ β) (s : σ) : (modify g >>= f) s = f () (g s) := rfl

theorem look_bind {σ α β : Type} (g : σ → α) (f : α → P σ β) (s : σ) : (look g >>= f) s = f (g s) s := rfl

theorem pure_bind' {σ α β : Type} (a : α) (f : α → P σ β) (s : σ) : ((pure a : P σ α) >>= f) s = f a s := rfl

/-- What must hold of an outcome: `R` of a return, `E` of a throw, `U` of one that is still running; no access outside. -/
def Res.Is {σ α : Type} (R : α → σ → Prop) (E U : σ → Prop) : Res σ α → Prop
  | .ret a s => R a s
  | .exn s => E s
  | .oob => False
  | .run s => U s

theorem Res.Is.mono {σ α : Type} {R R' : α → σ → Prop} {E E' U U' : σ → Prop} {r : Res σ α} (h : r.Is R E U)
    (hR : ∀ a s, R a s → R' a s) (hE : ∀ s, E s → E' s) (hU : ∀ s, U s → U' s) : r.Is R' E' U' := by
  cases r with
  | ret a s => exact hR a s h
  | exn s => exact hE s h
  | oob => exact h
  | run s => exact hU s h

theorem Res.Is.bind {σ α β : Type} {m : P σ α} {f : α → P σ β} {s : σ} {R : α → σ → Prop} {R' : β → σ → Prop} {E U : σ → Prop}
    (h : (m s).Is R E U) (hf : ∀ a s', R a s' → (f a s').Is R' E U) : ((m >>= f) s).Is R' E U := by
  cases e : m s with
  | ret a s' => rw [e] at h; rw [P.bind_ret e]; exact hf a s' h
  | exn s' => rw [e] at h; rw [P.bind_exn e]; exact h
  | oob => rw [e] at h; exact h.elim
  | run s' => rw [e] at h; rw [P.bind_run e]; exact h

theorem Res.Is.ret {σ α : Type} {R : α → σ → Prop} {E U : σ → Prop} {a : α} {s : σ} (h : R a s) : (Res.ret a s).Is R E U := h

theorem Res.Is.pure {σ α : Type} {R : α → σ → Prop} {E U : σ → Prop} {a : α} {s : σ} (h : R a s) : ((Pure.pure a : P σ α) s).Is R E U := h

/-- The parts of the file that a transfer does not touch. -/
structure Kept (f f' : File) : Prop where
  exc : f'.ios.exc = f.ios.exc
  fd : f'.fd = f.fd
  name : f'.name = f.name
  closed : f'.closed = f.closed

theorem Kept.refl (f : File) : Kept f f := ⟨rfl, rfl, rfl, rfl⟩

theorem Kept.trans {f g h : File} (a : Kept f g) (b : Kept g h) : Kept f h :=
  ⟨b.exc.trans a.exc, b.fd.trans a.fd, b.name.trans a.name, b.closed.trans a.closed⟩

theorem raise_is (v : Nat) (f : File) : (raise v f).Is
    (fun _ f' => f' = { f with ios := { f.ios with state := f.ios.state ||| v } } ∧ f.ios.exc &&& v = 0)
    (fun f' => f' = { f with ios := { f.ios with state := f.ios.state ||| v } } ∧ f.ios.exc &&& v ≠ 0) (fun _ => False) := by
  unfold raise
  split
  · rename_i h; exact ⟨rfl, h⟩
  · rename_i h; exact ⟨rfl, by simpa using h⟩

theorem fail_or4 (s e : Nat) : (⟨s ||| 4, e⟩ : Ios).fail = true := by
  simp only [Ios.fail, decide_eq_true_eq]
  intro h
  have := congrArg (fun n => n.testBit 2) h
  simp [Nat.testBit_and, Nat.testBit_or] at this
  exact absurd (this (Or.inr (by decide))) (by decide)

theorem fail_or6 (s e : Nat) : (⟨s ||| 6, e⟩ : Ios).fail = true := by
  simp only [Ios.fail, decide_eq_true_eq]
  intro h
  have := congrArg (fun n => n.testBit 2) h
  simp [Nat.testBit_and, Nat.testBit_or] at this
  exact absurd (this (Or.inr (by decide))) (by decide)

/-- A `write` of `d` that wrote the first `k` bytes of it. -/
structure Wrote (f f' : File) (d : List Byte) (k : Nat) : Prop where
  le : k ≤ d.length
  out : f'.out = f.out ++ d.take k
  src : f'.src = f.src
  mem : f'.mem = f.mem
  kept : Kept f f'

theorem writeLoop_is (as : List Sys) : ∀ (d : List Byte) (f : File), (writeLoop as d f).Is
    (fun l f' => ∃ used k, as = used ++ f'.sys ∧ l = d.drop k ∧ Wrote f f' d k ∧
      (k < d.length → (f'.ios.fail = true ∧ ∃ a, used.getLast? = some a ∧ (a = .err ∨ a = .did 0)) ∨ (used.getLast? = some .eagain ∧ f'.ios = f.ios)) ∧ (k = d.length → f'.ios = f.ios))
    (fun f' => ∃ k, Wrote f f' d k ∧ k < d.length ∧ f'.ios.fail = true ∧ f.ios.exc &&& 6 ≠ 0)
    (fun f' => ∃ k, Wrote f f' d k ∧ k < d.length ∧ f'.ios = f.ios ∧ f'.sys = [] ∧ (as.filter (· ≠ .eintr)).length ≤ k) := by
  induction as with
  | nil =>
    intro d f
    unfold writeLoop
    split
    · rename_i h; subst h
      exact ⟨[], 0, rfl, rfl, ⟨by simp, by simp, rfl, rfl, ⟨rfl, rfl, rfl, rfl⟩⟩, by simp, fun _ => rfl⟩
    · rename_i h
      exact ⟨0, ⟨by simp, by simp, rfl, rfl, ⟨rfl, rfl, rfl, rfl⟩⟩, List.length_pos_iff.2 h, rfl, rfl, by simp⟩
  | cons a as ih =>
    intro d f
    unfold writeLoop
    split
    · rename_i h; subst h
      exact ⟨[], 0, rfl, rfl, ⟨by simp, by simp, rfl, rfl, ⟨rfl, rfl, rfl, rfl⟩⟩, by simp, fun _ => rfl⟩
    · rename_i h
      have hpos : 0 < d.length := List.length_pos_iff.2 h
      have stay : ∀ v, (v = 4 ∨ v = 6) → (a = .err ∨ a = .did 0) → ((do raise v; pure d : P File (List Byte)) { f with sys := as }).Is
          (fun l f' => ∃ used k, a :: as = used ++ f'.sys ∧ l = d.drop k ∧ Wrote f f' d k ∧
            (k < d.length → (f'.ios.fail = true ∧ ∃ a, used.getLast? = some a ∧ (a = .err ∨ a = .did 0)) ∨ (used.getLast? = some .eagain ∧ f'.ios = f.ios)) ∧ (k = d.length → f'.ios = f.ios))
          (fun f' => ∃ k, Wrote f f' d k ∧ k < d.length ∧ f'.ios.fail = true ∧ f.ios.exc &&& 6 ≠ 0)
          (fun f' => ∃ k, Wrote f f' d k ∧ k < d.length ∧ f'.ios = f.ios ∧ f'.sys = [] ∧ ((a :: as).filter (· ≠ .eintr)).length ≤ k) := by
        intro v hv ha
        have hfail : ∀ s e, (⟨s ||| v, e⟩ : Ios).fail = true := by
          rcases hv with rfl | rfl
          · exact fail_or4
          · exact fail_or6
        refine Res.Is.bind ((raise_is v _).mono (fun _ _ h => h) ?_ (fun _ h => h.elim)) ?_
        · rintro f' ⟨rfl, hx⟩
          refine ⟨0, ⟨by simp, by simp, rfl, rfl, ⟨rfl, rfl, rfl, rfl⟩⟩, hpos, hfail _ _, ?_⟩
          rcases hv with rfl | rfl
          · intro h6; apply hx
            have : f.ios.exc &&& 4 = (f.ios.exc &&& 6) &&& 4 := by rw [Nat.and_assoc]; rfl
            show f.ios.exc &&& 4 = 0
            rw [this, h6]; rfl
          · exact hx
        · rintro _ f' ⟨rfl, _⟩
          refine ⟨[a], 0, rfl, rfl, ⟨by simp, by simp, rfl, rfl, ⟨rfl, rfl, rfl, rfl⟩⟩, fun _ => Or.inl ⟨hfail _ _, a, rfl, ha⟩, fun e => by omega⟩
      cases a with
      | did k =>
        simp only
        split
        · rename_i hk
          have hj : min k d.length ≤ d.length := Nat.min_le_right _ _
          revert hk hj
          generalize min k d.length = j
          intro hk hj
          have tk : ∀ i, f.out ++ d.take j ++ (d.drop j).take i = f.out ++ d.take (j + i) := by
            intro i; rw [List.append_assoc, List.take_add]
          refine (ih (d.drop j) { f with out := f.out ++ d.take j }).mono ?_ ?_ ?_
          · rintro l f' ⟨used, i, h1, h2, h3, h4, h5⟩
            have h3l := h3.le
            simp at h3l h4 h5
            refine ⟨.did k :: used, j + i, by rw [h1]; rfl, by rw [h2, List.drop_drop], ⟨by omega, by rw [h3.out, tk], h3.src, h3.mem, h3.kept.exc, h3.kept.fd, h3.kept.name, h3.kept.closed⟩, ?_, ?_⟩
            · intro hlt
              rcases h4 (by omega) with ⟨h, b, hb, hb'⟩ | ⟨h, h'⟩
              · refine Or.inl ⟨h, b, ?_, hb'⟩
                cases used with
                | nil => simp at hb
                | cons b bs => rw [List.getLast?_cons_cons]; exact hb
              · refine Or.inr ⟨?_, h'⟩
                cases used with
                | nil => simp at h
                | cons b bs => rw [List.getLast?_cons_cons]; exact h
            · intro heq; exact h5 (by omega)
          · rintro f' ⟨i, h3, h4, h5, h6⟩
            have h3l := h3.le
            simp at h3l h4
            exact ⟨j + i, ⟨by omega, by rw [h3.out, tk], h3.src, h3.mem, h3.kept.exc, h3.kept.fd, h3.kept.name, h3.kept.closed⟩, by omega, h5, h6⟩
          · rintro f' ⟨i, h3, h4, h5, h6, h7⟩
            have h3l := h3.le
            simp at h3l h4
            refine ⟨j + i, ⟨by omega, by rw [h3.out, tk], h3.src, h3.mem, h3.kept.exc, h3.kept.fd, h3.kept.name, h3.kept.closed⟩, by omega, h5, h6, ?_⟩
            rw [List.filter_cons_of_pos (by simp), List.length_cons]
            omega
        · exact stay 6 (Or.inr rfl) (Or.inr (by congr 1; omega))
      | eintr =>
        refine (ih d f).mono ?_ ?_ ?_
        · rintro l f' ⟨used, i, h1, h2, h3, h4, h5⟩
          refine ⟨.eintr :: used, i, by rw [h1]; rfl, h2, h3, ?_, h5⟩
          intro hlt
          rcases h4 hlt with ⟨h, b, hb, hb'⟩ | ⟨h, h'⟩
          · refine Or.inl ⟨h, b, ?_, hb'⟩
            cases used with
            | nil => simp at hb
            | cons b bs => rw [List.getLast?_cons_cons]; exact hb
          · refine Or.inr ⟨?_, h'⟩
            cases used with
            | nil => simp at h
            | cons b bs => rw [List.getLast?_cons_cons]; exact h
        · exact fun _ h => h
        · rintro f' ⟨i, h3, h4, h5, h6, h7⟩
          exact ⟨i, h3, h4, h5, h6, by rw [List.filter_cons_of_neg (by simp)]; exact h7⟩
      | eagain =>
        exact ⟨[.eagain], 0, rfl, rfl, ⟨by simp, by simp, rfl, rfl, ⟨rfl, rfl, rfl, rfl⟩⟩, fun _ => Or.inr ⟨rfl, rfl⟩, fun _ => rfl⟩
      | err => exact stay 4 (Or.inl rfl) (Or.inl rfl)

/-- **C44**: `fstream::write`, whatever the system answers. If it returns `k`, the first `k` bytes were written, in order and
once, and nothing else; if that is not all, either `fail()` is set, because the last answer was an error or 0 bytes, or the
last answer was `EAGAIN`. If it throws, `fail()` is set, the
user asked for exceptions, and what was written is the beginning of the data. If it has not returned, it has used all
answers, and every one of them except `EINTR` transferred something. -/
theorem write_spec (d : List Byte) (f : File) : (write d f).Is
    (fun k f' => ∃ used, f.sys = used ++ f'.sys ∧ k ≤ d.length ∧ f'.out = f.out ++ d.take k ∧
      (k < d.length → (f'.ios.fail = true ∧ ∃ a, used.getLast? = some a ∧ (a = .err ∨ a = .did 0)) ∨ used.getLast? = some .eagain) ∧
      (k = d.length → f'.ios = f.ios))
    (fun f' => f'.ios.fail = true ∧ f.ios.exc &&& 6 ≠ 0 ∧ ∃ k < d.length, f'.out = f.out ++ d.take k)
    (fun f' => f'.sys = [] ∧ ∃ k < d.length, f'.out = f.out ++ d.take k ∧ (f.sys.filter (· ≠ .eintr)).length ≤ k) := by
  unfold write
  refine Res.Is.bind ((writeLoop_is f.sys d f).mono (fun _ _ h => h) ?_ ?_) ?_
  · rintro f' ⟨k, w, h1, h2, h3⟩; exact ⟨h2, h3, k, h1, w.out⟩
  · rintro f' ⟨k, w, h1, h2, h3, h4⟩; exact ⟨h3, k, h1, w.out, h4⟩
  · rintro l f' ⟨used, k, h1, rfl, w, h2, h3⟩
    have hk : d.length - (d.drop k).length = k := by have := w.le; simp; omega
    show ∃ used, _
    rw [hk]
    refine ⟨used, h1, w.le, w.out, fun hlt => ?_, h3⟩
    rcases h2 hlt with h | h
    · exact Or.inl h
    · exact Or.inr h.1

example : write [1, 2, 3, 4, 5] { sys := [.did 2, .eintr, .did 1, .did 7, .err] } = .ret 5 { sys := [.err], out := [1, 2, 3, 4, 5] } := by decide

/-- **C44**: with as many answers other than `EINTR` as there are bytes, `write` is done. -/
theorem write_ends (d : List Byte) (f : File) (h : d.length ≤ (f.sys.filter (· ≠ .eintr)).length) : ∀ f', write d f ≠ .run f' := by
  intro f' e
  have := write_spec d f
  rw [e] at this
  obtain ⟨_, k, h1, _, h2⟩ := this
  omega

example : ∀ f', write [1, 2, 3] { sys := [.did 1, .eintr, .did 1, .did 1] } ≠ .run f' := write_ends _ _ (by decide)

/-- The number of answers that are neither `EINTR` nor `EAGAIN`. -/
def answers (l : List Sys) : Nat := (l.filter (fun a => a ≠ .eintr ∧ a ≠ .eagain)).length

theorem answers_append (a b : List Sys) : answers (a ++ b) = answers a + answers b := by simp [answers]

theorem answers_le (l : List Sys) : answers l ≤ l.length := List.length_filter_le _ _

/-- Why `readsome` came back with nothing. -/
inductive Nothing (n : Nat) (f f' : File) (last : Option Sys) : Prop
  /-- the end of the file, if the system is to be believed -/
  | eof (k : Nat) (h : last = some (.did k)) (z : k = 0 ∨ n = 0 ∨ f.src = []) (s : f'.ios = ⟨f.ios.state ||| 6, f.ios.exc⟩)
  /-- an error -/
  | err (h : last = some .err) (s : f'.ios = ⟨f.ios.state ||| 4, f.ios.exc⟩)
  /-- try again later -/
  | again (h : last = some .eagain) (s : f'.ios = f.ios)

theorem Nothing.cons {n : Nat} {f f' : File} {used : List Sys} (h : Nothing n f f' used.getLast?) (a : Sys) :
    Nothing n f f' (a :: used).getLast? := by
  have : (a :: used).getLast? = used.getLast? := by
    cases used with
    | nil => rcases h with ⟨_, h, _⟩ | ⟨h, _⟩ | ⟨h, _⟩ <;> simp at h
    | cons b bs => rw [List.getLast?_cons_cons]
  rw [this]; exact h

theorem readsomeLoop_is (n : Nat) (as : List Sys) : ∀ f : File, (readsomeLoop n as f).Is
    (fun d f' => ∃ used, as = used ++ f'.sys ∧ used ≠ [] ∧ answers used ≤ 1 ∧ f.src = d ++ f'.src ∧ d.length ≤ n ∧ f'.out = f.out ∧ f'.mem = f.mem ∧ Kept f f' ∧
      ((d ≠ [] ∧ f'.ios = f.ios ∧ ∃ a, used.getLast? = some a ∧ a ≠ .eintr ∧ a ≠ .eagain) ∨ (d = [] ∧ Nothing n f f' used.getLast? ∧ (used.getLast? = some .eagain → answers used = 0))))
    (fun f' => f'.src = f.src ∧ f'.out = f.out ∧ f'.mem = f.mem ∧ f'.ios.fail = true ∧ f.ios.exc &&& 6 ≠ 0 ∧ Kept f f')
    (fun f' => f'.sys = [] ∧ f'.src = f.src ∧ f'.out = f.out ∧ f'.mem = f.mem ∧ f'.ios = f.ios ∧ Kept f f' ∧ ∀ a ∈ as, a = .eintr) := by
  induction as with
  | nil => intro f; exact ⟨rfl, rfl, rfl, rfl, rfl, ⟨rfl, rfl, rfl, rfl⟩, by simp⟩
  | cons a as ih =>
    intro f
    unfold readsomeLoop
    cases a with
    | did k =>
      simp only
      split
      · rename_i hk
        refine ⟨[.did k], rfl, by simp, answers_le _, (List.take_append_drop _ _).symm, by rw [List.length_take]; omega, rfl, rfl, ⟨rfl, rfl, rfl, rfl⟩, Or.inl ⟨?_, rfl, _, rfl, by simp, by simp⟩⟩
        apply List.ne_nil_of_length_pos
        rw [List.length_take]
        omega
      · rename_i hk
        refine Res.Is.bind ((raise_is 6 _).mono (fun _ _ h => h) ?_ (fun _ h => h.elim)) ?_
        · rintro f' ⟨rfl, hx⟩
          exact ⟨rfl, rfl, rfl, fail_or6 _ _, hx, ⟨rfl, rfl, rfl, rfl⟩⟩
        · rintro _ f' ⟨rfl, _⟩
          refine ⟨[.did k], rfl, by simp, answers_le _, rfl, by simp, rfl, rfl, ⟨rfl, rfl, rfl, rfl⟩, Or.inr ⟨rfl, .eof k rfl ?_ rfl, by simp⟩⟩
          rw [← List.length_eq_zero_iff]
          omega
    | eintr =>
      refine (ih f).mono ?_ (fun _ h => h) ?_
      · rintro d f' ⟨used, h1, h2, h2a, h3, h4, h5, h6, h7, h8⟩
        refine ⟨.eintr :: used, by rw [h1]; rfl, by simp, by simpa [answers] using h2a, h3, h4, h5, h6, h7, ?_⟩
        rcases h8 with ⟨h, h', b, hb⟩ | ⟨h, h', h9⟩
        · refine Or.inl ⟨h, h', b, ?_, hb.2⟩
          cases used with
          | nil => simp at h2
          | cons x xs => rw [List.getLast?_cons_cons]; exact hb.1
        · refine Or.inr ⟨h, h'.cons _, fun hl => ?_⟩
          cases used with
          | nil => simp at h2
          | cons x xs => rw [List.getLast?_cons_cons] at hl; simpa [answers] using h9 hl
      · rintro f' ⟨h1, h2, h3, h4, h5, h6, h7⟩
        exact ⟨h1, h2, h3, h4, h5, h6, by intro a ha; simp at ha; rcases ha with rfl | ha; rfl; exact h7 a ha⟩
    | eagain =>
      exact ⟨[.eagain], rfl, by simp, answers_le _, rfl, by simp, rfl, rfl, ⟨rfl, rfl, rfl, rfl⟩, Or.inr ⟨rfl, .again rfl rfl, fun _ => rfl⟩⟩
    | err =>
      refine Res.Is.bind ((raise_is 4 _).mono (fun _ _ h => h) ?_ (fun _ h => h.elim)) ?_
      · rintro f' ⟨rfl, hx⟩
        refine ⟨rfl, rfl, rfl, fail_or4 _ _, ?_, ⟨rfl, rfl, rfl, rfl⟩⟩
        intro h6; apply hx
        have : f.ios.exc &&& 4 = (f.ios.exc &&& 6) &&& 4 := by rw [Nat.and_assoc]; rfl
        show f.ios.exc &&& 4 = 0
        rw [this, h6]; rfl
      · rintro _ f' ⟨rfl, _⟩
        exact ⟨[.err], rfl, by simp, answers_le _, rfl, by simp, rfl, rfl, ⟨rfl, rfl, rfl, rfl⟩, Or.inr ⟨rfl, .err rfl rfl, by simp⟩⟩

theorem or_ne_zero {a b : Nat} (h : b ≠ 0) : a ||| b ≠ 0 := fun e => h (Nat.or_eq_zero_iff.1 e).2

theorem readLoop_stop {k n br : Nat} {f : File} (h : f.ios.state ≠ 0) : readLoop (k + 1) n br f = .ret br f := by
  unfold readLoop
  rw [if_neg (by simp [File.good, h])]

/-- What `read` has read so far. -/
structure Got (f f' : File) (d : List Byte) : Prop where
  mem : f'.mem = f.mem ++ d
  src : f.src = d ++ f'.src
  out : f'.out = f.out
  kept : Kept f f'

theorem Got.trans {f f1 f' : File} {d d' : List Byte} (a : Got f f1 d) (b : Got f1 f' d') : Got f f' (d ++ d') :=
  ⟨by rw [b.mem, a.mem, List.append_assoc], by rw [a.src, b.src, List.append_assoc], b.out.trans a.out, a.kept.trans b.kept⟩

/-- Why a short `read` returned. -/
def Stopped (f' : File) (last : Option Sys) : Prop :=
  (last = some .err ∧ f'.ios.eof = false) ∨ (f'.ios.eof = true ∧ (f'.src = [] ∨ last = some (.did 0)))

theorem readLoop_is (k : Nat) : ∀ (n br : Nat) (f : File), f.sys.length < k → br ≤ n → (readLoop k n br f).Is
    (fun r f' => ∃ d used, Got f f' d ∧ f.sys = used ++ f'.sys ∧ r = br + d.length ∧ r ≤ n ∧
      (r = n → f'.ios = f.ios) ∧ (f.ios.state = 0 → r < n → f'.ios.fail = true ∧ used ≠ [] ∧ Stopped f' used.getLast?))
    (fun f' => ∃ d, Got f f' d ∧ br + d.length < n ∧ f'.ios.fail = true ∧ f.ios.exc &&& 6 ≠ 0)
    (fun f' => ∃ d, Got f f' d ∧ br + d.length < n ∧ f'.ios = f.ios ∧ f'.sys = [] ∧ answers f.sys ≤ d.length) := by
  induction k with
  | zero => intro n br f h; omega
  | succ k ih =>
    intro n br f hk hbr
    unfold readLoop
    split
    · rename_i hc
      have hg : f.ios.state = 0 := by simpa [File.good] using hc.2
      have h1 : (readsome (n - br) f).Is _ _ _ := readsomeLoop_is (n - br) f.sys f
      cases e : readsome (n - br) f with
      | oob => rw [e] at h1; exact h1.elim
      | exn f1 =>
        rw [e] at h1
        obtain ⟨a1, a2, a3, a4, a5, a6⟩ := h1
        rw [P.bind_exn e]
        exact ⟨[], ⟨by rw [a3]; simp, by rw [a1]; rfl, a2, a6⟩, by simp; omega, a4, a5⟩
      | run f1 =>
        rw [e] at h1
        obtain ⟨a1, a2, a3, a4, a5, a6, a7⟩ := h1
        rw [P.bind_run e]
        refine ⟨[], ⟨by rw [a4]; simp, by rw [a2]; rfl, a3, a6⟩, by simp; omega, a5, a1, ?_⟩
        have : f.sys.filter (fun a => a ≠ .eintr ∧ a ≠ .eagain) = [] := by
          rw [List.filter_eq_nil_iff]; intro a ha; rw [a7 a ha]; simp
        show (f.sys.filter _).length ≤ 0
        rw [this]; simp
      | ret d f1 =>
        rw [e] at h1
        rw [P.bind_ret e]
        obtain ⟨used, u1, u2, u2a, u3, u4, u5, u6, u7, u8⟩ := h1
        have hlen : f1.sys.length < k := by
          have := congrArg List.length u1
          have := List.length_pos_iff.2 u2
          simp at *; omega
        have hgot : Got f { f1 with mem := f1.mem ++ d } d := ⟨by show f1.mem ++ d = _; rw [u6], u3, u5, ⟨u7.exc, u7.fd, u7.name, u7.closed⟩⟩
        show Res.Is _ _ _ (readLoop k n (br + d.length) { f1 with mem := f1.mem ++ d })
        have goOn : f1.ios = f.ios → (d = [] → answers used = 0) → Res.Is
            (fun r f' => ∃ d used, Got f f' d ∧ f.sys = used ++ f'.sys ∧ r = br + d.length ∧ r ≤ n ∧
              (r = n → f'.ios = f.ios) ∧ (f.ios.state = 0 → r < n → f'.ios.fail = true ∧ used ≠ [] ∧ Stopped f' used.getLast?))
            (fun f' => ∃ d, Got f f' d ∧ br + d.length < n ∧ f'.ios.fail = true ∧ f.ios.exc &&& 6 ≠ 0)
            (fun f' => ∃ d, Got f f' d ∧ br + d.length < n ∧ f'.ios = f.ios ∧ f'.sys = [] ∧ answers f.sys ≤ d.length)
            (readLoop k n (br + d.length) { f1 with mem := f1.mem ++ d }) := by
          intro hio hz
          have h2 := ih n (br + d.length) { f1 with mem := f1.mem ++ d } hlen (by omega)
          generalize readLoop k n (br + d.length) { f1 with mem := f1.mem ++ d } = res at h2
          refine h2.mono ?_ ?_ ?_
          · rintro r f' ⟨d', used', g, b1, b2, b3, b4, b5⟩
            have b1' : f1.sys = used' ++ f'.sys := b1
            refine ⟨d ++ d', used ++ used', hgot.trans g, by rw [u1, b1', List.append_assoc], by simp; omega, b3, fun h => (b4 h).trans hio, ?_⟩
            intro _ hr
            obtain ⟨c1, c3, c2⟩ := b5 (by show f1.ios.state = 0; rw [hio]; exact hg) hr
            refine ⟨c1, by simp [c3], ?_⟩
            rw [List.getLast?_append, List.getLast?_eq_some_getLast c3, Option.some_or, ← List.getLast?_eq_some_getLast c3]
            exact c2
          · rintro f' ⟨d', g, b1, b2, b3⟩
            exact ⟨d ++ d', hgot.trans g, by simp; omega, b2, by rw [← u7.exc]; exact b3⟩
          · rintro f' ⟨d', g, b1, b2, b3, b4⟩
            refine ⟨d ++ d', hgot.trans g, by simp; omega, b2.trans hio, b3, ?_⟩
            have b4' : answers f1.sys ≤ d'.length := b4
            rw [u1, answers_append, List.length_append]
            by_cases hd : d = []
            · rw [hz hd]; omega
            · have := List.length_pos_iff.2 hd; omega
        rcases u8 with ⟨hd, hio, _⟩ | ⟨hd, hn, hag⟩
        · exact goOn hio (fun h => absurd h hd)
        · subst hd
          have hpos : ∃ k', k = k' + 1 := ⟨k - 1, by omega⟩
          obtain ⟨k, rfl⟩ := hpos
          rcases hn with ⟨j, hl, hz, hs⟩ | ⟨hl, hs⟩ | ⟨hl, hs⟩
          · rw [readLoop_stop (by show f1.ios.state ≠ 0; rw [hs]; exact or_ne_zero (by decide))]
            refine ⟨[], used, hgot, u1, by simp, by simpa using hbr, fun h => by simp at h; omega, fun _ _ => ⟨?_, u2, Or.inr ⟨?_, ?_⟩⟩⟩
            · show f1.ios.fail = true; rw [hs]; exact fail_or6 _ _
            · show f1.ios.eof = true; rw [hs, hg]; simp [Ios.eof]
            · rcases hz with rfl | hz | hz
              · right; exact hl
              · omega
              · left
                have : f.src = f1.src := u3
                show f1.src = []
                rw [← this]; exact hz
          · rw [readLoop_stop (by show f1.ios.state ≠ 0; rw [hs]; exact or_ne_zero (by decide))]
            refine ⟨[], used, hgot, u1, by simp, by simpa using hbr, fun h => by simp at h; omega, fun _ _ => ⟨?_, u2, Or.inl ⟨hl, ?_⟩⟩⟩
            · show f1.ios.fail = true; rw [hs]; exact fail_or4 _ _
            · show f1.ios.eof = false; rw [hs, hg]; simp [Ios.eof]
          · exact goOn hs fun _ => hag hl
    · rename_i hc
      refine ⟨[], [], ⟨by simp, rfl, rfl, .refl f⟩, rfl, by simp, hbr, fun _ => rfl, ?_⟩
      intro h0 hlt; exact absurd ⟨hlt, by simpa [File.good] using h0⟩ hc

/-- **C44**: `fstream::read` on a good stream, whatever the system answers. If it returns `r`, then `r` bytes were taken from
the file and stored, the next ones in order; `r` is `n`, or `fail()` is set, and the last answer was an error, or `eof()`
is set as well and either there is nothing more to read or the system said so. If it throws, `fail()` is set and the user asked
for exceptions. If it has not returned, it used all answers, and every one of them except `EINTR` and `EAGAIN`
transferred something. In all cases what was stored is what was taken from the file. -/
theorem read_spec (n : Nat) (f : File) (hg : f.good = true) : (read n f).Is
    (fun r f' => r ≤ n ∧ f'.mem = f.mem ++ f.src.take r ∧ f'.src = f.src.drop r ∧ r ≤ f.src.length ∧ ∃ used, f.sys = used ++ f'.sys ∧
      (r = n → f'.ios = f.ios) ∧ (r < n → f'.ios.fail = true ∧
        ((used.getLast? = some .err ∧ f'.ios.eof = false) ∨ (f'.ios.eof = true ∧ (f'.src = [] ∨ used.getLast? = some (.did 0))))))
    (fun f' => f'.ios.fail = true ∧ f.ios.exc &&& 6 ≠ 0 ∧ ∃ r < n, r ≤ f.src.length ∧ f'.mem = f.mem ++ f.src.take r ∧ f'.src = f.src.drop r)
    (fun f' => f'.sys = [] ∧ ∃ r < n, r ≤ f.src.length ∧ f'.mem = f.mem ++ f.src.take r ∧ f'.src = f.src.drop r ∧ answers f.sys ≤ r) := by
  have tk : ∀ {f' : File} {d : List Byte}, Got f f' d → d = f.src.take d.length ∧ f'.src = f.src.drop d.length ∧ d.length ≤ f.src.length := by
    intro f' d g
    rw [g.src]
    simp
  refine (readLoop_is (f.sys.length + 1) n 0 f (by omega) (Nat.zero_le _)).mono ?_ ?_ ?_
  · rintro r f' ⟨d, used, g, h1, h2, h3, h4, h5⟩
    obtain ⟨t1, t2, t3⟩ := tk g
    have h2' : r = d.length := by omega
    subst h2'
    exact ⟨h3, by rw [← t1]; exact g.mem, t2, t3, used, h1, h4, fun hr => ⟨(h5 (by simpa [File.good] using hg) hr).1, (h5 (by simpa [File.good] using hg) hr).2.2⟩⟩
  · rintro f' ⟨d, g, h1, h2, h3⟩
    obtain ⟨t1, t2, t3⟩ := tk g
    exact ⟨h2, h3, d.length, by omega, t3, by rw [← t1]; exact g.mem, t2⟩
  · rintro f' ⟨d, g, h1, h2, h3, h4⟩
    obtain ⟨t1, t2, t3⟩ := tk g
    exact ⟨h3, d.length, by omega, t3, by rw [← t1]; exact g.mem, t2, h4⟩

example : read 4 { sys := [.did 2, .eintr, .eagain, .did 9, .err], src := [1, 2, 3, 4, 5] } =
    .ret 4 { sys := [.err], src := [5], mem := [1, 2, 3, 4] } := by decide

example : read 4 { sys := [.did 2, .did 9, .did 9, .err], src := [1, 2, 3] } =
    .ret 3 { sys := [.err], src := [], mem := [1, 2, 3], ios := { state := 6, exc := 0 } } := by decide

/-- **C44**: with as many answers other than `EINTR` and `EAGAIN` as there are bytes to read, `read` is done. -/
theorem read_ends (n : Nat) (f : File) (hg : f.good = true) (h : n ≤ answers f.sys) : ∀ f', read n f ≠ .run f' := by
  intro f' e
  have := read_spec n f hg
  rw [e] at this
  obtain ⟨_, r, h1, _, _, _, h2⟩ := this
  omega

example : ∀ f', read 2 { sys := [.did 1, .eintr, .did 1] } ≠ .run f' := read_ends _ _ (by decide) (by decide)

/-- **C44** is false for `readsome (p, 0)`: it reports the end of the file although there is more. -/
theorem readsome_violated : ∃ f f' : File, f.good = true ∧ f.src ≠ [] ∧ readsome 0 f = .ret [] f' ∧ f'.ios.eof = true :=
  ⟨{ sys := [.did 0], src := [1] }, _, rfl, by simp, rfl, rfl⟩

end Ustl.File
