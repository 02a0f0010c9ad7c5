import Verif.File.SavedModel
import Verif.File.Props
/-! # Whole files: theorems for C66 -/
namespace Ustl.File
open Ustl.Stream

/-- The parts of the file that closing does not touch. -/
structure Still (f f' : File) : Prop where
  out : f'.out = f.out
  src : f'.src = f.src
  mem : f'.mem = f.mem

theorem Still.refl (f : File) : Still f f := ⟨rfl, rfl, rfl⟩

theorem Still.trans {f g h : File} (a : Still f g) (b : Still g h) : Still f h :=
  ⟨b.out.trans a.out, b.src.trans a.src, b.mem.trans a.mem⟩

/-- How often the system was interrupted. -/
def ints (l : List Sys) : Nat := l.count .eintr

theorem ints_append (a b : List Sys) : ints (a ++ b) = ints a + ints b := List.count_append

/-- With the answers `as`, the descriptor was given to `::close` once, and at most once more for each interruption. -/
def Shut (as : List Sys) (f f' : File) : Prop :=
  ∃ j, f'.closed = f.closed ++ List.replicate (j + 1) f.fd ∧ j + ints f'.sys ≤ ints as

theorem closeLoop_any (as : List Sys) : ∀ f : File, (closeLoop as f).Is
    (fun _ f' => Still f f' ∧ f'.fd = f.fd ∧ f'.ios.exc = f.ios.exc ∧ Shut as f f')
    (fun f' => Still f f' ∧ f'.fd = f.fd ∧ Shut as f f' ∧ f.ios.exc ≠ 0)
    (fun f' => Still f f' ∧ f'.sys = []) := by
  induction as with
  | nil => intro f; exact ⟨⟨rfl, rfl, rfl⟩, rfl⟩
  | cons a as ih =>
    intro f
    have bad : a ≠ .eintr → (raise 5 { f with sys := as, closed := f.closed ++ [f.fd] }).Is
        (fun _ f' => Still f f' ∧ f'.fd = f.fd ∧ f'.ios.exc = f.ios.exc ∧ Shut (a :: as) f f')
        (fun f' => Still f f' ∧ f'.fd = f.fd ∧ Shut (a :: as) f f' ∧ f.ios.exc ≠ 0)
        (fun f' => Still f f' ∧ f'.sys = []) := by
      intro ha
      have hc : ints [a] = 0 := by simp [ints, ha]
      refine (raise_is 5 _).mono ?_ ?_ (fun _ h => h.elim)
      · rintro _ f' ⟨rfl, _⟩
        exact ⟨⟨rfl, rfl, rfl⟩, rfl, rfl, 0, rfl, by show 0 + ints as ≤ ints ([a] ++ as); rw [ints_append]; omega⟩
      · rintro f' ⟨rfl, h⟩
        refine ⟨⟨rfl, rfl, rfl⟩, rfl, ⟨0, rfl, by show 0 + ints as ≤ ints ([a] ++ as); rw [ints_append]; omega⟩, fun e => h ?_⟩
        show f.ios.exc &&& 5 = 0
        rw [e]; exact Nat.zero_and 5
    have again : a = .eintr → ∀ f', Shut as { f with closed := f.closed ++ [f.fd] } f' → Shut (a :: as) f f' := by
      rintro rfl f' ⟨j, h1, h2⟩
      refine ⟨j + 1, ?_, ?_⟩
      · rw [h1]
        show f.closed ++ [f.fd] ++ List.replicate (j + 1) f.fd = _
        rw [List.append_assoc, List.replicate_succ (n := j + 1)]
        rfl
      · have : ints (.eintr :: as) = ints as + 1 := by simp [ints]
        omega
    unfold closeLoop
    cases a with
    | did k => exact ⟨⟨rfl, rfl, rfl⟩, rfl, rfl, 0, rfl, by show 0 + ints as ≤ ints ([.did k] ++ as); rw [ints_append]; omega⟩
    | eagain => exact bad (by simp)
    | err => exact bad (by simp)
    | eintr =>
      refine (ih { f with closed := f.closed ++ [f.fd] }).mono ?_ ?_ ?_
      · rintro _ f' ⟨h1, h2, h4, h3⟩; exact ⟨⟨h1.1, h1.2, h1.3⟩, h2, h4, again rfl f' h3⟩
      · rintro f' ⟨h1, h2, h3, h4⟩; exact ⟨⟨h1.1, h1.2, h1.3⟩, h2, again rfl f' h3, h4⟩
      · rintro f' ⟨h1, h2⟩; exact ⟨⟨h1.1, h1.2, h1.3⟩, h2⟩

/-- `close`, whatever the system answers. -/
theorem close_any (f : File) : (close f).Is
    (fun _ f' => Still f f' ∧ f'.fd < 0 ∧ f'.ios.exc = f.ios.exc ∧ if f.fd < 0 then f'.closed = f.closed ∧ f'.sys = f.sys else Shut f.sys f f')
    (fun f' => Still f f' ∧ f'.fd = f.fd ∧ 0 ≤ f.fd ∧ Shut f.sys f f' ∧ f.ios.exc ≠ 0)
    (fun f' => Still f f' ∧ f'.sys = []) := by
  unfold close
  split
  · rename_i h
    exact ⟨.refl f, h, rfl, ⟨rfl, rfl⟩⟩
  · rename_i h
    refine Res.Is.bind ((closeLoop_any f.sys f).mono (fun _ _ h => h) ?_ (fun _ h => h)) ?_
    · rintro f' ⟨h1, h2, h3, h4⟩; exact ⟨h1, h2, by omega, h3, h4⟩
    · rintro _ f' ⟨h1, h2, h4, h3⟩
      refine ⟨⟨h1.1, h1.2, h1.3⟩, by show (-1 : Int) < 0; decide, h4, ?_⟩
      exact h3

/-- The destructor, whatever the system answers: it does not throw. -/
theorem destroy_any (f : File) : (destroy f).Is
    (fun _ f' => Still f f' ∧ f'.fd < 0 ∧ if f.fd < 0 then f'.closed = f.closed ∧ f'.sys = f.sys else Shut f.sys f f')
    (fun _ => False) (fun f' => Still f f' ∧ f'.sys = []) := by
  unfold destroy
  rw [modify_bind]
  refine (close_any _).mono ?_ ?_ ?_
  · rintro _ f' ⟨h1, h2, _, h3⟩; exact ⟨⟨h1.1, h1.2, h1.3⟩, h2, h3⟩
  · rintro f' ⟨_, _, _, _, h⟩; exact absurd rfl h
  · rintro f' ⟨h1, h2⟩; exact ⟨⟨h1.1, h1.2, h1.3⟩, h2⟩

/-- `attach` on a stream without a file. -/
theorem attach_fresh (nfd : Int) (name : List Byte) (f : File) (hf : f.fd < 0) (hx : f.ios.exc = 7) : (attach nfd name f).Is
    (fun _ f' => Still f f' ∧ f'.fd = nfd ∧ 0 ≤ nfd ∧ f'.ios = ⟨0, 7⟩ ∧ f'.closed = f.closed ∧ f'.sys = f.sys)
    (fun f' => Still f f' ∧ f'.fd < 0 ∧ nfd < 0 ∧ f'.closed = f.closed ∧ f'.sys = f.sys)
    (fun _ => False) := by
  unfold attach
  rw [modify_bind]
  unfold checkFd
  split
  · rename_i h
    have : raise 1 { f with name := name, ios := { f.ios with state := 0 } } =
        .exn { f with name := name, ios := { f.ios with state := 0 ||| 1 } } := by
      unfold raise
      rw [if_pos (by show f.ios.exc &&& 1 ≠ 0; rw [hx]; decide)]
    rw [P.bind_exn this]
    exact ⟨⟨rfl, rfl, rfl⟩, hf, h, rfl, rfl⟩
  · rename_i h
    rw [pure_bind']
    have : close { f with name := name, ios := { f.ios with state := 0 } } = .ret () { f with name := name, ios := { f.ios with state := 0 } } := by
      unfold close
      rw [if_pos hf]
    rw [P.bind_ret this]
    exact ⟨⟨rfl, rfl, rfl⟩, rfl, by omega, by show (⟨0, f.ios.exc⟩ : Ios) = _; rw [hx], rfl, rfl⟩

/-- With exceptions on, a `write` that returns left the state alone. -/
theorem writeLoop_ret7 (as : List Sys) : ∀ (d l : List Byte) (f f' : File), f.ios.exc = 7 → writeLoop as d f = .ret l f' → f'.ios = f.ios := by
  induction as with
  | nil =>
    intro d l f f' hx h
    unfold writeLoop at h
    split at h
    · cases h; rfl
    · cases h
  | cons a as ih =>
    intro d l f f' hx h
    have bad : ∀ v, v = 6 ∨ v = 4 → (do raise v; pure d : P File (List Byte)) { f with sys := as } = .ret l f' → f'.ios = f.ios := by
      intro v hv h
      have : raise v { f with sys := as } = .exn { f with sys := as, ios := { f.ios with state := f.ios.state ||| v } } := by
        unfold raise
        rw [if_pos (by show f.ios.exc &&& v ≠ 0; rw [hx]; rcases hv with rfl | rfl <;> decide)]
      rw [P.bind_exn this] at h
      cases h
    unfold writeLoop at h
    split at h
    · cases h; rfl
    · cases a with
      | did k =>
        simp only at h
        split at h
        · exact (ih _ _ { f with out := f.out ++ d.take (min k d.length) } _ hx h)
        · exact bad 6 (.inl rfl) h
      | eintr => exact ih _ _ _ _ hx h
      | eagain => cases h; rfl
      | err => exact bad 4 (.inr rfl) h

/-- With exceptions on, a `readsome` that returns left the state alone. -/
theorem readsomeLoop_ret7 (n : Nat) (as : List Sys) : ∀ (d : List Byte) (f f' : File), f.ios.exc = 7 → readsomeLoop n as f = .ret d f' →
    f'.ios = f.ios := by
  induction as with
  | nil => intro d f f' hx h; cases h
  | cons a as ih =>
    intro d f f' hx h
    have bad : ∀ v, v = 6 ∨ v = 4 → (do raise v; pure [] : P File (List Byte)) { f with sys := as } = .ret d f' → f'.ios = f.ios := by
      intro v hv h
      have : raise v { f with sys := as } = .exn { f with sys := as, ios := { f.ios with state := f.ios.state ||| v } } := by
        unfold raise
        rw [if_pos (by show f.ios.exc &&& v ≠ 0; rw [hx]; rcases hv with rfl | rfl <;> decide)]
      rw [P.bind_exn this] at h
      cases h
    unfold readsomeLoop at h
    cases a with
    | did k =>
      simp only at h
      split at h
      · cases h; rfl
      · exact bad 6 (.inl rfl) h
    | eintr => exact ih _ _ _ hx h
    | eagain => cases h; rfl
    | err => exact bad 4 (.inr rfl) h

theorem readLoop_ret7 (k : Nat) : ∀ (n br r : Nat) (f f' : File), f.ios = ⟨0, 7⟩ → readLoop k n br f = .ret r f' → f'.ios = f.ios := by
  induction k with
  | zero => intro n br r f f' hx h; cases h
  | succ k ih =>
    intro n br r f f' hx h
    unfold readLoop at h
    split at h
    · cases e : readsome (n - br) f with
      | oob => have h1 := readsomeLoop_is (n - br) f.sys f; rw [show readsomeLoop (n - br) f.sys f = .oob from e] at h1; exact h1.elim
      | exn f1 => rw [P.bind_exn e] at h; cases h
      | run f1 => rw [P.bind_run e] at h; cases h
      | ret d f1 =>
        rw [P.bind_ret e] at h
        have hi := readsomeLoop_ret7 _ _ _ _ _ (by rw [hx]) e
        exact (ih _ _ _ { f1 with mem := f1.mem ++ d } _ (hi.trans hx) h).trans hi
    · cases h; rfl

/-! ## Writing -/

theorem ints_cons_le (a : Sys) (as : List Sys) : ints as ≤ ints (a :: as) := by
  have : a :: as = [a] ++ as := rfl
  rw [this, ints_append]; omega

theorem raise_sys (v : Nat) (f : File) : (raise v f).Is (fun _ f' => f'.sys = f.sys) (fun f' => f'.sys = f.sys) (fun _ => False) :=
  (raise_is v f).mono (fun _ _ h => by rw [h.1]) (fun _ h => by rw [h.1]) (fun _ h => h)

theorem writeLoop_ints (as : List Sys) : ∀ (d : List Byte) (f : File), (writeLoop as d f).Is (fun _ f' => ints f'.sys ≤ ints as)
    (fun f' => ints f'.sys ≤ ints as) (fun f' => ints f'.sys ≤ ints as) := by
  induction as with
  | nil =>
    intro d f
    unfold writeLoop
    split <;> exact Nat.le_refl _
  | cons a as ih =>
    intro d f
    have hl := ints_cons_le a as
    have bad : ∀ v, ((do raise v; pure d : P File (List Byte)) { f with sys := as }).Is (fun _ f' => ints f'.sys ≤ ints (a :: as))
        (fun f' => ints f'.sys ≤ ints (a :: as)) (fun f' => ints f'.sys ≤ ints (a :: as)) := by
      intro v
      refine Res.Is.bind ((raise_sys v _).mono (fun _ _ h => h) (fun _ h => by rw [h]; exact hl) (fun _ h => h.elim)) ?_
      intro _ f' h
      show ints f'.sys ≤ _
      rw [h]; exact hl
    have go : ∀ d f, (writeLoop as d f).Is (fun _ f' => ints f'.sys ≤ ints (a :: as))
        (fun f' => ints f'.sys ≤ ints (a :: as)) (fun f' => ints f'.sys ≤ ints (a :: as)) := fun d f =>
      (ih d f).mono (fun _ _ h => Nat.le_trans h hl) (fun _ h => Nat.le_trans h hl) (fun _ h => Nat.le_trans h hl)
    unfold writeLoop
    split
    · exact Nat.le_refl _
    · cases a with
      | did k =>
        simp only
        split
        · exact go _ _
        · exact bad 6
      | eintr => exact go _ _
      | eagain => exact hl
      | err => exact bad 4

/-- What `write_file` has done with the file: `d` is what the block shows. -/
theorem writeFileBody_is (nfd : Int) (name d : List Byte) (f : File) (hf : f.fd < 0) : (writeFileBody nfd name d f).Is
    (fun _ f' => 0 ≤ nfd ∧ f'.fd < 0 ∧ (f'.out = f.out ++ d ∨ .eagain ∈ f.sys ∧ ∃ k < d.length, f'.out = f.out ++ d.take k) ∧
      ∃ j, f'.closed = f.closed ++ List.replicate (j + 1) nfd ∧ j + ints f'.sys ≤ ints f.sys)
    (fun f' => (nfd < 0 ∧ f'.fd < 0 ∧ f'.out = f.out ∧ f'.closed = f.closed) ∨
      (0 ≤ nfd ∧ f'.fd = nfd ∧ (∃ k ≤ d.length, f'.out = f.out ++ d.take k) ∧
        ∃ j, f'.closed = f.closed ++ List.replicate j nfd ∧ j + ints f'.sys ≤ ints f.sys + 1))
    (fun f' => (∃ k ≤ d.length, f'.out = f.out ++ d.take k) ∧ f'.sys = []) := by
  unfold writeFileBody exceptions
  rw [modify_bind]
  have ha := attach_fresh nfd name { f with ios := { f.ios with exc := 7 } } hf rfl
  refine Res.Is.bind (ha.mono (fun _ _ h => h) ?_ (fun _ h => h.elim)) ?_
  · rintro f1 ⟨h1, h2, h3, h4, h5⟩
    exact .inl ⟨h3, h2, h1.out, h4⟩
  · rintro _ f1 ⟨s1, a1, a2, a3, a4, a5⟩
    have a4 : f1.closed = f.closed := a4
    have a5 : f1.sys = f.sys := a5
    have s1o : f1.out = f.out := s1.out
    have hw := writeLoop_is f1.sys d f1
    have hv := writeLoop_ints f1.sys d f1
    cases e : writeLoop f1.sys d f1 with
    | oob => rw [e] at hw; exact hw.elim
    | exn f2 =>
      rw [e] at hw hv
      have hv : ints f2.sys ≤ ints f1.sys := hv
      obtain ⟨k, w, h1, _⟩ := hw
      rw [P.bind_exn (show write d f1 = .exn f2 from P.bind_exn e)]
      exact .inr ⟨a2, w.kept.fd.trans a1, ⟨k, w.le, by rw [w.out, s1o]⟩, 0, by rw [w.kept.closed, a4]; simp, by rw [← a5]; omega⟩
    | run f2 =>
      rw [e] at hw
      obtain ⟨k, w, h1, h2, h3, h4⟩ := hw
      rw [P.bind_run (show write d f1 = .run f2 from P.bind_run e)]
      exact ⟨⟨k, w.le, by rw [w.out, s1o]⟩, h3⟩
    | ret l f2 =>
      rw [e] at hw hv
      have hv : ints f2.sys ≤ ints f1.sys := hv
      obtain ⟨used, k, h1, rfl, w, h2, h3⟩ := hw
      have hi := writeLoop_ret7 _ _ _ _ _ (by rw [a3]) e
      have ew : write d f1 = .ret (d.length - (d.drop k).length) f2 := P.bind_ret e
      rw [P.bind_ret ew]
      have hfd : f2.fd = nfd := w.kept.fd.trans a1
      have hcl : f2.closed = f.closed := w.kept.closed.trans a4
      have hk : k = d.length ∨ .eagain ∈ f.sys ∧ k < d.length := by
        rcases Nat.lt_or_ge k d.length with h | h
        · rcases h2 h with ⟨h, _⟩ | ⟨h, _⟩
          · rw [hi, a3] at h; simp [Ios.fail] at h
          · refine .inr ⟨?_, by assumption⟩
            rw [← a5, h1]
            exact List.mem_append_left _ (List.mem_of_getLast? h)
        · exact .inl (Nat.le_antisymm w.le h)
      have hout : f2.out = f.out ++ d.take k := by rw [w.out, s1o]
      refine (close_any f2).mono ?_ ?_ ?_
      · rintro _ f3 ⟨c1, c2, _, c4⟩
        rw [if_neg (by omega)] at c4
        obtain ⟨j, c5, c6⟩ := c4
        refine ⟨a2, c2, ?_, j, by rw [c5, hcl, hfd], by rw [← a5]; omega⟩
        rw [c1.out, hout]
        rcases hk with rfl | ⟨h, h'⟩
        · left; rw [List.take_length]
        · exact .inr ⟨h, k, h', rfl⟩
      · rintro f3 ⟨c1, c2, c3, ⟨j, c4, c5⟩, _⟩
        exact .inr ⟨a2, c2.trans hfd, ⟨k, w.le, by rw [c1.out, hout]⟩, j + 1, by rw [c4, hcl, hfd], by rw [← a5]; omega⟩
      · rintro f3 ⟨c1, c2⟩
        exact ⟨⟨k, w.le, by rw [c1.out, hout]⟩, c2⟩

/-- **C66** `write_file`, for every content, every file and every way the system behaves. If it returns, the file was opened and
closed, and holds exactly what the block shows, unless the system answered `EAGAIN`. If it throws, either the file could not be
opened, and nothing was done, or the file holds the beginning of what the block shows, and was closed. However it behaves, nothing
but what the block shows is ever written. Unless interrupted, the descriptor is closed once if it returns, and once or twice if
it throws. -/
theorem write_file_partial (nfd : Int) (name d : List Byte) (f : File) (hf : f.fd < 0) (ho : f.out = []) (hc : f.closed = []) :
    (writeFile nfd name d f).Is
    (fun _ f' => 0 ≤ nfd ∧ (f'.out = d ∨ .eagain ∈ f.sys ∧ f'.out <+: d) ∧ f'.fd < 0 ∧
      ∃ j, 1 ≤ j ∧ j ≤ 1 + ints f.sys ∧ f'.closed = List.replicate j nfd)
    (fun f' => f'.fd < 0 ∧ if nfd < 0 then f'.out = [] ∧ f'.closed = []
      else f'.out <+: d ∧ ∃ j, 1 ≤ j ∧ j ≤ 2 + ints f.sys ∧ f'.closed = List.replicate j nfd)
    (fun f' => f'.out <+: d ∧ f'.sys = []) := by
  have hp : ∀ k, d.take k <+: d := fun k => List.take_prefix k d
  have hb := writeFileBody_is nfd name d f hf
  rw [ho, hc] at hb
  unfold writeFile inScope
  cases e : writeFileBody nfd name d f with
  | oob => rw [e] at hb; exact hb.elim
  | run f1 =>
    rw [e] at hb
    obtain ⟨⟨k, _, h⟩, h2⟩ := hb
    exact ⟨by rw [h]; exact hp k, h2⟩
  | ret a f1 =>
    rw [e] at hb
    obtain ⟨h1, h2, h3, j, h4, h5⟩ := hb
    have hout : f1.out = d ∨ .eagain ∈ f.sys ∧ f1.out <+: d := by
      rcases h3 with h | ⟨h, k, _, h'⟩
      · exact .inl h
      · exact .inr ⟨h, by rw [h']; exact hp k⟩
    have hpre : f1.out <+: d := by
      rcases hout with h | h
      · rw [h]; exact List.prefix_refl d
      · exact h.2
    refine Res.Is.bind ((destroy_any f1).mono (fun _ _ h => h) (fun _ h => h.elim) ?_) ?_
    · rintro f2 ⟨c1, c2⟩; exact ⟨by rw [c1.out]; exact hpre, c2⟩
    · rintro _ f2 ⟨c1, c2, c3⟩
      rw [if_pos h2] at c3
      exact ⟨h1, by rw [c1.out]; exact hout, c2, j + 1, by omega, by omega, by rw [c3.1, h4]; rfl⟩
  | exn f1 =>
    rw [e] at hb
    have hd := destroy_any f1
    simp only
    cases e2 : destroy f1 with
    | oob => rw [e2] at hd; exact hd
    | exn f2 => rw [e2] at hd; exact hd.elim
    | run f2 =>
      rw [e2] at hd
      obtain ⟨c1, c2⟩ := hd
      refine ⟨?_, c2⟩
      rw [c1.out]
      rcases hb with ⟨_, _, h, _⟩ | ⟨_, _, ⟨k, _, h⟩, _⟩
      · rw [h]; exact List.nil_prefix
      · rw [h]; exact hp k
    | ret a f2 =>
      rw [e2] at hd
      obtain ⟨c1, c2, c3⟩ := hd
      refine ⟨c2, ?_⟩
      rcases hb with ⟨h1, h2, h3, h4⟩ | ⟨h1, h2, ⟨k, _, h3⟩, j, h4, h5⟩
      · rw [if_pos h2] at c3
        rw [if_pos h1]
        exact ⟨c1.out.trans h3, c3.1.trans h4⟩
      · rw [if_neg (by omega)] at c3 ⊢
        obtain ⟨i, c4, c5⟩ := c3
        refine ⟨by rw [c1.out, h3]; exact hp k, j + (i + 1), by omega, by omega, ?_⟩
        rw [c4, h4, h2, List.nil_append, List.replicate_append_replicate]

example : writeFile 5 [97] [1, 2, 3] { fd := -1, sys := [.did 2, .eintr, .did 1, .did 0] } =
    .ret () { fd := -1, out := [1, 2, 3], closed := [5], sys := [], ios := { exc := 0 } } := by decide +kernel

/-- **C66** is false for a file that would block: `write_file` returns as if all had been written, and nothing was. -/
theorem write_file_again_violated : writeFile 5 [97] [1, 2, 3] { fd := -1, sys := [.eagain, .did 0] } =
    .ret () { fd := -1, out := [], closed := [5], sys := [], ios := { exc := 0 } } := by decide +kernel

/-- **C66** is false if `::close` fails: the exception leaves the descriptor in the stream, and the destructor closes it again, when
it may already be somebody else's. -/
theorem write_file_close_violated : writeFile 5 [97] [1, 2, 3] { fd := -1, sys := [.did 3, .err, .did 0] } =
    .exn { fd := -1, out := [1, 2, 3], closed := [5, 5], sys := [], ios := { exc := 0 } } := by decide +kernel

end Ustl.File
