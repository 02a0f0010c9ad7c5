import Verif.File.Life2
/-! # Several files through one stream; cin and cout (C79) -/
namespace Ustl.File
open Ustl.Stream

/-! ## Several files through one stream -/

/-- A stream between two files: no descriptor, nothing in the buffer, good. -/
structure Idle (o : OFS) : Prop where
  pos : o.pos = 0
  cap : o.buf = [] ∨ o.buf.length < o.cap
  exc : o.file.ios.exc = 0
  fd : o.file.fd < 0
  willing : Willing o.file.sys

theorem oopen_eq (n : Int) (nm : List Byte) (o : OFS) (h : Idle o) (hn : 0 ≤ n) :
    oopen n nm o = .ret () { o with ios := { o.ios with state := 0 }, file := { o.file with name := nm, ios := { state := 0, exc := 0 }, fd := n } } := by
  unfold oopen
  rw [P.bind_ret (show ofile (attach n nm) o = .ret () { o with file := { o.file with name := nm, ios := { state := 0, exc := 0 }, fd := n } } by
    unfold ofile; rw [attach_new n nm o.file h.fd h.exc, if_neg (by omega)])]
  rfl

/-- **C79**: an `open` that fails leaves the stream visibly not good and without a descriptor, and nothing is written or closed by it. -/
theorem open_failed (n : Int) (nm : List Byte) (o : OFS) (h : Idle o) (hn : n < 0) :
    ∃ o', oopen n nm o = .ret () o' ∧ o'.ios.state ≠ 0 ∧ o'.file.fd < 0 ∧ o'.file.out = o.file.out ∧ o'.file.closed = o.file.closed := by
  unfold oopen
  rw [P.bind_ret (show ofile (attach n nm) o = .ret () _ by
    unfold ofile; rw [attach_new n nm o.file h.fd h.exc, if_pos hn])]
  exact ⟨_, rfl, (show (1 : Nat) ≠ 0 by decide), hn, rfl, rfl⟩

example : ∃ o', oopen (-1) [97] (.blank []) = .ret () o' ∧ o'.ios.state ≠ 0 :=
  let ⟨o', a, b, _⟩ := open_failed (-1) [97] (.blank []) ⟨rfl, .inl rfl, rfl, by decide, fun _ h => by cases h⟩ (by decide)
  ⟨o', a, b⟩

theorem close_willing (f : File) (hx : f.ios.exc = 0) (hw : Willing f.sys) : (close f).Is
    (fun _ f' => f'.fd < 0 ∧ f'.closed = f.closed ++ f.held ∧ f'.ios.exc = 0 ∧ Willing f'.sys ∧ f'.out = f.out) (fun _ => False)
    (fun f' => f'.closed = f.closed ∧ f'.out = f.out) := by
  unfold close
  split
  · rename_i h; exact ⟨h, by simp [File.held, h], hx, hw, rfl⟩
  · rename_i h
    have hh : f.held = [f.fd] := by simp [File.held, h]
    cases e : f.sys with
    | nil => rw [P.bind_run (show closeLoop [] f = _ from rfl)]; exact ⟨rfl, rfl⟩
    | cons a as =>
      have hw' : ∀ b ∈ a :: as, ∃ j, b = Sys.did (j + 1) := by rw [← e]; exact hw
      obtain ⟨j, rfl⟩ := hw' a (by simp)
      rw [P.bind_ret (show closeLoop (.did (j + 1) :: as) f = .ret () { f with sys := as, closed := f.closed ++ [f.fd] } from rfl)]
      exact ⟨by show (-1 : Int) < 0; decide, by rw [hh], hx, fun b hb => hw' b (List.mem_cons_of_mem _ hb), rfl⟩

/-- One file: what it was given, under which descriptor, and that it was closed. -/
theorem session_is (s : Session) (hn : 0 ≤ s.fd) (o : OFS) (h : Idle o) : (s.run o).Is
    (fun r o' => r = (s.fd, (s.ops.map WOp.text).flatten) ∧ o'.file.out = o.file.out ++ (s.ops.map WOp.text).flatten ∧
      o'.file.closed = o.file.closed ++ [s.fd] ∧ Idle o')
    (fun _ => False) (fun o' => o'.file.out <+: o.file.out ++ (s.ops.map WOp.text).flatten) := by
  unfold Session.run
  rw [look_bind, P.bind_ret (oopen_eq s.fd s.name o h hn)]
  generalize ho0 : ({ o with ios := { o.ios with state := 0 }, file := { o.file with name := s.name, ios := { state := 0, exc := 0 }, fd := s.fd } } : OFS) = o0
  have hok : o0.Ok := by rw [← ho0]; exact ⟨by rw [h.pos]; exact Nat.zero_le _, h.cap, rfl, rfl⟩
  have hall : o0.file.out ++ o0.pend = o.file.out := by
    rw [← ho0]
    show o.file.out ++ o.buf.take o.pos = _
    rw [h.pos]; simp
  have hfd : o0.file.fd = s.fd := by rw [← ho0]
  have hcl : o0.file.closed = o.file.closed := by rw [← ho0]
  have hw0 : Willing o0.file.sys := by rw [← ho0]; exact h.willing
  have hi0 : o0.file.ios = { state := 0, exc := 0 } := by rw [← ho0]
  refine Res.Is.bind (((ofstream_history s.ops o0 hok).keep (keeps_runAll same_inert s.ops)).mono (fun _ _ h => h) (fun _ h => h) ?_) ?_
  · intro o' h; rw [hall] at h; exact h
  rintro _ o1 ⟨⟨a1, a2⟩, a3, a4⟩
  obtain ⟨a5, a6⟩ := a4 hw0
  rw [hall] at a2
  rw [look_bind]
  have hst : o1.file.ios.state = 0 := by rw [a6, hi0]
  have hcl1 : (oclose s.rounds o1).Is
      (fun _ o2 => o2.file.out = o1.file.out ++ o1.pend ∧ o2.file.closed = o1.file.closed ++ [s.fd] ∧ Idle o2)
      (fun _ => False) (fun o2 => o2.file.out <+: o1.file.out ++ o1.pend) := by
    unfold oclose
    rw [look_bind, oclear, modify_bind, hst]
    have e : ({ o1 with ios := { o1.ios with state := 0 }, file := { o1.file with ios := { o1.file.ios with state := 0 } } } : OFS) = o1 := by
      obtain ⟨buf, pos, cap, ⟨st, ex⟩, file, junk⟩ := o1
      obtain ⟨⟨fs, fe⟩, _, _, _, _, _, _, _⟩ := file
      have h1 : st = 0 := a1.good
      have h2 : fs = 0 := hst
      subst h1 h2
      rfl
    rw [e]
    refine Res.Is.bind (((flush_is s.rounds o1 a1).keep (keeps_flush same_inert s.rounds)).mono (fun _ _ h => h) (fun _ h => h) (fun _ h => h)) ?_
    rintro _ o2 ⟨⟨b1, b2, b3⟩, b4, b5⟩
    obtain ⟨b6, b7⟩ := b5 a5
    have hp2 : o2.pend = [] := by rw [OFS.pend, b3]; rfl
    have ho2 : o2.file.out = o1.file.out ++ o1.pend := by
      have : o2.file.out ++ o2.pend = o1.file.out ++ o1.pend := b2
      rwa [hp2, List.append_nil] at this
    have hh : o2.file.held = [s.fd] := by
      rw [File.held, b4.fd, a3.fd, hfd, if_neg (by omega)]
    refine (ofile_is (close_willing o2.file (by rw [b7, a6, hi0]) b6)).mono ?_ ?_ ?_
    · rintro _ o3 ⟨f, rfl, c1, c2, c3, c4, c5⟩
      refine ⟨by show f.out = _; rw [c5, ho2], by show f.closed = _; rw [c2, hh, b4.closed], ⟨b3, b1.cap, c3, c1, c4⟩⟩
    · rintro o3 ⟨f, rfl, h⟩; exact h
    · rintro o3 ⟨f, rfl, c1, c2⟩
      show f.out <+: _
      rw [c2, ho2]; exact List.prefix_refl _
  refine Res.Is.bind (hcl1.mono (fun _ _ h => h) (fun _ h => h) (fun _ h => by rw [a2] at h; exact h)) ?_
  rintro _ o2 ⟨b1, b2, b3⟩
  rw [look_bind]
  refine Res.Is.pure ⟨?_, by rw [b1, a2], by rw [b2, a3.closed, hcl], b3⟩
  rw [a3.fd, hfd, b1, a2, List.drop_left]

/-- **C79** (partial): several files written through one stream, each opened, written and closed in turn, on a willing system: each
descriptor gets exactly the text written between its `open` and its `close`, and all are closed, in order, once. What is missing:
a file that fails (`fail_leaks_violated`), an `open` that fails (`failed_open_leaks_violated`), and an `open` without a `close`
before it (`reopen_violated`): in each of them text goes to the wrong file. -/
theorem sessions_partial (ss : List Session) : ∀ o : OFS, Idle o → (∀ s ∈ ss, 0 ≤ s.fd) → (sessions ss o).Is
    (fun rs o' => rs = ss.map (fun s => (s.fd, (s.ops.map WOp.text).flatten)) ∧ o'.file.closed = o.file.closed ++ ss.map Session.fd ∧ Idle o')
    (fun _ => False) (fun o' => o'.file.out <+: o.file.out ++ (ss.map fun s => (s.ops.map WOp.text).flatten).flatten) := by
  induction ss with
  | nil => intro o h _; exact ⟨rfl, by simp, h⟩
  | cons s ss ih =>
    intro o h hn
    show Res.Is _ _ _ ((s.run >>= fun r => sessions ss >>= fun rs => pure (r :: rs)) o)
    refine Res.Is.bind ((session_is s (hn s (by simp)) o h).mono (fun _ _ h => h) (fun _ h => h) ?_) ?_
    · intro o' h'
      rw [List.map_cons, List.flatten_cons, ← List.append_assoc]
      exact List.IsPrefix.trans h' (List.prefix_append _ _)
    · rintro r o1 ⟨rfl, a2, a3, a4⟩
      refine Res.Is.bind ((ih o1 a4 (fun s hs => hn s (by simp [hs]))).mono (fun _ _ h => h) (fun _ h => h) ?_) ?_
      · intro o' h'
        rw [a2] at h'
        rw [List.map_cons, List.flatten_cons, ← List.append_assoc]
        exact h'
      · rintro rs o2 ⟨rfl, b2, b3⟩
        exact ⟨rfl, by rw [b2, a3]; simp, b3⟩

/-- A new stream is idle. -/
theorem idle_new (sys : List Sys) (hw : Willing sys) : ∃ o, OCtor.none.run (.blank sys) = .ret () o ∧ Idle o ∧ o.file.closed = [] ∧ o.file.out = [] :=
  ⟨_, rfl, ⟨rfl, Or.inl rfl, rfl, by show (-1 : Int) < 0; decide, hw⟩, rfl, rfl⟩

example : (match (do OCtor.none.run; sessions [⟨3, [97], [.put 97, .put 98], 2⟩, ⟨4, [98], [.write [99]], 2⟩] : P OFS _) (.blank [.did 9, .did 1, .did 1, .did 1]) with
    | .ret rs o' => decide (rs = [(3, [97, 98]), (4, [99])] ∧ o'.file.closed = [3, 4])
    | _ => false) = true := by decide +kernel

/-- **C79** is false for a stream that is opened again without `close`: the text meant for the first file goes to the second. -/
theorem reopen_violated : (match (do OCtor.none.run; oopen 3 [97]; runAll [.put 97]; oopen 4 [98]; runAll [.put 98]; oclose 2 : P OFS _)
      (.blank [.did 1, .did 2, .did 1]) with
    | .ret _ o' => decide (o'.file.out = [97, 98] ∧ o'.file.closed = [3, 4])
    | _ => false) = true ∧
    (match (do OCtor.none.run; oopen 3 [97]; runAll [.put 97]; oopen 4 [98] : P OFS _) (.blank [.did 1, .did 2, .did 1]) with
    | .ret _ o' => decide (o'.file.out = [] ∧ o'.file.closed = [3])
    | _ => false) = true := by constructor <;> decide +kernel

/-- **C79** is false for a stream that is opened again after a failure: what the first file refused goes to the second. -/
theorem fail_leaks_violated : (match (do (OCtor.file 3 [97]).run; runAll [.put 97, .put 98]; oclose 2; sessions [⟨4, [98], [.put 99], 2⟩] : P OFS _)
      (OFS.blank [.err, .did 1, .did 9, .did 1]) with
    | .ret rs _ => decide (rs = [(4, [97, 98, 99])])
    | _ => false) = true := by decide +kernel

/-- **C79** is false for text written after an `open` that failed: the stream is not good, but keeps it, and the next file gets it. -/
theorem failed_open_leaks_violated : (match (do OCtor.none.run; oopen (-1) [97]; runAll [.put 97]; oclose 2; sessions [⟨4, [98], [.put 98], 2⟩] : P OFS _)
      (OFS.blank [.did 9, .did 1]) with
    | .ret rs _ => decide (rs = [(4, [97, 98])])
    | _ => false) = true := by decide +kernel

/-! ## cin and cout -/

/-- An outcome of the first stream, beside a second stream. -/
def beside {α : Type} (o : OFS) : Res IFS α → Res (IFS × OFS) α
  | .ret a i => .ret a (i, o)
  | .exn i => .exn (i, o)
  | .oob => .oob
  | .run i => .run (i, o)

theorem onIn_eq {α : Type} (m : P IFS α) (i : IFS) (o : OFS) : onIn m (i, o) = beside o (m i) := by
  unfold onIn beside
  cases m i <;> rfl

theorem onIn_bind {α β : Type} (m : P IFS α) (f : α → P IFS β) (i : IFS) (o : OFS) : (onIn m >>= fun a => onIn (f a)) (i, o) = onIn (m >>= f) (i, o) := by
  rw [onIn_eq]
  cases e : m i with
  | ret a i1 => rw [P.bind_ret (show onIn m (i, o) = .ret a (i1, o) by rw [onIn_eq, e]; rfl), P.bind_ret e, onIn_eq]
  | exn i1 => rw [P.bind_exn (show onIn m (i, o) = .exn (i1, o) by rw [onIn_eq, e]; rfl), P.bind_exn e]; rfl
  | run i1 => rw [P.bind_run (show onIn m (i, o) = .run (i1, o) by rw [onIn_eq, e]; rfl), P.bind_run e]; rfl
  | oob => rw [P.bind_oob (show onIn m (i, o) = .oob by rw [onIn_eq, e]; rfl), P.bind_oob e]; rfl

/-- What makeRoom does, it does not do to the file. -/
theorem makeRoom_ret (n : Nat) (i : IFS) : ∃ i1, makeRoom n i = .ret () i1 ∧ i1.file = i.file := by
  refine ⟨_, rfl, ?_⟩
  dsimp only
  split <;> rfl

theorem refill2_eq (k n : Nat) (i : IFS) (o o' : OFS) (ht : ∀ i1 : IFS, i1.file = i.file → tie k (i1, o) = .ret () (i1, o')) (he : i.file.ios.eof = false) :
    refill2 k n (i, o) = beside o' (refill n i) := by
  obtain ⟨i1, e1, hf⟩ := makeRoom_ret n i
  unfold refill2 refill
  rw [if_neg (by rw [he]; decide), if_neg (by rw [he]; decide)]
  rw [P.bind_ret (show onIn (makeRoom n) (i, o) = .ret () (i1, o) by unfold onIn; rw [e1]), P.bind_ret (ht i1 hf), P.bind_ret e1, onIn_bind, onIn_eq]

/-- **C79**: before `cin` (any stream on descriptor 0) asks the system for more input, everything written to `cout` is delivered:
when reading more returns, `cout` holds nothing back, and reading itself did what it does without `cout`. If the flush has not
returned, nothing has been read. -/
theorem cin_flushes_cout (k n : Nat) (i : IFS) (o : OFS) (h : o.Ok) (h0 : i.file.fd = 0) (he : i.file.ios.eof = false) :
    (∃ o', underflow2 k n (i, o) = beside o' (underflow n i) ∧ o'.Ok ∧ o'.file.out = o.file.out ++ o.pend ∧ o'.pend = []) ∨
    (∃ i' o', underflow2 k n (i, o) = .run (i', o') ∧ i'.file = i.file ∧ o'.file.out <+: o.file.out ++ o.pend) := by
  have hf := flush_spec k o h
  cases e : flushLoop k o with
  | ret u o' =>
    rw [e] at hf
    left
    refine ⟨o', ?_, hf⟩
    have ht : ∀ i1 : IFS, i1.file = i.file → tie k (i1, o) = .ret () (i1, o') := by
      intro i1 h1
      unfold tie
      rw [if_pos (show i1.file.fd = 0 by rw [h1]; exact h0)]
      unfold onOut
      rw [e]
    unfold underflow2 underflow
    cases er : refill n i with
    | ret u i1 =>
      rw [P.bind_ret (show refill2 k n (i, o) = .ret u (i1, o') by rw [refill2_eq k n i o o' ht he, er]; rfl), P.bind_ret er, onIn_bind, onIn_eq]
    | exn i1 =>
      rw [P.bind_exn (show refill2 k n (i, o) = .exn (i1, o') by rw [refill2_eq k n i o o' ht he, er]; rfl), P.bind_exn er]; rfl
    | run i1 =>
      rw [P.bind_run (show refill2 k n (i, o) = .run (i1, o') by rw [refill2_eq k n i o o' ht he, er]; rfl), P.bind_run er]; rfl
    | oob =>
      rw [P.bind_oob (show refill2 k n (i, o) = .oob by rw [refill2_eq k n i o o' ht he, er]; rfl), P.bind_oob er]; rfl
  | exn o' => rw [e] at hf; exact hf.elim
  | oob => rw [e] at hf; exact hf.elim
  | run o' =>
    rw [e] at hf
    right
    obtain ⟨i1, e1, h1⟩ := makeRoom_ret n i
    refine ⟨i1, o', ?_, h1, hf⟩
    unfold underflow2
    rw [P.bind_run]
    unfold refill2
    rw [if_neg (by rw [he]; decide)]
    rw [P.bind_ret (show onIn (makeRoom n) (i, o) = .ret () (i1, o) by unfold onIn; rw [e1])]
    rw [P.bind_run (show tie k (i1, o) = .run (i1, o') by
      unfold tie
      rw [if_pos (show i1.file.fd = 0 by rw [h1]; exact h0)]
      unfold onOut
      rw [e])]

example : (match underflow2 2 1 (IFS.ofFile { fd := 0, src := [120], sys := [.did 1] } 16 0,
      { buf := [62], pos := 1, cap := 4, file := { fd := 1, sys := [.did 1] } }) with
    | .ret r s => decide (r = 1 ∧ s.2.file.out = [62] ∧ s.1.file.src = [])
    | _ => false) = true := by decide +kernel

/-- **C79**: reading from any other descriptor leaves `cout` alone. -/
theorem other_leaves_cout (k n : Nat) (i : IFS) (o : OFS) (h0 : i.file.fd ≠ 0) : underflow2 k n (i, o) = beside o (underflow n i) := by
  have ht : ∀ i1 : IFS, i1.file = i.file → tie k (i1, o) = .ret () (i1, o) := by
    intro i1 h1
    unfold tie
    rw [if_neg (show ¬ i1.file.fd = 0 by rw [h1]; exact h0)]
  have hr : refill2 k n (i, o) = beside o (refill n i) := by
    cases he : i.file.ios.eof with
    | true => unfold refill2 refill; rw [if_pos he, if_pos he]; rfl
    | false => exact refill2_eq k n i o o ht he
  unfold underflow2 underflow
  cases er : refill n i with
  | ret u i1 => rw [P.bind_ret (show refill2 k n (i, o) = .ret u (i1, o) by rw [hr, er]; rfl), P.bind_ret er, onIn_bind, onIn_eq]
  | exn i1 => rw [P.bind_exn (show refill2 k n (i, o) = .exn (i1, o) by rw [hr, er]; rfl), P.bind_exn er]; rfl
  | run i1 => rw [P.bind_run (show refill2 k n (i, o) = .run (i1, o) by rw [hr, er]; rfl), P.bind_run er]; rfl
  | oob => rw [P.bind_oob (show refill2 k n (i, o) = .oob by rw [hr, er]; rfl), P.bind_oob er]; rfl

example : underflow2 2 1 (IFS.ofFile { fd := 3, src := [120], sys := [.did 1] } 16 0, { buf := [62], pos := 1, cap := 4 }) =
    beside { buf := [62], pos := 1, cap := 4 } (underflow 1 (IFS.ofFile { fd := 3, src := [120], sys := [.did 1] } 16 0)) :=
  other_leaves_cout 2 1 _ _ (by show (3 : Int) ≠ 0; decide)

/-! ## ifstream -/

/-- **C79**: `ifstream (filename)` on a file that cannot be opened is not good; on one that can, it is good and has the
descriptor; neither it nor its file throws. -/
theorem ifstream_open (n : Int) (name : List Byte) (f : File) (h0 : f.fd < 0) (hx : f.ios.exc = 0) :
    ∃ i f', IFS.ofName n name f = .ret i f' ∧ (i.ios.state = 0 ↔ 0 ≤ n) ∧ i.file.fd = n ∧ i.lim = 0 ∧ i.pos = 0 ∧ f'.closed = f.closed ∧
      i.ios.exc = 0 ∧ i.file.ios.exc = 0 := by
  unfold IFS.ofName
  rw [attach_new n name f h0 hx]
  refine ⟨_, _, rfl, ?_, rfl, rfl, rfl, rfl, rfl, rfl⟩
  show (if n < 0 then 1 else 0) = 0 ↔ _
  split <;> omega

example : ∃ i f', IFS.ofName (-1) [120] { fd := -1 } = .ret i f' ∧ ¬ i.ios.state = 0 := by
  obtain ⟨i, f', a, b, _⟩ := ifstream_open (-1) [120] { fd := -1 } (by decide) rfl
  exact ⟨i, f', a, fun h => absurd (b.1 h) (by decide)⟩

/-- **C79** is false for `ifstream (fd)`: on a descriptor that is none (an `open` that failed) the stream is good. -/
theorem ifstream_fd_violated : ∃ i f', IFS.ofFd (-1) { fd := -1 } = .ret i f' ∧ i.ios.state = 0 ∧ i.file.ios.state = 1 ∧ i.file.fd = -1 := by
  unfold IFS.ofFd
  rw [attach_new (-1) [] { fd := -1 } (by decide) rfl]
  exact ⟨_, _, rfl, rfl, rfl, rfl⟩

end Ustl.File
