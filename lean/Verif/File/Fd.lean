import Verif.File.Props
/-! # fstream: descriptors and open modes (C60) -/
namespace Ustl.File
open Ustl.Stream

/-- The meaning of an open mode: what `open (2)` is asked for. -/
structure Asks (m fl : Nat) : Prop where
  /-- reading only -/
  rd : m.testBit 0 = true → m.testBit 1 = false → fl % 4 = 0
  /-- writing only -/
  wr : m.testBit 0 = false → m.testBit 1 = true → fl % 4 = 1
  /-- both -/
  rw : m.testBit 0 = true → m.testBit 1 = true → fl % 4 = 2
  /-- `O_CREAT` -/
  creat : fl.testBit 6 = (m.testBit 1 && !m.testBit 7)
  /-- `O_TRUNC` -/
  trunc : fl.testBit 9 = m.testBit 5
  /-- `O_APPEND` -/
  app : fl.testBit 10 = (m.testBit 2 || m.testBit 3)
  /-- `O_NONBLOCK` -/
  nonblock : fl.testBit 11 = m.testBit 6
  /-- `O_NOCTTY` -/
  noctty : fl.testBit 8 = m.testBit 8
  /-- nothing else -/
  other : fl < 4096 ∧ ∀ i ∈ [2, 3, 4, 5, 7], fl.testBit i = false

/-- **C60**: the flags given to `open (2)` are those the mode asks for, for each of the 512 combinations of the nine modes. -/
theorem openmode_spec : ∀ m < 512, Asks m (omToFlags m) := by
  intro m hm
  have h : ∀ m < 512,
      (m.testBit 0 = true → m.testBit 1 = false → omToFlags m % 4 = 0) ∧ (m.testBit 0 = false → m.testBit 1 = true → omToFlags m % 4 = 1) ∧
      (m.testBit 0 = true → m.testBit 1 = true → omToFlags m % 4 = 2) ∧ (omToFlags m).testBit 6 = (m.testBit 1 && !m.testBit 7) ∧
      (omToFlags m).testBit 9 = m.testBit 5 ∧ (omToFlags m).testBit 10 = (m.testBit 2 || m.testBit 3) ∧
      (omToFlags m).testBit 11 = m.testBit 6 ∧ (omToFlags m).testBit 8 = m.testBit 8 ∧ omToFlags m < 4096 ∧
      ∀ i ∈ [2, 3, 4, 5, 7], (omToFlags m).testBit i = false := by
    set_option maxRecDepth 100000 in decide
  obtain ⟨a, b, c, d, e, f, g, h, i⟩ := h m hm
  exact ⟨a, b, c, d, e, f, g, h, i⟩

example : Asks 0x22 0x241 := openmode_spec 0x22 (by decide)

/-- **C60** is false for a mode with neither `in` nor `out`: the access mode is 3, which is none of those there are. -/
theorem openmode_violated : omToFlags 0 % 4 = 3 ∧ omToFlags 0x20 % 4 = 3 := by decide

/-! ## Closing -/

theorem closeLoop_is (as : List Sys) : ∀ f : File, f.ios.exc = 0 → (∀ a ∈ as, a ≠ .eintr) → (closeLoop as f).Is
    (fun _ f' => f'.closed = f.closed ++ [f.fd] ∧ f'.ios.exc = 0 ∧ ∃ a, as = a :: f'.sys ∧ (f'.ios.state = f.ios.state ∨ f'.ios.state = f.ios.state ||| 5))
    (fun _ => False) (fun f' => f'.closed = f.closed) := by
  intro f hx he
  cases as with
  | nil => exact rfl
  | cons a as =>
    have bad : (raise 5 { f with sys := as, closed := f.closed ++ [f.fd] }).Is
        (fun _ f' => f'.closed = f.closed ++ [f.fd] ∧ f'.ios.exc = 0 ∧ ∃ b, a :: as = b :: f'.sys ∧ (f'.ios.state = f.ios.state ∨ f'.ios.state = f.ios.state ||| 5))
        (fun _ => False) (fun f' => f'.closed = f.closed) := by
      refine (raise_is 5 _).mono ?_ ?_ (fun _ h => h.elim)
      · rintro _ f' ⟨rfl, _⟩; exact ⟨rfl, hx, a, rfl, Or.inr rfl⟩
      · rintro f' ⟨rfl, h⟩; apply h; show f.ios.exc &&& 5 = 0; rw [hx]; exact Nat.zero_and 5
    unfold closeLoop
    cases a with
    | did k => exact ⟨rfl, hx, _, rfl, Or.inl rfl⟩
    | eintr => exact absurd rfl (he .eintr (by simp))
    | eagain => exact bad
    | err => exact bad

/-- `close`, the system not interrupting it: the descriptor was given to the system once, and the stream has none. -/
theorem close_is (f : File) (hx : f.ios.exc = 0) (he : ∀ a ∈ f.sys, a ≠ .eintr) : (close f).Is
    (fun _ f' => f'.fd < 0 ∧ f'.closed = f.closed ++ (if f.fd < 0 then [] else [f.fd]) ∧ f'.ios.exc = 0 ∧ (∀ a ∈ f'.sys, a ≠ .eintr))
    (fun _ => False) (fun f' => f'.closed = f.closed) := by
  unfold close
  split
  · rename_i h; exact ⟨h, by simp, hx, he⟩
  · rename_i h
    refine Res.Is.bind (closeLoop_is f.sys f hx he) ?_
    rintro _ f' ⟨h1, h2, a, h3, _⟩
    refine ⟨by show (-1 : Int) < 0; decide, by show f'.closed = _; rw [h1], h2, fun b hb => he b ?_⟩
    rw [h3]; exact List.mem_cons_of_mem _ hb

/-- What a user does with the descriptors of a stream. -/
inductive FOp
  | attach (nfd : Int) (name : List Byte)
  | close
  | write (d : List Byte)
  | read (n : Nat)

/-- Do it. -/
def FOp.run : FOp → P File Unit
  | .attach n nm => File.attach n nm
  | .close => File.close
  | .write d => do let _ ← File.write d; pure ()
  | .read n => do let _ ← File.read n; pure ()

/-- The descriptors the stream was given. -/
def given : List FOp → List Int
  | [] => []
  | .attach n _ :: ops => (if n < 0 then [] else [n]) ++ given ops
  | _ :: ops => given ops

/-- Do all of it, and destroy the stream. -/
def lifetime : List FOp → P File Unit
  | [] => destroy
  | op :: ops => do op.run; lifetime ops

/-- The descriptor the stream has, if it has one. -/
def File.held (f : File) : List Int := if f.fd < 0 then [] else [f.fd]

theorem attach_is (n : Int) (nm : List Byte) (f : File) (hx : f.ios.exc = 0) (he : ∀ a ∈ f.sys, a ≠ .eintr) : (attach n nm f).Is
    (fun _ f' => f'.fd = n ∧ f'.closed = f.closed ++ f.held ∧ f'.ios.exc = 0 ∧ (∀ a ∈ f'.sys, a ≠ .eintr))
    (fun _ => False) (fun f' => f'.closed = f.closed) := by
  unfold attach
  rw [modify_bind]
  have h1 : (checkFd n { f with name := nm, ios := { f.ios with state := 0 } }).Is
      (fun _ f1 => f1.fd = f.fd ∧ f1.closed = f.closed ∧ f1.ios.exc = 0 ∧ f1.sys = f.sys) (fun _ => False) (fun f' => f'.closed = f.closed) := by
    unfold checkFd
    split
    · refine (raise_is 1 _).mono ?_ ?_ (fun _ h => h.elim)
      · rintro _ f' ⟨rfl, _⟩; exact ⟨rfl, rfl, hx, rfl⟩
      · rintro f' ⟨rfl, h⟩; apply h; show f.ios.exc &&& 1 = 0; rw [hx]; exact Nat.zero_and 1
    · exact ⟨rfl, rfl, hx, rfl⟩
  refine h1.bind ?_
  rintro _ f1 ⟨a1, a2, a3, a4⟩
  refine ((close_is f1 a3 (by rw [a4]; exact he)).mono (fun _ _ h => h) (fun _ h => h) (fun _ h => h.trans a2)).bind ?_
  rintro _ f2 ⟨b1, b2, b3, b4⟩
  exact ⟨rfl, by show f2.closed = _; rw [b2, a1, a2]; rfl, b3, b4⟩

theorem transfer_keeps {op : FOp} (h : (∃ d, op = .write d) ∨ ∃ n, op = .read n) (f : File) (hx : f.ios.exc = 0) (he : ∀ a ∈ f.sys, a ≠ .eintr) :
    (op.run f).Is (fun _ f' => f'.fd = f.fd ∧ f'.closed = f.closed ∧ f'.ios.exc = 0 ∧ ∀ a ∈ f'.sys, a ≠ .eintr)
    (fun _ => False) (fun f' => f'.closed = f.closed) := by
  rcases h with ⟨d, rfl⟩ | ⟨n, rfl⟩
  · show Res.Is _ _ _ ((write d >>= _) f)
    have h := writeLoop_is f.sys d f
    unfold write
    refine Res.Is.bind (R := fun _ f' => f'.fd = f.fd ∧ f'.closed = f.closed ∧ f'.ios.exc = 0 ∧ ∀ a ∈ f'.sys, a ≠ .eintr) ?_ (fun _ _ h => Res.Is.pure h)
    refine Res.Is.bind (R := fun _ f' => f'.fd = f.fd ∧ f'.closed = f.closed ∧ f'.ios.exc = 0 ∧ ∀ a ∈ f'.sys, a ≠ .eintr) (h.mono ?_ ?_ ?_) (fun _ _ h => Res.Is.pure h)
    · rintro l f' ⟨used, k, h1, _, w, _⟩
      exact ⟨w.kept.fd, w.kept.closed, w.kept.exc.trans hx, fun a ha => he a (by rw [h1]; exact List.mem_append_right _ ha)⟩
    · rintro f' ⟨k, w, _, _, h⟩; apply h; rw [hx]; exact Nat.zero_and 6
    · rintro f' ⟨k, w, _⟩; exact w.kept.closed
  · show Res.Is _ _ _ ((read n >>= _) f)
    have h := readLoop_is (f.sys.length + 1) n 0 f (by omega) (Nat.zero_le _)
    refine Res.Is.bind (R := fun _ f' => f'.fd = f.fd ∧ f'.closed = f.closed ∧ f'.ios.exc = 0 ∧ ∀ a ∈ f'.sys, a ≠ .eintr) (h.mono ?_ ?_ ?_) (fun _ _ h => Res.Is.pure h)
    · rintro r f' ⟨d, used, g, h1, _⟩
      exact ⟨g.kept.fd, g.kept.closed, g.kept.exc.trans hx, fun a ha => he a (by rw [h1]; exact List.mem_append_right _ ha)⟩
    · rintro f' ⟨k, w, _, _, h⟩; apply h; rw [hx]; exact Nat.zero_and 6
    · rintro f' ⟨k, w, _⟩; exact w.kept.closed

theorem lifetime_is (ops : List FOp) : ∀ f : File, f.ios.exc = 0 → (∀ a ∈ f.sys, a ≠ .eintr) → (lifetime ops f).Is
    (fun _ f' => f'.closed = f.closed ++ f.held ++ given ops) (fun _ => False) (fun f' => f'.closed <+: f.closed ++ f.held ++ given ops) := by
  induction ops with
  | nil =>
    intro f hx he
    show Res.Is _ _ _ (destroy f)
    unfold destroy
    rw [modify_bind]
    refine (close_is { f with ios := { state := 0, exc := 0 } } rfl he).mono ?_ (fun _ h => h) ?_
    · rintro _ f' ⟨_, h, _⟩; rw [h]; simp [File.held, given]
    · intro f' h; rw [h]; simp [given]
  | cons op ops ih =>
    intro f hx he
    have key : ∀ g : List Int, given (op :: ops) = g ++ given ops →
        (op.run f).Is (fun _ f' => f'.closed ++ f'.held = f.closed ++ f.held ++ g ∧ f'.ios.exc = 0 ∧ ∀ a ∈ f'.sys, a ≠ .eintr) (fun _ => False)
          (fun f' => f'.closed = f.closed) →
        (lifetime (op :: ops) f).Is (fun _ f' => f'.closed = f.closed ++ f.held ++ given (op :: ops)) (fun _ => False)
          (fun f' => f'.closed <+: f.closed ++ f.held ++ given (op :: ops)) := by
      intro g hgv h
      refine Res.Is.bind (h.mono (fun _ _ h => h) (fun _ h => h) ?_) ?_
      · intro f' h; rw [h, List.append_assoc]; exact List.prefix_append _ _
      · rintro _ f' ⟨h1, h2, h3⟩
        have := ih f' h2 h3
        rw [h1, List.append_assoc (f.closed ++ f.held), ← hgv] at this
        exact this
    cases op with
    | attach n nm =>
      refine key (if n < 0 then [] else [n]) rfl ((attach_is n nm f hx he).mono ?_ (fun _ h => h) (fun _ h => h))
      rintro _ f' ⟨h1, h2, h3, h4⟩
      exact ⟨by rw [h2, show f'.held = if n < 0 then [] else [n] from by rw [File.held, h1]], h3, h4⟩
    | close =>
      refine key [] rfl ((close_is f hx he).mono ?_ (fun _ h => h) (fun _ h => h))
      rintro _ f' ⟨h1, h2, h3, h4⟩
      refine ⟨?_, h3, h4⟩
      rw [h2, show f'.held = [] from by rw [File.held, if_pos h1]]
      simp [File.held]
    | write d =>
      refine key [] rfl ((transfer_keeps (Or.inl ⟨d, rfl⟩) f hx he).mono ?_ (fun _ h => h) (fun _ h => h))
      rintro _ f' ⟨h1, h2, h3, h4⟩
      exact ⟨by rw [h2, show f'.held = f.held from by rw [File.held, h1]; rfl]; simp, h3, h4⟩
    | read n =>
      refine key [] rfl ((transfer_keeps (Or.inr ⟨n, rfl⟩) f hx he).mono ?_ (fun _ h => h) (fun _ h => h))
      rintro _ f' ⟨h1, h2, h3, h4⟩
      exact ⟨by rw [h2, show f'.held = f.held from by rw [File.held, h1]; rfl]; simp, h3, h4⟩

/-- **C60** (partial): a stream that starts with no descriptor, is given some (by `open` or `attach`), closed, written and read in
any order, and destroyed, closes each descriptor it was given exactly once, in order, and no other. What is missing: a
system that interrupts `close` (`close_eintr_violated`) and exceptions switched on (`close_exn_violated`). -/
theorem fd_closed_once_partial (ops : List FOp) (f : File) (h0 : f.fd = -1) (hc : f.closed = []) (hx : f.ios.exc = 0) (he : ∀ a ∈ f.sys, a ≠ .eintr) :
    (lifetime ops f).Is (fun _ f' => f'.closed = given ops) (fun _ => False) (fun f' => f'.closed <+: given ops) := by
  have := lifetime_is ops f hx he
  have hh : f.held = [] := by rw [File.held, if_pos (by rw [h0]; decide)]
  rw [hc, hh] at this
  simpa using this

example : lifetime [.attach 3 [], .write [1], .attach 4 [], .close, .attach 5 []] { fd := -1, sys := [.did 1, .did 0, .did 0, .did 0] } =
    .ret () { fd := -1, sys := [], out := [1], closed := [3, 4, 5] } := by decide

/-- **C60** is false if the system interrupts `close`: the same descriptor is closed again, although (on Linux) it is already
closed and may belong to another thread. -/
theorem close_eintr_violated : ∃ f', lifetime [.attach 3 []] { fd := -1, sys := [.eintr, .did 0] } = .ret () f' ∧ f'.closed = [3, 3] := by
  refine ⟨_, rfl, rfl⟩

/-- **C60** is false with exceptions: if `close` fails it throws before it forgets the descriptor, and the destructor closes it
again. -/
theorem close_exn_violated : ∃ f1 f2 : File, close { fd := 3, sys := [.err, .did 0], ios := { exc := 7 } } = .exn f1 ∧
    destroy f1 = .ret () f2 ∧ f2.closed = [3, 3] := by
  refine ⟨_, _, rfl, rfl, rfl⟩

/-- **C60** is false for `attach (fd())`: the descriptor the stream has after that is closed. -/
theorem attach_self_violated : ∃ f', attach 3 [] { fd := 3, sys := [.did 0] } = .ret () f' ∧ f'.fd = 3 ∧ f'.closed = [3] := by
  refine ⟨_, rfl, rfl, rfl⟩

/-- **C60** (partial): `name()` after `open` or `attach` on a stream that has no descriptor is the name given. What is missing:
a stream that has one (`name_violated`). -/
theorem name_partial (n : Int) (nm : List Byte) (f : File) (h0 : f.fd < 0) (hn : 0 ≤ n) : ∃ f', attach n nm f = .ret () f' ∧ f'.name = nm ∧ f'.fd = n ∧ f'.ios.state = 0 := by
  refine ⟨{ f with name := nm, ios := { f.ios with state := 0 }, fd := n }, ?_, rfl, rfl, rfl⟩
  unfold attach
  rw [modify_bind, P.bind_ret (a := ()) (s' := { f with name := nm, ios := { f.ios with state := 0 } }) (by unfold checkFd; rw [if_neg (by omega)]; rfl),
    P.bind_ret (a := ()) (s' := { f with name := nm, ios := { f.ios with state := 0 } }) (by unfold close; rw [if_pos h0])]
  rfl

example : ∃ f', attach 3 [97] { fd := -1 } = .ret () f' ∧ f'.name = [97] := by
  obtain ⟨f', h, h', _⟩ := name_partial 3 [97] { fd := -1 } (by decide) (by decide)
  exact ⟨f', h, h'⟩

/-- **C60** is false for the name of a stream that is opened again: it is empty, because closing the old file clears it. -/
theorem name_violated : ∃ f', attach 4 [97, 98] { fd := 3, sys := [.did 0] } = .ret () f' ∧ f'.fd = 4 ∧ f'.name = [] := by
  refine ⟨_, rfl, rfl, rfl⟩

end Ustl.File
