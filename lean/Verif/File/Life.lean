import Verif.File.LifeModel
/-! # File streams from construction to destruction (C79) -/
namespace Ustl.File
open Ustl.Stream

/-! ## What the operations of a stream leave alone in its file -/

/-- What `m` may do to the file, if it returns. -/
def Keeps {α : Type} (I : File → File → Prop) (m : P OFS α) : Prop := ∀ o a o', m o = .ret a o' → I o.file o'.file

/-- A relation that each `write` keeps. -/
structure Inert (I : File → File → Prop) : Prop where
  refl : ∀ f, I f f
  trans : ∀ f g h, I f g → I g h → I f h
  write : ∀ d f a f', File.write d f = .ret a f' → I f f'

theorem bind_ret_inv {σ α β : Type} {m : P σ α} {f : α → P σ β} {s s' : σ} {b : β} (h : (m >>= f) s = .ret b s') :
    ∃ a s1, m s = .ret a s1 ∧ f a s1 = .ret b s' := by
  cases e : m s with
  | ret a s1 => rw [P.bind_ret e] at h; exact ⟨a, s1, rfl, h⟩
  | exn s1 => rw [P.bind_exn e] at h; cases h
  | run s1 => rw [P.bind_run e] at h; cases h
  | oob =>
    have : (m >>= f) s = .oob := by
      show (match m s with | .ret a s' => f a s' | .exn s' => .exn s' | .oob => .oob | .run s' => .run s') = _
      rw [e]
    rw [this] at h; cases h

section
variable {I : File → File → Prop} (hI : Inert I)
include hI

theorem Keeps.bind {α β : Type} {m : P OFS α} {f : α → P OFS β} (h : Keeps I m) (hf : ∀ a, Keeps I (f a)) : Keeps I (m >>= f) := by
  intro o b o' e
  obtain ⟨a, o1, e1, e2⟩ := bind_ret_inv e
  exact hI.trans _ _ _ (h _ _ _ e1) (hf a _ _ _ e2)

theorem Keeps.pure {α : Type} (a : α) : Keeps I (Pure.pure a : P OFS α) := by
  intro o b o' e
  cases (show Res.ret a o = Res.ret b o' from e)
  exact hI.refl _

theorem Keeps.look {α : Type} (g : OFS → α) : Keeps I (look g) := by
  intro o b o' e
  cases (show Res.ret (g o) o = Res.ret b o' from e)
  exact hI.refl _

theorem Keeps.modify (g : OFS → OFS) (hg : ∀ o, (g o).file = o.file) : Keeps I (modify g) := by
  intro o b o' e
  cases (show Res.ret () (g o) = Res.ret b o' from e)
  rw [hg]; exact hI.refl _

theorem keeps_spill (n : Nat) : Keeps I (spill n) := by
  intro o b o' e
  unfold spill at e
  split at e
  · obtain ⟨a, o1, e1, e2⟩ := bind_ret_inv e
    have h1 : I o.file o1.file := by
      unfold ofile at e1
      cases ew : write (o.buf.take o.pos) o.file with
      | ret a f => rw [ew] at e1; cases e1; exact hI.write _ _ _ _ ew
      | exn f => rw [ew] at e1; cases e1
      | oob => rw [ew] at e1; cases e1
      | run f => rw [ew] at e1; cases e1
    unfold erase at e2
    split at e2
    · cases e2; exact h1
    · cases e2
  · cases e; exact hI.refl _

theorem keeps_grow (n : Nat) : Keeps I (grow n) := by
  apply Keeps.modify hI
  intro o
  split <;> rfl

theorem keeps_overify (n : Nat) : Keeps I (overify n) := by
  intro o b o' e
  unfold overify at e
  split at e
  · cases e; exact hI.refl _
  · split at e
    · cases e
    · cases e; exact hI.refl _

theorem keeps_overflow (n : Nat) : Keeps I (overflow n) :=
  Keeps.bind hI (keeps_spill hI n) fun _ => Keeps.bind hI (keeps_grow hI n) fun _ => Keeps.bind hI (keeps_overify hI n) fun _ => Keeps.look hI _

theorem keeps_oput (d : List Byte) : Keeps I (oput d) := by
  intro o b o' e
  unfold oput at e
  split at e
  · cases e
  · cases e; exact hI.refl _

theorem keeps_oroom (n : Nat) : Keeps I (oroom n) := by
  refine Keeps.bind hI (Keeps.look hI _) fun r => ?_
  split
  · exact Keeps.pure hI r
  · exact keeps_overflow hI n

theorem keeps_putc (c : Byte) : Keeps I (putc c) := by
  refine Keeps.bind hI (keeps_oroom hI 1) fun r => ?_
  split
  · exact keeps_oput hI [c]
  · exact Keeps.pure hI ()

theorem keeps_write (k : Nat) : ∀ d, Keeps I (owriteLoop k d) := by
  induction k with
  | zero => intro d o b o' e; cases e
  | succ k ih =>
    intro d
    refine Keeps.bind hI (keeps_oroom hI d.length) fun r => ?_
    split
    · exact Keeps.pure hI ()
    · exact Keeps.bind hI (keeps_oput hI _) fun _ => ih _

theorem keeps_print (t : List Byte) (n : Nat) : Keeps I (oprintAt t n) := by
  intro o b o' e
  unfold oprintAt at e
  split at e
  · cases e; exact hI.refl _
  · split at e
    · cases e
    · cases e; exact hI.refl _

theorem keeps_format (k : Nat) : ∀ t, Keeps I (oformatLoop k t) := by
  induction k with
  | zero => intro t o b o' e; cases e
  | succ k ih =>
    intro t
    refine Keeps.bind hI (Keeps.look hI _) fun sp => Keeps.bind hI (keeps_print hI t sp) fun _ => ?_
    split
    · refine Keeps.bind hI (keeps_overflow hI _) fun u => ?_
      split
      · exact ih t
      · exact Keeps.modify hI _ fun _ => rfl
    · exact Keeps.modify hI _ fun _ => rfl

theorem keeps_flush (k : Nat) : Keeps I (flushLoop k) := by
  induction k with
  | zero => intro o b o' e; cases e
  | succ k ih =>
    intro o b o' e
    unfold flushLoop at e
    split at e
    · refine Keeps.bind hI (keeps_overflow hI _) (fun u => ?_) o b o' e
      split
      · exact ih
      · exact Keeps.pure hI ()
    · cases e; exact hI.refl _

theorem keeps_op (op : WOp) : Keeps I op.run := by
  cases op with
  | put c => exact keeps_putc hI c
  | write d => exact keeps_write hI 3 d
  | format t => exact keeps_format hI 2 t
  | flush k => exact keeps_flush hI k

theorem keeps_runAll (ops : List WOp) : Keeps I (runAll ops) := by
  induction ops with
  | nil => exact Keeps.pure hI ()
  | cons op ops ih => exact Keeps.bind hI (keeps_op hI op) fun _ => ih

end

/-- The system takes something at every request, and is not interrupted. -/
def Willing (sys : List Sys) : Prop := ∀ a ∈ sys, ∃ j, a = Sys.did (j + 1)

/-- A file keeps its descriptor, name and what was closed. If the system is willing it stays so, and the state is the same. -/
def Same (f f' : File) : Prop :=
  Kept f f' ∧ (Willing f.sys → Willing f'.sys ∧ f'.ios = f.ios)

theorem same_inert : Inert Same where
  refl f := ⟨Kept.refl f, fun h => ⟨h, rfl⟩⟩
  trans f g h a b := ⟨a.1.trans b.1, fun w => ⟨(b.2 (a.2 w).1).1, ((b.2 (a.2 w).1).2).trans (a.2 w).2⟩⟩
  write d f a f' e := by
    unfold write at e
    obtain ⟨l, f1, e1, e2⟩ := bind_ret_inv e
    cases (show Res.ret (d.length - l.length) f1 = Res.ret a f' from e2)
    have h := writeLoop_is f.sys d f
    rw [e1] at h
    obtain ⟨used, k, h1, h2, w, h3, h4⟩ := h
    refine ⟨w.kept, fun hw => ⟨fun a ha => hw a (by rw [h1]; exact List.mem_append_right _ ha), ?_⟩⟩
    rcases Nat.lt_or_ge k d.length with hk | hk
    · have bad : ∀ a, used.getLast? = some a → ∃ j, a = Sys.did (j + 1) := fun a ha =>
        hw a (by rw [h1]; exact List.mem_append_left _ (List.mem_of_getLast? ha))
      rcases h3 hk with ⟨_, a, ha, ha'⟩ | ⟨h, _⟩
      · obtain ⟨j, rfl⟩ := bad a ha
        simp at ha'
      · obtain ⟨j, hj⟩ := bad _ h
        cases hj
    · exact h4 (Nat.le_antisymm w.le hk)

/-! ## Destruction -/

/-- The descriptor of a file, if closing it is left to the destructor: those of the standard streams are not. -/
def owed (n : Int) : List Int := if n ≤ 2 then [] else [n]

theorem oletGo_eq (o : OFS) : oletGo o = .ret () (if o.file.fd ≤ 2 then { o with file := { o.file with fd := -1, name := [] } } else o) := by
  unfold oletGo
  rw [look_bind]
  by_cases h : o.file.fd ≤ 2
  · simp only [if_pos h]; rfl
  · simp only [if_neg h]; rfl

theorem Is_eq {σ α : Type} {R : α → σ → Prop} {E U : σ → Prop} {r : Res σ α} (h : r.Is R E U) {a : α} {s : σ} (e : r = .ret a s) : R a s := by
  rw [e] at h; exact h

theorem closeLoop_waits (as : List Sys) : ∀ f : File, (closeLoop as f).Is (fun _ _ => True) (fun _ => True) (fun f' => f'.sys = []) := by
  induction as with
  | nil => intro f; exact rfl
  | cons a as ih =>
    intro f
    have bad : (raise 5 { f with sys := as, closed := f.closed ++ [f.fd] }).Is (fun _ _ => True) (fun _ => True) (fun f' => f'.sys = []) :=
      (raise_is 5 _).mono (fun _ _ _ => trivial) (fun _ _ => trivial) (fun _ h => h.elim)
    unfold closeLoop
    cases a with
    | did k => exact trivial
    | eintr => exact ih _
    | eagain => exact bad
    | err => exact bad

theorem close_waits (f : File) : (close f).Is (fun _ _ => True) (fun _ => True) (fun f' => f'.sys = []) := by
  unfold close
  split
  · exact trivial
  · exact (closeLoop_waits f.sys f).bind fun _ _ _ => trivial

/-- The destructor of the file. -/
theorem destroy_is (f : File) (he : ∀ a ∈ f.sys, a ≠ .eintr) : (destroy f).Is
    (fun _ f' => f'.fd < 0 ∧ f'.closed = f.closed ++ f.held ∧ f'.out = f.out) (fun _ => False)
    (fun f' => f'.closed = f.closed ∧ f'.out = f.out ∧ f'.sys = []) := by
  unfold destroy
  rw [modify_bind]
  have a := close_is { f with ios := { state := 0, exc := 0 } } rfl he
  have b := close_out { f with ios := { state := 0, exc := 0 } }
  have c := close_waits { f with ios := { state := 0, exc := 0 } }
  cases e : close { f with ios := { state := 0, exc := 0 } } with
  | ret u f' => rw [e] at a b; exact ⟨a.1, a.2.1, b.1⟩
  | exn f' => rw [e] at a; exact a.elim
  | oob => rw [e] at a; exact a.elim
  | run f' => rw [e] at a b c; exact ⟨a, b, c⟩

/-- What the destructor does after the flush. -/
theorem letGo_destroy_is (o : OFS) (he : ∀ a ∈ o.file.sys, a ≠ .eintr) : ((do oletGo; ofile destroy : P OFS Unit) o).Is
    (fun _ o' => o'.file.fd < 0 ∧ o'.file.closed = o.file.closed ++ owed o.file.fd ∧ o'.file.out = o.file.out ∧ o'.pend = o.pend ∧ o'.ios = o.ios) (fun _ => False)
    (fun o' => o'.file.closed = o.file.closed ∧ o'.file.out = o.file.out ∧ o'.file.sys = []) := by
  rw [P.bind_ret (oletGo_eq o)]
  by_cases h : o.file.fd ≤ 2
  · rw [if_pos h]
    refine (ofile_is (destroy_is _ (by exact he))).mono ?_ ?_ ?_
    · rintro _ o' ⟨f, rfl, a, b, c⟩
      exact ⟨a, by show f.closed = _; rw [b]; simp [File.held, owed, h], c, rfl, rfl⟩
    · rintro o' ⟨f, rfl, h⟩; exact h
    · rintro o' ⟨f, rfl, h⟩; exact h
  · rw [if_neg h]
    refine (ofile_is (destroy_is _ he)).mono ?_ ?_ ?_
    · rintro _ o' ⟨f, rfl, a, b, c⟩
      exact ⟨a, by show f.closed = _; rw [b]; simp only [File.held, owed, if_neg h, if_neg (show ¬ o.file.fd < 0 by omega)], c, rfl, rfl⟩
    · rintro o' ⟨f, rfl, h⟩; exact h
    · rintro o' ⟨f, rfl, h⟩; exact h

theorem willing_eintr {s : List Sys} (h : Willing s) : ∀ a ∈ s, a ≠ .eintr := by
  intro a ha; obtain ⟨j, rfl⟩ := h a ha; simp

theorem willing_flush {s : List Sys} (h : Willing s) : ∀ a ∈ s, a = .eintr ∨ ∃ j, a = .did (j + 1) := fun a ha => Or.inr (h a ha)

theorem otry_ret {m : P OFS Unit} {o : OFS} {R : Unit → OFS → Prop} {U : OFS → Prop} (h : (m o).Is R (fun _ => False) U) : (otry m o).Is R (fun _ => False) U := by
  unfold otry
  cases e : m o with
  | ret a o' => rw [e] at h; exact h
  | exn o' => rw [e] at h; exact h.elim
  | oob => rw [e] at h; exact h
  | run o' => rw [e] at h; exact h

/-- Two facts about one outcome. -/
theorem Res.Is.keep {α : Type} {I : File → File → Prop} {m : P OFS α} {o : OFS} {R : α → OFS → Prop} {E U : OFS → Prop} (h : (m o).Is R E U) (k : Keeps I m) :
    (m o).Is (fun a o' => R a o' ∧ I o.file o'.file) E U := by
  cases e : m o with
  | ret a o' => rw [e] at h; exact ⟨h, k _ _ _ e⟩
  | exn o' => rw [e] at h; exact h
  | oob => rw [e] at h; exact h
  | run o' => rw [e] at h; exact h

theorem Res.Is.and {σ α : Type} {r : Res σ α} {R R' : α → σ → Prop} {E E' U U' : σ → Prop} (h : r.Is R E U) (h' : r.Is R' E' U') :
    r.Is (fun a s => R a s ∧ R' a s) (fun s => E s ∧ E' s) (fun s => U s ∧ U' s) := by
  cases r with
  | ret a s => exact ⟨h, h'⟩
  | exn s => exact ⟨h, h'⟩
  | oob => exact h
  | run s => exact ⟨h, h'⟩

/-- **C79**: destroying a stream on a willing system delivers what it holds, closes its descriptor once unless that is one of
the standard three, and throws nothing; if it has not returned, it waits for the system. -/
theorem ofstream_destroy (k : Nat) (o : OFS) (h : o.Ok) (hg : o.file.good = true) (hw : Willing o.file.sys) : (odestroy (k + 2) o).Is
    (fun _ o' => o'.file.out = o.file.out ++ o.pend ∧ o'.file.closed = o.file.closed ++ owed o.file.fd ∧ o'.file.fd < 0) (fun _ => False)
    (fun o' => o'.file.out <+: o.file.out ++ o.pend ∧ o'.file.sys = []) := by
  unfold odestroy
  have h1 := ((flush_ends k o h hg (willing_flush hw)).and (flush_spec (k + 2) o h)).keep (keeps_flush same_inert (k + 2))
  refine Res.Is.bind (otry_ret (h1.mono (fun _ _ h => h) (fun _ h => h.1) (fun _ h => ⟨h.2, h.1⟩))) ?_
  rintro _ o1 ⟨⟨⟨a1, a2⟩, _⟩, a3, a4⟩
  refine (letGo_destroy_is o1 (willing_eintr (a4 hw).1)).mono ?_ (fun _ h => h) ?_
  · rintro _ o2 ⟨b1, b2, b3, b4, _⟩
    exact ⟨by rw [b3, a1], by rw [b2, a3.closed, a3.fd], b1⟩
  · rintro o2 ⟨b1, b2, b3⟩
    exact ⟨by rw [b2, a1]; exact List.prefix_refl _, b3⟩

example : (match odestroy 2 { buf := [97, 98], pos := 2, cap := 4, file := { fd := 5, sys := [.did 1, .did 1, .did 1] } } with
    | .ret _ o' => decide (o'.file.out = [97, 98] ∧ o'.file.closed = [5])
    | _ => false) = true := by decide +kernel

/-! ## The whole life -/

/-- The descriptor a constructor is given. -/
def OCtor.given : OCtor → Int
  | .none => -1
  | .fd n => n
  | .file n _ => n

theorem attach_new (n : Int) (nm : List Byte) (f : File) (h0 : f.fd < 0) (hx : f.ios.exc = 0) :
    attach n nm f = .ret () { f with name := nm, ios := { state := if n < 0 then 1 else 0, exc := 0 }, fd := n } := by
  obtain ⟨⟨st, ex⟩, fd, nm0, sys, out, src, mem, cl⟩ := f
  cases (show ex = 0 from hx)
  have h0 : fd < 0 := h0
  unfold attach checkFd
  rw [modify_bind]
  by_cases hn : n < 0
  · rw [if_pos hn]
    simp only [if_pos hn]
    rw [P.bind_ret (show raise 1 _ = Res.ret () (File.mk ⟨1, 0⟩ fd nm sys out src mem cl) by simp [raise])]
    rw [P.bind_ret (a := ()) (s' := File.mk ⟨1, 0⟩ fd nm sys out src mem cl) (by unfold close; rw [if_pos h0])]
    rfl
  · rw [if_neg hn]
    simp only [if_neg hn]
    rw [pure_bind', P.bind_ret (a := ()) (s' := File.mk ⟨0, 0⟩ fd nm sys out src mem cl) (by unfold close; rw [if_pos h0])]
    rfl

/-- What a constructor makes. -/
theorem octor_is (c : OCtor) (sys : List Sys) : ∃ o, c.run (.blank sys) = .ret () o ∧ o.buf = [] ∧ o.pos = 0 ∧ o.ios.exc = 0 ∧
    o.file.ios = o.ios ∧ (0 ≤ c.given → o.ios.state = 0) ∧ (c.given < 0 → c ≠ .none → o.ios.state = 1) ∧ o.file.fd = c.given ∧ o.file.sys = sys ∧
    o.file.out = [] ∧ o.file.closed = [] := by
  cases c with
  | none => exact ⟨_, rfl, rfl, rfl, rfl, rfl, fun _ => rfl, fun _ h => absurd rfl h, rfl, rfl, rfl, rfl⟩
  | fd n =>
    show ∃ o, (ofile (attach n []) >>= fun _ => osync >>= fun _ => oreserve) (.blank sys) = _ ∧ _
    rw [P.bind_ret (by unfold ofile; rw [attach_new n [] _ (by show (-1 : Int) < 0; decide) rfl])]
    exact ⟨_, rfl, rfl, rfl, rfl, rfl, fun h => if_neg (Int.not_lt.2 h), fun h _ => if_pos h, rfl, rfl, rfl, rfl⟩
  | file n nm =>
    show ∃ o, (ofile (attach n nm) >>= fun _ => osync) (.blank sys) = _ ∧ _
    rw [P.bind_ret (by unfold ofile; rw [attach_new n nm _ (by show (-1 : Int) < 0; decide) rfl])]
    exact ⟨_, rfl, rfl, rfl, rfl, rfl, fun h => if_neg (Int.not_lt.2 h), fun h _ => if_pos h, rfl, rfl, rfl, rfl⟩

/-- **C79** (partial): a stream that is constructed on a descriptor or a file, written to and destroyed, on a willing system:
all that was written is in the file, in order and once, and its descriptor was closed once, unless it is one of the standard
three. If it has not returned, what is in the file is the beginning of that. What is missing: systems that fail
(`destroy_failed_violated`), files that get one of the first three numbers (`low_fd_violated`) and streams that were never
opened (`unopened_violated`). -/
theorem ofstream_life_partial (c : OCtor) (ops : List WOp) (k : Nat) (sys : List Sys) (hn : 0 ≤ c.given) (hw : Willing sys) :
    (olife c ops (k + 2) (.blank sys)).Is
    (fun _ o' => o'.file.out = (ops.map WOp.text).flatten ∧ o'.file.closed = owed c.given) (fun _ => False)
    (fun o' => o'.file.out <+: (ops.map WOp.text).flatten) := by
  obtain ⟨o, e, hb, hp, hx, hf, hs, _, hfd, hsys, hout, hcl⟩ := octor_is c sys
  unfold olife
  rw [P.bind_ret e]
  have hst : o.ios.state = 0 := hs hn
  have hok : o.Ok := ⟨by rw [hp]; exact Nat.zero_le _, Or.inl hb, hst, by rw [hf]; exact hx⟩
  have hall : o.file.out ++ o.pend = [] := by rw [hout, OFS.pend, hb, hp]; rfl
  refine Res.Is.bind (((ofstream_history ops o hok).keep (keeps_runAll same_inert ops)).mono (fun _ _ h => h) (fun _ h => h) ?_) ?_
  · intro o' h; rw [hall] at h; exact h
  · rintro _ o1 ⟨⟨a1, a2⟩, a3, a4⟩
    obtain ⟨a5, a6⟩ := a4 (by rw [hsys]; exact hw)
    have hg : o1.file.good = true := by show decide (o1.file.ios.state = 0) = true; rw [a6, hf, hst]; rfl
    rw [hall] at a2
    refine (ofstream_destroy k o1 a1 hg a5).mono ?_ (fun _ h => h) ?_
    · rintro _ o2 ⟨b1, b2, _⟩
      exact ⟨by rw [b1, a2]; rfl, by rw [b2, a3.closed, a3.fd, hcl, hfd]; rfl⟩
    · rintro o2 ⟨b1, _⟩; rw [a2] at b1; exact b1

example : (match olife (.file 4 [120]) [.put 97, .write [98, 99], .flush 2, .format [100]] 2 (.blank [.did 1, .did 2, .did 9, .did 1]) with
    | .ret _ o' => decide (o'.file.out = [97, 98, 99, 100] ∧ o'.file.closed = [4])
    | _ => false) = true := by decide +kernel

example (k : Nat) (sys : List Sys) (hw : Willing sys) : (olife (.fd 1) [.put 97] (k + 2) (.blank sys)).Is
    (fun _ o' => o'.file.out = [97] ∧ o'.file.closed = []) (fun _ => False) (fun o' => o'.file.out <+: [97]) :=
  (ofstream_life_partial (.fd 1) [.put 97] k sys (show (0 : Int) ≤ 1 by decide) hw).mono (fun _ _ h => h) (fun _ h => h) (fun _ h => h)

example : Willing [.did 1, .did 7] := by
  intro a ha
  rcases List.mem_cons.1 ha with rfl | ha
  · exact ⟨0, rfl⟩
  · exact ⟨6, List.mem_singleton.1 ha⟩

/-- **C79** is false for a file that gets one of the first three numbers because they were free: it is never closed. -/
theorem low_fd_violated : (match olife (.file 2 [120]) [.put 97] 2 (.blank [.did 1, .did 1]) with
    | .ret _ o' => decide (o'.file.out = [97] ∧ o'.file.closed = [])
    | _ => false) = true := by decide +kernel

/-- **C79** is false for a file that fails: the destructor does not return, however long one watches, and takes more and more
memory. -/
theorem destroy_failed_violated (k : Nat) : ∃ o', odestroy k { buf := [97], pos := 1, cap := 2, file := { ios := { state := 4, exc := 0 } } } = .run o' ∧ 2 + k ≤ o'.cap := by
  obtain ⟨o', e, _, _, h, _⟩ := flush_violated k { buf := [97], pos := 1, cap := 2, file := { ios := { state := 4, exc := 0 } } }
    ⟨by decide, Or.inr (by decide), rfl, rfl⟩ rfl (by decide)
  refine ⟨o', ?_, h⟩
  unfold odestroy
  rw [P.bind_run (by unfold otry; rw [e])]

end Ustl.File
