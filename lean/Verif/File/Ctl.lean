import Verif.File.Props
/-! # C71: the other system calls of fstream: sync, ioctl, fcntl, set_nonblock, mmap, munmap, msync, stat and size
(fstream.cc:190-263)

Each makes one system call (`set_nonblock` two) and looks at the answer. The system is what it answers; what the calls do
to the file is not modelled. -/
namespace Ustl.File
open Ustl.Stream

/-- `int rv = ::call (...); if (rv < 0) set_and_throw (failbit, name); return rv`, when the system answers `rv`: `ioctl` and
`fcntl`. Models fstream.cc:213-229. -/
def control (rv : Int) : P File Int :=
  if rv < 0 then do raise 4; pure rv else pure rv

/-- `sync ()`, when `fsync` answers `rv`. Models fstream.cc:200-204. -/
def syncFile (rv : Int) : P File Unit := if rv ≠ 0 then raise 5 else pure ()

/-- `stat (rs)`, when `fstat` answers `rv` and stores the size `sz`; it throws without looking at `exceptions ()`. Models
fstream.cc:207-211. -/
def statFile (rv : Int) (sz old : Int) : P File Int := fun f => if rv ≠ 0 then .exn f else .ret (if rv = 0 then sz else old) f

/-- `size ()`. Models fstream.cc:191-197. -/
def sizeFile (rv sz : Int) : P File Int := statFile rv sz 0

/-- A `memlink`: where it is linked to (`none` is `MAP_FAILED`, which is not an address of anything), and the size. Models
memlink.h:29-40. -/
structure Mapping where
  at_ : Option Nat
  size : Nat
deriving DecidableEq, Repr

/-- `mmap (n, offset)`; the answer is an address or `MAP_FAILED`. Models fstream.cc:242-248. -/
def mmap (answer : Option Nat) (n : Nat) : P File Mapping := do
  if answer = none then raise 4 else pure ()
  pure ⟨answer, n⟩

/-- `munmap (l)`: the link is null after it (here of size 0). Models fstream.cc:251-256. -/
def munmap (rv : Int) (_ : Mapping) : P File Mapping := do
  if rv ≠ 0 then raise 4 else pure ()
  pure ⟨some 0, 0⟩

/-- `msync (l)`. Models fstream.cc:259-263. -/
def msync (rv : Int) : P File Unit := if rv ≠ 0 then raise 4 else pure ()

/-- `O_NONBLOCK` on Linux is bit 11. -/
def nonblock : Nat := 0x800

/-- The flags that `set_nonblock (v)` asks for when `F_GETFL` gave `fl`. An `int`, 32 bits. Models fstream.cc:233-235. -/
def wanted (v : Bool) (fl : Int) : BitVec 32 :=
  if v then BitVec.ofInt 32 (max 0 fl) ||| BitVec.ofNat 32 nonblock else BitVec.ofInt 32 (max 0 fl) &&& ~~~ BitVec.ofNat 32 nonblock

/-- What comes of a function that is `noexcept`: an exception ends the program. -/
inductive Ended (σ α : Type) where
  | ret (a : α) (s : σ)
  | terminated
deriving DecidableEq, Repr

/-- `set_nonblock (v)`; the system answers `fl` to `F_GETFL` and `rv` to `F_SETFL`; the result is what it was asked to set.
Models fstream.cc:231-237. -/
def setNonblock (v : Bool) (fl rv : Int) (f : File) : Ended File (BitVec 32) :=
  match (do let _ ← control fl; let _ ← control rv; pure (wanted v fl) : P File (BitVec 32)) f with
  | .ret a f' => .ret a f'
  | _ => .terminated

/-! ## Properties -/

/-- Whether the user hears of it: by an exception if asked for, and by `fail ()` in any case. -/
def Reported (f : File) (r : Option File) : Prop := ∃ f', r = some f' ∧ f'.ios.fail = true ∧ f'.ios.exc = f.ios.exc

/-- The state when the operation is over. -/
def Res.over {σ α : Type} : Res σ α → Option σ
  | .ret _ s => some s
  | .exn s => some s
  | _ => none

/-- Whether it threw. -/
def Res.threw {σ α : Type} : Res σ α → Bool
  | .exn _ => true
  | _ => false

theorem raise_over (v : Nat) (hv : ∀ s e, (⟨s ||| v, e⟩ : Ios).fail = true) (f : File) :
    Reported f (raise v f).over ∧ ((raise v f).threw = true ↔ f.ios.exc &&& v ≠ 0) := by
  unfold raise
  split
  · rename_i h; exact ⟨⟨_, rfl, hv _ _, rfl⟩, by simpa [Res.threw] using h⟩
  · rename_i h; exact ⟨⟨_, rfl, hv _ _, rfl⟩, by simpa [Res.threw] using h⟩

theorem fail_or5 (s e : Nat) : (⟨s ||| 5, e⟩ : Ios).fail = true := by
  simp only [Ios.fail, decide_eq_true_eq]
  intro h
  have := congrArg (fun n => n.testBit 2) h
  simp [Nat.testBit_and, Nat.testBit_or] at this
  exact absurd (this (Or.inr (by decide))) (by decide)

theorem raise_throws {v : Nat} {f : File} (h : f.ios.exc &&& v ≠ 0) :
    raise v f = .exn { f with ios := { f.ios with state := f.ios.state ||| v } } := if_pos h

theorem raise_stays {v : Nat} {f : File} (h : f.ios.exc &&& v = 0) :
    raise v f = .ret () { f with ios := { f.ios with state := f.ios.state ||| v } } := if_neg (by simpa using h)

theorem raise_then {α : Type} (v : Nat) (a : α) (f : File) :
    ((do raise v; pure a : P File α) f).over = (raise v f).over ∧ ((do raise v; pure a : P File α) f).threw = (raise v f).threw := by
  by_cases h : f.ios.exc &&& v = 0
  · rw [P.bind_ret (raise_stays h), raise_stays h]; exact ⟨rfl, rfl⟩
  · rw [P.bind_exn (raise_throws h), raise_throws h]; exact ⟨rfl, rfl⟩

/-- **C71**: a control call that the system refuses is reported, by `fail ()` and, if `failbit` is among `exceptions ()`, by an
exception; one that succeeds returns the system's answer and changes nothing. -/
theorem control_spec (rv : Int) (f : File) :
    (rv < 0 → Reported f (control rv f).over ∧ ((control rv f).threw = true ↔ f.ios.exc &&& 4 ≠ 0)) ∧
    (0 ≤ rv → control rv f = .ret rv f) := by
  constructor
  · intro h
    unfold control
    rw [if_pos h]
    have := raise_then 4 rv f
    rw [this.1, this.2]
    exact raise_over 4 fail_or4 f
  · intro h
    unfold control
    rw [if_neg (by omega)]; rfl

example : control (-1) {} = .ret (-1) { ios := { state := 4, exc := 0 } } := by decide +kernel

/-- **C71**: the same for `sync`, `msync`, `mmap` and `munmap`: a refusal is always reported. -/
theorem refusals_reported (rv : Int) (h : rv ≠ 0) (n : Nat) (l : Mapping) (f : File) :
    Reported f (syncFile rv f).over ∧ Reported f (msync rv f).over ∧ Reported f (mmap none n f).over ∧ Reported f (munmap rv l f).over := by
  refine ⟨?_, ?_, ?_, ?_⟩
  · unfold syncFile; rw [if_pos h]; exact (raise_over 5 fail_or5 f).1
  · unfold msync; rw [if_pos h]; exact (raise_over 4 fail_or4 f).1
  · unfold mmap; rw [if_pos rfl, (raise_then 4 _ f).1]; exact (raise_over 4 fail_or4 f).1
  · unfold munmap; rw [if_pos h, (raise_then 4 _ f).1]; exact (raise_over 4 fail_or4 f).1

example : (mmap none 4096 {}).over = some { ios := { state := 4, exc := 0 } } := by decide +kernel

/-- **C71**: after a `munmap` that returns, the link is empty, also if the system refused. -/
theorem munmap_unlinks (rv : Int) (l : Mapping) (f : File) : (munmap rv l f).Is (fun l' _ => l'.size = 0) (fun f' => rv ≠ 0 ∧ f'.ios.fail = true) (fun _ => False) := by
  unfold munmap
  by_cases h : rv ≠ 0
  · rw [if_pos h]
    refine Res.Is.bind ((raise_is 4 f).mono (R' := fun _ _ => True) (fun _ _ _ => trivial) ?_ (fun _ h => h)) ?_
    · rintro f' ⟨rfl, _⟩; exact ⟨h, fail_or4 _ _⟩
    · intro _ _ _; exact rfl
  · rw [if_neg h]; rfl

example : munmap 0 ⟨some 4096, 16⟩ {} = .ret ⟨some 0, 0⟩ {} := by decide +kernel

/-- **C71** is false of a refused `mmap` with exceptions off, as they are in every new `fstream`: it returns a link that is not
empty and that points nowhere. -/
theorem mmap_violated (n : Nat) (f : File) (hx : f.ios.exc &&& 4 = 0) : ∃ l f', mmap none n f = .ret l f' ∧ l.at_ = none ∧ l.size = n := by
  unfold mmap
  rw [if_pos rfl, P.bind_ret (raise_stays hx)]
  exact ⟨_, _, rfl, rfl, rfl⟩

example : ({} : File).ios.exc &&& 4 = 0 := rfl

/-- **C71**: `stat` and `size` do not return when the system refuses, whatever `exceptions ()` says; otherwise `size ()` is what the
system says. -/
theorem size_spec (rv sz : Int) (f : File) : (rv = 0 → sizeFile rv sz f = .ret sz f) ∧ (rv ≠ 0 → sizeFile rv sz f = .exn f) := by
  constructor
  · intro h; subst h; rfl
  · intro h; exact if_pos h

/-- **C71**: `set_nonblock (v)` asks for the flags that the file has, with `O_NONBLOCK` as given and every other flag as it was. -/
theorem nonblock_flags (v : Bool) (fl : Nat) (h31 : fl < 2 ^ 31) (rv : Int) (hrv : 0 ≤ rv) (f : File) :
    ∃ a, setNonblock v fl rv f = .ret a f ∧ ∀ i, i < 31 → a.getLsbD i = if i = 11 then v else fl.testBit i := by
  unfold setNonblock
  rw [P.bind_ret ((control_spec fl f).2 (Int.natCast_nonneg _)), P.bind_ret ((control_spec rv f).2 hrv)]
  refine ⟨_, rfl, fun i hi => ?_⟩
  have hm : max (0 : Int) (fl : Int) = (fl : Int) := by omega
  have hb : ∀ i, i < 31 → (BitVec.ofInt 32 (fl : Int)).getLsbD i = fl.testBit i := by
    intro i hi
    rw [BitVec.ofInt_natCast, BitVec.getLsbD_ofNat]
    simp; omega
  have hn : (BitVec.ofNat 32 nonblock).getLsbD i = decide (i = 11) := by
    revert hi; revert i; decide
  unfold wanted
  rw [hm]
  cases v
  · rw [if_neg (by simp), BitVec.getLsbD_and, BitVec.getLsbD_not, hb i hi, hn]
    by_cases h : i = 11
    · simp [h]
    · simp [h]; omega
  · rw [if_pos rfl, BitVec.getLsbD_or, hb i hi, hn]
    by_cases h : i = 11 <;> simp [h]

example : setNonblock true 2 0 {} = .ret 0x802 {} ∧ setNonblock false 0x802 0 {} = .ret 2 {} := by decide +kernel

/-- **C71** is false of `set_nonblock` when exceptions are on: it is `noexcept`, so that a refusal is not reported, but ends the
program. -/
theorem nonblock_violated (v : Bool) (fl rv : Int) (h : fl < 0) (f : File) (hx : f.ios.exc &&& 4 ≠ 0) : setNonblock v fl rv f = .terminated := by
  have e : control fl f = .exn { f with ios := { f.ios with state := f.ios.state ||| 4 } } := by
    unfold control
    rw [if_pos h, P.bind_exn (raise_throws hx)]
  unfold setNonblock
  rw [P.bind_exn e]

example : ({ ios := { exc := 7 } } : File).ios.exc &&& 4 ≠ 0 := by decide

end Ustl.File
