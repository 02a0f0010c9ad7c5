import Verif.File.Ofs
import Verif.File.Fd
/-! # ofstream: closing (C58) -/
namespace Ustl.File
open Ustl.Stream

theorem closeLoop_out (as : List Sys) : ∀ f : File, (closeLoop as f).Is (fun _ f' => f'.out = f.out) (fun f' => f'.out = f.out) (fun f' => f'.out = f.out) := by
  induction as with
  | nil => intro f; exact rfl
  | cons a as ih =>
    intro f
    have bad : (raise 5 { f with sys := as, closed := f.closed ++ [f.fd] }).Is (fun _ f' => f'.out = f.out) (fun f' => f'.out = f.out) (fun f' => f'.out = f.out) :=
      (raise_is 5 _).mono (fun _ _ h => by rw [h.1]) (fun _ h => by rw [h.1]) (fun _ h => h.elim)
    unfold closeLoop
    cases a with
    | did k => exact rfl
    | eintr => exact ih _
    | eagain => exact bad
    | err => exact bad

/-- `close` writes nothing, and does not leave the stream with a descriptor. -/
theorem close_out (f : File) : (close f).Is (fun _ f' => f'.out = f.out ∧ f'.fd < 0) (fun f' => f'.out = f.out) (fun f' => f'.out = f.out) := by
  unfold close
  split
  · rename_i h; exact ⟨rfl, h⟩
  · refine (closeLoop_out f.sys f).bind ?_
    intro _ f' h; exact ⟨h, by show (-1 : Int) < 0; decide⟩

/-- **C58**: when `close` of a stream whose file is good returns, everything written is in the file, nothing is left in the
buffer and the file is closed. Whatever happens, what the file was given is the beginning of what was written. -/
theorem ofstream_close_spec (k : Nat) (o : OFS) (h : o.Ok) (hg : o.file.ios.state = 0) : (oclose k o).Is
    (fun _ o' => o'.file.out = o.file.out ++ o.pend ∧ o'.pend = [] ∧ o'.file.fd < 0)
    (fun o' => o'.file.out <+: o.file.out ++ o.pend) (fun o' => o'.file.out <+: o.file.out ++ o.pend) := by
  unfold oclose
  rw [look_bind, oclear, modify_bind, hg]
  have e : ({ o with ios := { o.ios with state := 0 }, file := { o.file with ios := { o.file.ios with state := 0 } } } : OFS) = o := by
    obtain ⟨buf, pos, cap, ⟨st, ex⟩, file, junk⟩ := o
    obtain ⟨⟨fs, fe⟩, _, _, _, _, _, _, _⟩ := file
    have h1 : st = 0 := h.good
    have h2 : fs = 0 := hg
    subst h1 h2
    rfl
  rw [e]
  refine ((flush_spec k o h).mono (fun _ _ h => h) (fun _ h => h.elim) (fun _ h => h)).bind ?_
  rintro _ o1 ⟨_, b2, b3⟩
  refine (ofile_is (close_out o1.file)).mono ?_ ?_ ?_
  · rintro _ o2 ⟨f, rfl, c1, c2⟩; exact ⟨by show f.out = _; rw [c1, b2], b3, c2⟩
  · rintro o2 ⟨f, rfl, c1⟩; show f.out <+: _; rw [c1, b2]; exact List.prefix_refl _
  · rintro o2 ⟨f, rfl, c1⟩; show f.out <+: _; rw [c1, b2]; exact List.prefix_refl _

example : (match oclose 2 { buf := [97, 98], pos := 2, cap := 4, file := { sys := [.did 1, .did 1, .did 0] } } with
    | .ret _ o' => decide (o'.file.out = [97, 98] ∧ o'.pend = [] ∧ o'.file.fd < 0)
    | _ => false) = true := by decide +kernel

/-- **C58**: `close` of a stream whose file has failed writes nothing, keeps the text, and the stream is not good after it: the user
can see that the text was not written. -/
theorem ofstream_close_failed (k : Nat) (o : OFS) (hb : o.file.ios.state ≠ 0) : (oclose (k + 1) o).Is
    (fun _ o' => o'.file.out = o.file.out ∧ o'.pend = o.pend ∧ o'.ios.state ≠ 0)
    (fun o' => o'.file.out = o.file.out ∧ o'.ios.state ≠ 0) (fun o' => o'.file.out = o.file.out) := by
  unfold oclose
  rw [look_bind, oclear, modify_bind]
  refine Res.Is.bind (R := fun _ o1 => o1.file.out = o.file.out ∧ o1.pend = o.pend ∧ o1.ios.state ≠ 0) ?_ ?_
  · unfold flushLoop
    rw [if_neg (fun h => hb h.1)]
    exact ⟨rfl, rfl, hb⟩
  · rintro _ o1 ⟨b1, b2, b3⟩
    refine (ofile_is (close_out o1.file)).mono ?_ ?_ ?_
    · rintro _ o2 ⟨f, rfl, c1, c2⟩; exact ⟨by show f.out = _; rw [c1, b1], b2, b3⟩
    · rintro o2 ⟨f, rfl, c1⟩; exact ⟨by show f.out = _; rw [c1, b1], b3⟩
    · rintro o2 ⟨f, rfl, c1⟩; show f.out = _; rw [c1, b1]

example : (match oclose 2 { buf := [97, 98], pos := 2, cap := 4, file := { sys := [.did 0], ios := { state := 4, exc := 0 } } } with
    | .ret _ o' => decide (o'.file.out = [] ∧ o'.pend = [97, 98] ∧ o'.ios.state = 4)
    | _ => false) = true := by decide +kernel

/-- **C58** is false when the system reports an error only at `close`: the state of the stream stays good, so the user does not
see that the data may be lost. (`file()` has it.) -/
theorem ofstream_close_violated : (match oclose 2 { buf := [97], pos := 1, cap := 4, file := { sys := [.did 1, .err] } } with
    | .ret _ o' => decide (o'.ios.state = 0 ∧ o'.file.ios.state = 5)
    | _ => false) = true := by decide +kernel

/-- **C58** is false when the user asked the file for exceptions: if a `write` was taken in part and then failed, the part is
written again after the error is cleared. -/
theorem ofstream_retry_violated : (match flushLoop 2 { buf := [97, 98], pos := 2, cap := 4, file := { sys := [.did 1, .err, .did 9], ios := { exc := 4 } } } with
    | .exn o' => match (do oclear 0; flushLoop 2 : P OFS Unit) o' with
      | .ret _ o2 => decide (o2.file.out = [97, 97, 98])
      | _ => false
    | _ => false) = true := by decide +kernel

end Ustl.File
