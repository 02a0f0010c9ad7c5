import Verif.File.IfsProps
/-! # ifstream: changing the size of the buffer (C59) -/
namespace Ustl.File
open Ustl.Stream
open Text (TIS)

/-- `set_buffer_size (sz)`; `b` is what the buffer of `sz` bytes contains then (0xcd everywhere, unless `NDEBUG` is defined; then old contents
and whatever the memory had). `link` puts the stream at the start of nothing. Models ofstream.cc:118-125, mistream.h:70, cmemlink.cc:18-24, mistream.cc:32. -/
def isetBuffer (b : List Byte) : P IFS Unit := modify fun s => { s with buf := b, lim := 0, pos := 0 }

/-- **C59**: after `set_buffer_size` the stream is in working order, has the same file, state, delimiters and `gcount ()`, and what it reads
next is what has not been read from the file yet. -/
theorem set_buffer_spec (b : List Byte) {s : IFS} (h : s.Ok) : ∃ s', isetBuffer b s = .ret () s' ∧ s'.Ok ∧ s'.buf.length = b.length ∧ s'.file = s.file ∧
    s'.ios = s.ios ∧ s'.delims = s.delims ∧ s'.gcount = s.gcount ∧ s'.remaining = 0 ∧ s'.ahead = s.file.src :=
  ⟨_, rfl, ⟨Nat.le_refl _, Nat.zero_le _, h.exc, h.fexc, h.sys, h.same, h.state⟩, rfl, rfl, rfl, rfl, rfl, rfl, by simp [IFS.ahead, IFS.unread]⟩

/-- **C59** (partial): if everything that was fetched from the file has been read, changing the size of the buffer, to anything, makes no difference
to what is read afterwards: it is what a string with the rest of the file gives. What is missing: see `set_buffer_violated`. -/
theorem set_buffer_partial (b : List Byte) (ops : List RdOp) {s : IFS} {t : TIS} (r : Rel s t) (hr : s.remaining = 0)
    (l : List (List Byte)) (t' : TIS) (ht : stringAll ops t = .ret l t') :
    (do isetBuffer b; fileAll ops : P IFS (List (List Byte))) s |>.Is
      (fun l' s' => l' = l ∧ s'.ahead = t'.unread ∧ s'.ios.state = t'.is.ios.state ∧ s'.gcount = t'.gcount) (fun _ => False) (fun s' => s'.file.sys = []) := by
  obtain ⟨s1, e1, ok, _, _, hi, hd, hg, _, ha⟩ := set_buffer_spec b r.ok
  have hu : s.unread = [] := List.length_eq_zero_iff.mp (by rw [r.ok.len, hr])
  have r1 : Rel s1 t := ⟨ok, r.tok, by rw [r.text, ha, IFS.ahead, hu]; rfl, by rw [r.del, hd], by rw [r.gc, hg], by rw [r.st, hi]⟩
  rw [P.bind_ret e1]
  have := sim_all ops s1 t r1
  cases e : fileAll ops s1 with
  | ret l1 s2 =>
    rw [e] at this
    obtain ⟨t1, e2, r2⟩ := this
    rw [ht] at e2
    injection e2 with e2 e3
    subst e2 e3
    exact ⟨rfl, r2.text.symm, r2.st.symm, r2.gc.symm⟩
  | exn _ => rw [e] at this; exact this.elim
  | oob => rw [e] at this; replace this : stringAll ops t = .oob := this; rw [ht] at this; cases this
  | run _ => rw [e] at this; exact this

example : (match (do isetBuffer [0, 0]; fileAll [.getline 10, .getline 10] : P IFS (List (List Byte)))
      (.ofFile { src := [97, 98, 99, 10, 100, 10], sys := [.did 9, .did 9, .did 9, .did 9] }) with
    | .ret l _ => decide (l = [[97, 98, 99], [100]])
    | _ => false) = true := by decide +kernel

example : (match (do let a ← igetlineStr 10; isetBuffer (List.replicate 2 205); let b ← igetlineStr 10; pure (a, b) : P IFS (List Byte × List Byte))
    (.ofFile { src := [97, 10, 98, 98, 98, 10], sys := [.did 2, .did 9, .did 1, .did 9] } 9) with
  | .ret r _ => decide (r = ([97], [98, 98, 98]))
  | _ => false) = true := by decide +kernel

/-- **C59** is false for a stream that has fetched more than was read: what is in the buffer is lost, exactly that. -/
theorem set_buffer_violated (b : List Byte) {s : IFS} (h : s.Ok) (hr : s.remaining ≠ 0) : ∃ s', isetBuffer b s = .ret () s' ∧ s'.ahead ≠ s.ahead ∧
    s.ahead = s.unread ++ s'.ahead := by
  obtain ⟨s1, e1, _, _, _, _, _, _, _, ha⟩ := set_buffer_spec b h
  refine ⟨s1, e1, fun e => ?_, by rw [ha]; rfl⟩
  have := congrArg List.length e
  rw [ha, IFS.ahead, List.length_append, h.len] at this
  omega

example : (match (do let a ← igetlineStr 10; isetBuffer (List.replicate 9 0); let b ← igetlineStr 10; pure (a, b) : P IFS (List Byte × List Byte))
    (.ofFile { src := [97, 10, 98, 10, 99, 10], sys := [.did 4, .did 9] } 9) with
  | .ret r _ => decide (r = ([97], [99]))
  | _ => false) = true := by decide +kernel

end Ustl.File
