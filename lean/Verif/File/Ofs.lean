import Verif.File.Props
/-! # ofstream: what is written reaches the file (C58), for every behaviour of the system -/
namespace Ustl.File
open Ustl.Stream

/-- What was written to the stream and has not been given to the system. -/
def OFS.pend (o : OFS) : List Byte := o.buf.take o.pos

/-- Everything written: what the file has, and what the buffer has. -/
def OFS.all (o : OFS) : List Byte := o.file.out ++ o.pend

/-- A stream in working order; nothing is said about the state of the file. -/
structure OFS.Ok (o : OFS) : Prop where
  /-- the position is in the buffer -/
  pos : o.pos ≤ o.buf.length
  /-- the buffer has room for a terminating zero -/
  cap : o.buf = [] ∨ o.buf.length < o.cap
  /-- the state of the stream is good -/
  good : o.ios.state = 0
  /-- the file does not throw -/
  exc : o.file.ios.exc = 0

theorem growTo_length (j : Nat → Byte) (b : List Byte) (n : Nat) : (Text.growTo j b n).length = n := by
  simp [Text.growTo]; omega

theorem growTo_take (j : Nat → Byte) (b : List Byte) {p n : Nat} (h : p ≤ b.length) (hn : p ≤ n) : (Text.growTo j b n).take p = b.take p := by
  rw [Text.growTo, List.take_append_of_le_length (by simp; omega), List.take_take, Nat.min_eq_left hn]

theorem grow_is {o : OFS} (h : o.Ok) (n : Nat) : ∃ o', grow n o = .ret () o' ∧ o'.Ok ∧ o'.pend = o.pend ∧ o'.file = o.file ∧ n ≤ o'.remaining ∧ o'.pos = o.pos ∧
    o.cap ≤ o'.cap ∧ (o.remaining < n → o'.buf.length = o.pos + n) := by
  refine ⟨_, rfl, ?_⟩
  dsimp only
  split
  · rename_i hc
    have hlen := growTo_length o.junk o.buf (o.pos + n)
    have hcap : o.pos + n < newCap o.cap (o.pos + n) ∧ o.cap ≤ newCap o.cap (o.pos + n) := by
      unfold newCap
      split
      · omega
      · have := Nat.lt_log2_self (n := o.pos + n); rw [Nat.add_comm _ 1] at this; omega
    refine ⟨⟨by show o.pos ≤ (Text.growTo _ _ _).length; omega, Or.inr (by show (Text.growTo _ _ _).length < newCap _ _; omega), h.good, h.exc⟩, ?_, rfl, ?_, rfl, hcap.2, fun _ => hlen⟩
    · exact growTo_take _ _ h.pos (Nat.le_add_right _ _)
    · show n ≤ (Text.growTo _ _ _).length - o.pos; omega
  · rename_i hc
    have : n ≤ o.remaining := by
      by_cases hn : n ≤ o.remaining
      · exact hn
      · exact absurd ⟨by omega, Or.inl h.good⟩ hc
    exact ⟨h, rfl, rfl, this, rfl, Nat.le_refl _, fun hlt => by omega⟩

theorem write_is (d : List Byte) (f : File) (hx : f.ios.exc = 0) : (write d f).Is
    (fun k f' => Wrote f f' d k ∧ ∃ used, f.sys = used ++ f'.sys ∧ (k < d.length → ∃ a ∈ used, a = .err ∨ a = .did 0 ∨ a = .eagain))
    (fun _ => False)
    (fun f' => f'.out <+: f.out ++ d ∧ f'.sys = []) := by
  unfold write
  refine Res.Is.bind ((writeLoop_is f.sys d f).mono (fun _ _ h => h) ?_ ?_) ?_
  · rintro f' ⟨k, w, h1, h2, h3⟩; apply h3; rw [hx]; exact Nat.zero_and 6
  · rintro f' ⟨k, w, h1, h2, h3, h4⟩
    refine ⟨?_, h3⟩
    rw [w.out]
    exact (List.prefix_append_right_inj _).2 (List.take_prefix _ _)
  · rintro l f' ⟨used, k, h1, rfl, w, h2, h3⟩
    have hk : d.length - (d.drop k).length = k := by have := w.le; simp; omega
    apply Res.Is.pure
    rw [hk]
    refine ⟨w, used, h1, fun hlt => ?_⟩
    rcases h2 hlt with ⟨_, a, ha, ha'⟩ | ⟨h, _⟩
    · exact ⟨a, List.mem_of_getLast? ha, by rcases ha' with h | h <;> simp [h]⟩
    · exact ⟨_, List.mem_of_getLast? h, by simp⟩

theorem ofile_is {α : Type} {m : P File α} {o : OFS} {R : α → File → Prop} {E U : File → Prop} (h : (m o.file).Is R E U) :
    (ofile m o).Is (fun a o' => ∃ f, o' = { o with file := f } ∧ R a f) (fun o' => ∃ f, o' = { o with file := f } ∧ E f)
      (fun o' => ∃ f, o' = { o with file := f } ∧ U f) := by
  unfold ofile
  cases e : m o.file with
  | ret a f => rw [e] at h; exact ⟨f, rfl, h⟩
  | exn f => rw [e] at h; exact ⟨f, rfl, h⟩
  | oob => rw [e] at h; exact h
  | run f => rw [e] at h; exact ⟨f, rfl, h⟩

/-- The buffer and the file together hold the same as before. -/
theorem spill_is {o : OFS} (h : o.Ok) (n : Nat) : (spill n o).Is
    (fun _ o' => o'.Ok ∧ o'.all = o.all ∧ o'.buf.length = o.buf.length ∧ o'.cap = o.cap ∧ o'.pos ≤ o.pos ∧
      (o.file.good = false → o' = o) ∧
      (n > o.capacity - o.pos → o.file.good = true → o'.pos = 0 ∨ ∃ a ∈ o.file.sys, a = .err ∨ a = .did 0 ∨ a = .eagain))
    (fun _ => False) (fun o' => o'.file.out <+: o.all ∧ o'.file.sys = [] ∧ o.file.good = true) := by
  unfold spill
  split
  · rename_i hc
    refine Res.Is.bind ((ofile_is (write_is (o.buf.take o.pos) o.file h.exc)).mono (fun _ _ h => h) ?_ ?_) ?_
    · rintro o' ⟨f, _, hf⟩; exact hf
    · rintro o' ⟨f, rfl, hf⟩; exact ⟨hf.1, hf.2, hc.1⟩
    · rintro k o' ⟨f, rfl, w, used, h3, h4⟩
      have hpos := h.pos
      have hl : (o.buf.take o.pos).length = o.pos := by simp; omega
      have hk : k ≤ o.pos := by have := w.le; omega
      unfold erase
      rw [if_pos (by simp only; omega)]
      have hg : o.file.ios.state = 0 := by simpa [File.good] using hc.1
      refine ⟨⟨?_, ?_, h.good, w.kept.exc.trans h.exc⟩, ?_, ?_, rfl, Nat.sub_le _ _, ?_, ?_⟩
      · simp only [List.length_append, List.length_drop, List.length_take]; omega
      · simp only [List.length_append, List.length_drop, List.length_take]
        rcases h.cap with h | h
        · left; rw [h]; simp
        · right; omega
      · show f.out ++ (o.buf.drop k ++ o.buf.take k).take (o.pos - k) = o.file.out ++ o.buf.take o.pos
        rw [w.out, List.take_append_of_le_length (by simp; omega), List.append_assoc]
        congr 1
        rw [List.take_take, Nat.min_eq_left hk, ← List.take_append_drop k (o.buf.take o.pos), List.take_take, Nat.min_eq_left hk, List.drop_take]
      · simp only [List.length_append, List.length_drop, List.length_take]; omega
      · intro hb; rw [hc.1] at hb; cases hb
      · intro _ _
        by_cases hk' : k = o.pos
        · left; show o.pos - k = 0; omega
        · right
          obtain ⟨a, ha, ha'⟩ := h4 (by omega)
          exact ⟨a, by rw [h3]; exact List.mem_append_left _ ha, ha'⟩
  · rename_i hc
    refine ⟨h, rfl, rfl, rfl, Nat.le_refl _, fun _ => rfl, fun h1 h2 => absurd ⟨h2, h1⟩ hc⟩

/-- `overflow` on a stream in working order makes room and loses nothing. -/
theorem overflow_is {o : OFS} (h : o.Ok) (n : Nat) : (overflow n o).Is
    (fun r o' => o'.Ok ∧ o'.all = o.all ∧ n ≤ r ∧ r = o'.remaining ∧ o.cap ≤ o'.cap ∧ o'.pos ≤ o.pos ∧
      (o.file.good = false → o'.file = o.file ∧ o'.pend = o.pend ∧ o'.pos = o.pos ∧ (o.remaining < n → o'.buf.length = o.pos + n)) ∧
      (n > o.capacity - o.pos → o.file.good = true → o'.pos = 0 ∨ ∃ a ∈ o.file.sys, a = .err ∨ a = .did 0 ∨ a = .eagain))
    (fun _ => False) (fun o' => o'.file.out <+: o.all ∧ o'.file.sys = [] ∧ o.file.good = true) := by
  unfold overflow
  refine (spill_is h n).bind ?_
  rintro _ o1 ⟨a1, a2, a3, a4, a5, a6, a7⟩
  obtain ⟨o2, e2, b1, b2, b3, b4, b5, b6, b7⟩ := grow_is a1 n
  rw [P.bind_ret e2, P.bind_ret (a := ()) (s' := o2) (by unfold overify; rw [if_pos b4])]
  refine ⟨b1, by rw [← a2, OFS.all, OFS.all, b2, b3], b4, rfl, by rw [← a4]; exact b6, by rw [b5]; exact a5, ?_, ?_⟩
  · intro hb
    have := a6 hb
    subst this
    exact ⟨b3, b2, b5, b7⟩
  · intro h1 h2
    rw [b5]; exact a7 h1 h2

theorem oput_is {o : OFS} (h : o.Ok) {d : List Byte} (hd : d.length ≤ o.remaining) : ∃ o', oput d o = .ret () o' ∧ o'.Ok ∧ o'.all = o.all ++ d ∧
    o'.remaining = o.remaining - d.length ∧ o'.file = o.file := by
  have hp := h.pos
  unfold OFS.remaining at hd
  unfold oput store
  rw [if_pos (by omega)]
  have hl : (o.buf.take o.pos ++ d ++ o.buf.drop (o.pos + d.length)).length = o.buf.length := by simp; omega
  refine ⟨_, rfl, ⟨by simp only; omega, ?_, h.good, h.exc⟩, ?_, ?_, rfl⟩
  · simp only [hl]
    rcases h.cap with h' | h'
    · left; rw [← List.length_eq_zero_iff, hl, h']; rfl
    · right; exact h'
  · show o.file.out ++ (o.buf.take o.pos ++ d ++ o.buf.drop (o.pos + d.length)).take (o.pos + d.length) = o.file.out ++ o.buf.take o.pos ++ d
    rw [List.take_append_of_le_length (by simp; omega), List.take_of_length_le (by simp; omega), List.append_assoc]
  · simp only [OFS.remaining, hl]; omega

theorem oroom_is {o : OFS} (h : o.Ok) (n : Nat) : (oroom n o).Is
    (fun r o' => o'.Ok ∧ o'.all = o.all ∧ r = o'.remaining ∧ (o.remaining = 0 → n ≤ r) ∧ (o.remaining ≠ 0 → o' = o))
    (fun _ => False) (fun o' => o'.file.out <+: o.all ∧ o'.file.sys = []) := by
  unfold oroom
  rw [look_bind]
  split
  · rename_i hr; exact Res.Is.pure ⟨h, rfl, rfl, fun e => absurd e hr, fun _ => rfl⟩
  · rename_i hr
    exact (overflow_is h n).mono (fun r o' ⟨h1, h2, h3, h4, _⟩ => ⟨h1, h2, h4, fun _ => h3, fun e => absurd e hr⟩) (fun _ h => h) (fun _ h => ⟨h.1, h.2.1⟩)

/-- What every writing operation does on a stream in working order. -/
def Writes (m : P OFS Unit) (d : List Byte) : Prop :=
  ∀ o : OFS, o.Ok → (m o).Is (fun _ o' => o'.Ok ∧ o'.all = o.all ++ d) (fun _ => False) (fun o' => o'.file.out <+: o.all ++ d ∧ o'.file.sys = [])

theorem out_prefix {o : OFS} (d : List Byte) : o.file.out <+: o.all ++ d := by
  rw [OFS.all, List.append_assoc]; exact List.prefix_append _ _

theorem putc_writes (c : Byte) : Writes (putc c) [c] := by
  intro o h
  unfold putc
  refine ((oroom_is h 1).mono (fun _ _ h => h) (fun _ h => h) (fun o' ⟨h1, h2⟩ => ⟨h1.trans (List.prefix_append _ _), h2⟩)).bind ?_
  rintro r o1 ⟨h1, h2, h3, h4, h5⟩
  have hr : 1 ≤ r := by
    by_cases hz : o.remaining = 0
    · exact h4 hz
    · rw [h5 hz] at h3; omega
  rw [if_pos hr]
  obtain ⟨o2, e2, b1, b2, _⟩ := oput_is h1 (d := [c]) (by simp; omega)
  rw [e2]
  exact ⟨b1, by rw [b2, h2]⟩

theorem owrite_nil (k : Nat) : Writes (owriteLoop (k + 1) []) [] := by
  intro o h
  unfold owriteLoop
  refine ((oroom_is h 0).mono (fun _ _ h => h) (fun _ h => h) (fun o' ⟨h1, h2⟩ => ⟨by simpa using h1, h2⟩)).bind ?_
  rintro r o1 ⟨h1, h2, _⟩
  rw [if_pos (by simp)]
  exact ⟨h1, by rw [h2]; simp⟩

theorem owrite_fits (k : Nat) (d : List Byte) (o : OFS) (h : o.Ok) (hr : o.remaining = 0 ∨ d.length ≤ o.remaining) :
    (owriteLoop (k + 2) d o).Is (fun _ o' => o'.Ok ∧ o'.all = o.all ++ d) (fun _ => False) (fun o' => o'.file.out <+: o.all ++ d ∧ o'.file.sys = []) := by
  by_cases hd : d = []
  · subst hd; exact owrite_nil (k + 1) o h
  have hd' := List.length_pos_iff.2 hd
  unfold owriteLoop
  refine ((oroom_is h d.length).mono (fun _ _ h => h) (fun _ h => h) (fun o' ⟨h1, h2⟩ => ⟨h1.trans (List.prefix_append _ _), h2⟩)).bind ?_
  rintro r o1 ⟨h1, h2, h3, h4, h5⟩
  have hr : d.length ≤ r := by
    by_cases hz : o.remaining = 0
    · exact h4 hz
    · rw [h5 hz] at h3
      rcases hr with hr | hr
      · exact absurd hr hz
      · omega
  have hm : min d.length r = d.length := by omega
  rw [hm, if_neg (by omega), List.take_of_length_le (Nat.le_refl _), List.drop_of_length_le (Nat.le_refl _)]
  obtain ⟨o2, e2, b1, b2, _⟩ := oput_is h1 (d := d) (by omega)
  rw [P.bind_ret e2]
  have := owrite_nil k o2 b1
  rw [b2, h2, List.append_nil] at this
  exact this

theorem owrite_writes (k : Nat) (d : List Byte) : Writes (owriteLoop (k + 3) d) d := by
  intro o h
  by_cases hr : o.remaining = 0 ∨ d.length ≤ o.remaining
  · exact owrite_fits (k + 1) d o h hr
  have hr0 : o.remaining ≠ 0 := fun e => hr (Or.inl e)
  have hr1 : ¬ d.length ≤ o.remaining := fun e => hr (Or.inr e)
  unfold owriteLoop
  unfold oroom
  rw [P.bind_ret (a := o.remaining) (s' := o) (by rw [look_bind, if_pos hr0]; rfl)]
  have hm : min d.length o.remaining = o.remaining := by omega
  rw [hm, if_neg hr0]
  have hl : (d.take o.remaining).length = o.remaining := by simp; omega
  obtain ⟨o2, e2, b1, b2, b3, _⟩ := oput_is h (d := d.take o.remaining) (by omega)
  rw [P.bind_ret e2]
  have := owrite_fits k (d.drop o.remaining) o2 b1 (Or.inl (by omega))
  rw [b2, List.append_assoc, List.take_append_drop] at this
  exact this

theorem oprint_is {o : OFS} (h : o.Ok) (t : List Byte) : ∃ o', oprintAt t o.remaining o = .ret () o' ∧ o'.Ok ∧ o'.all = o.all ∧ o'.remaining = o.remaining ∧
    (t.length < o.remaining → o'.buf.take (o.pos + t.length) = o.pend ++ t) ∧ o'.pos = o.pos ∧ o'.file = o.file ∧ o'.buf.length = o.buf.length := by
  have hp := h.pos
  unfold oprintAt
  split
  · rename_i hz
    exact ⟨o, rfl, h, rfl, rfl, fun hlt => by omega, rfl, rfl, rfl⟩
  · rename_i hz
    have hrem : o.remaining = o.buf.length - o.pos := rfl
    have hl0 : (t.take (o.remaining - 1) ++ [0]).length ≤ o.remaining := by simp; omega
    unfold store
    rw [if_pos (by omega)]
    generalize hd : t.take (o.remaining - 1) ++ [0] = d at *
    have hl : (o.buf.take o.pos ++ d ++ o.buf.drop (o.pos + d.length)).length = o.buf.length := by simp; omega
    have htk : (o.buf.take o.pos ++ d ++ o.buf.drop (o.pos + d.length)).take o.pos = o.buf.take o.pos := by
      rw [List.append_assoc, List.take_append_of_le_length (by simp; omega), List.take_take, Nat.min_self]
    refine ⟨_, rfl, ⟨by simp only; omega, ?_, h.good, h.exc⟩, ?_, ?_, ?_, rfl, rfl, hl⟩
    · simp only [hl]
      rcases h.cap with h' | h'
      · rw [hrem, h'] at hz; simp at hz
      · right; exact h'
    · show o.file.out ++ (o.buf.take o.pos ++ d ++ o.buf.drop (o.pos + d.length)).take o.pos = _
      rw [htk]; rfl
    · simp only [OFS.remaining, hl]
    · intro hlt
      simp only
      have ht : t.take (o.remaining - 1) = t := List.take_of_length_le (by omega)
      rw [ht] at hd
      rw [← hd, List.append_assoc, List.append_assoc, List.take_append, List.take_of_length_le (by simp; omega)]
      congr 1
      rw [List.take_append_of_le_length (by simp; omega)]
      apply List.take_of_length_le
      simp; omega

theorem oformat_fits (k : Nat) (t : List Byte) (o : OFS) (h : o.Ok) (hr : t.length < o.remaining) :
    (oformatLoop (k + 1) t o).Is (fun _ o' => o'.Ok ∧ o'.all = o.all ++ t) (fun _ => False) (fun o' => o'.file.out <+: o.all ++ t ∧ o'.file.sys = []) := by
  unfold oformatLoop
  obtain ⟨o1, e1, a1, a2, a3, a4, a5, a6, a7⟩ := oprint_is h t
  rw [look_bind, P.bind_ret e1, if_neg (by omega)]
  have hm : min t.length o.remaining = t.length := by omega
  rw [hm]
  have hlen : o.remaining = o.buf.length - o.pos := rfl
  refine ⟨⟨?_, a1.cap, a1.good, a1.exc⟩, ?_⟩
  · show o1.pos + t.length ≤ o1.buf.length
    omega
  · show o1.file.out ++ o1.buf.take (o1.pos + t.length) = o.file.out ++ o.pend ++ t
    rw [a5, a4 hr, a6, List.append_assoc]

theorem oformat_writes (k : Nat) (t : List Byte) : Writes (oformatLoop (k + 2) t) t := by
  intro o h
  by_cases hr : t.length < o.remaining
  · exact oformat_fits (k + 1) t o h hr
  unfold oformatLoop
  obtain ⟨o1, e1, a1, a2, a3, a4, a5, a6, a7⟩ := oprint_is h t
  rw [look_bind, P.bind_ret e1, if_pos (by omega)]
  refine ((overflow_is a1 (t.length + 1)).mono (fun _ _ h => h) (fun _ h => h) (fun o' ⟨h1, h2, _⟩ => ⟨by rw [a2] at h1; exact h1.trans (List.prefix_append _ _), h2⟩)).bind ?_
  rintro r o2 ⟨b1, b2, b3, b4, _⟩
  rw [if_pos (by omega)]
  have := oformat_fits k t o2 b1 (by omega)
  rw [b2, a2] at this
  exact this

/-! ## Flushing -/

theorem capacity_pos {o : OFS} (h : o.Ok) (hp : o.pos ≠ 0) : o.remaining < o.capacity ∧ o.capacity > o.capacity - o.pos ∧ o.capacity ≠ 0 := by
  have := h.pos
  rcases h.cap with hc | hc
  · rw [hc] at this; simp at this; omega
  · unfold OFS.remaining OFS.capacity; omega

theorem flush_step (k : Nat) {o : OFS} (h : o.Ok) (hp : o.pos ≠ 0) :
    flushLoop (k + 1) o = (do let u ← overflow o.capacity; if u ≠ 0 then flushLoop k else pure () : P OFS Unit) o := by
  rw [flushLoop]
  exact if_pos ⟨h.good, hp⟩

theorem flush_done (k : Nat) {o : OFS} (hp : o.pos = 0) : flushLoop (k + 1) o = .ret () o := by
  rw [flushLoop]
  exact if_neg (fun h => h.2 hp)

theorem flush_is (k : Nat) : ∀ o : OFS, o.Ok → (flushLoop k o).Is (fun _ o' => o'.Ok ∧ o'.all = o.all ∧ o'.pos = 0) (fun _ => False)
    (fun o' => o'.file.out <+: o.all) := by
  induction k with
  | zero => intro o h; exact List.prefix_append _ _
  | succ k ih =>
    intro o h
    by_cases hp : o.pos = 0
    · rw [flush_done k hp]; exact ⟨h, rfl, hp⟩
    · rw [flush_step k h hp]
      refine ((overflow_is h o.capacity).mono (fun _ _ h => h) (fun _ h => h) (fun _ h => h.1)).bind ?_
      rintro u o1 ⟨a1, a2, a3, a4, _⟩
      rw [if_pos (by have := capacity_pos h hp; omega)]
      have := ih o1 a1
      rw [a2] at this
      exact this

/-- What a user writes to the stream; `flush` is watched for some rounds. -/
inductive WOp
  | put (c : Byte)
  | write (d : List Byte)
  | format (t : List Byte)
  | flush (rounds : Nat)

/-- Do it. -/
def WOp.run : WOp → P OFS Unit
  | .put c => putc c
  | .write d => owriteLoop 3 d
  | .format t => oformatLoop 2 t
  | .flush k => flushLoop k

/-- The text of it. -/
def WOp.text : WOp → List Byte
  | .put c => [c]
  | .write d => d
  | .format t => t
  | .flush _ => []

/-- Do all of it. -/
def runAll : List WOp → P OFS Unit
  | [] => pure ()
  | op :: ops => do op.run; runAll ops

/-- **C58**: after any number of operations, on any system, what the file was given followed by what the buffer holds is all
that was written, in order: nothing is lost, doubled or changed, also when the system fails, is interrupted or takes only parts.
While an operation is still running, what the file was given is the beginning of all that was written. -/
theorem ofstream_history (ops : List WOp) : ∀ o : OFS, o.Ok → (runAll ops o).Is
    (fun _ o' => o'.Ok ∧ o'.file.out ++ o'.pend = o.file.out ++ o.pend ++ (ops.map WOp.text).flatten) (fun _ => False)
    (fun o' => o'.file.out <+: o.file.out ++ o.pend ++ (ops.map WOp.text).flatten) := by
  induction ops with
  | nil => intro o h; exact ⟨h, by simp⟩
  | cons op ops ih =>
    intro o h
    have h1 : (op.run o).Is (fun _ o' => o'.Ok ∧ o'.all = o.all ++ op.text) (fun _ => False) (fun o' => o'.file.out <+: o.all ++ op.text) := by
      cases op with
      | put c => exact (putc_writes c o h).mono (fun _ _ h => h) (fun _ h => h) (fun _ h => h.1)
      | write d => exact (owrite_writes 0 d o h).mono (fun _ _ h => h) (fun _ h => h) (fun _ h => h.1)
      | format t => exact (oformat_writes 0 t o h).mono (fun _ _ h => h) (fun _ h => h) (fun _ h => h.1)
      | flush k => exact (flush_is k o h).mono (fun _ _ ⟨a, b, _⟩ => ⟨a, by rw [b]; simp [WOp.text]⟩) (fun _ h => h) (fun _ h => by simpa [WOp.text] using h)
    show Res.Is _ _ _ ((op.run >>= fun _ => runAll ops) o)
    have e : ((op :: ops).map WOp.text).flatten = op.text ++ (ops.map WOp.text).flatten := by simp
    rw [e]
    refine (h1.mono (fun _ _ h => h) (fun _ h => h) ?_).bind ?_
    · intro o' h'
      rw [← List.append_assoc]
      exact List.IsPrefix.trans h' (List.prefix_append _ _)
    · rintro _ o1 ⟨a1, a2⟩
      have := ih o1 a1
      rw [show o1.file.out ++ o1.pend = o.file.out ++ o.pend ++ op.text from a2, List.append_assoc _ op.text] at this
      exact this

/-- A new stream is in working order. -/
theorem ofFd_ok (f : File) (hg : f.ios.state = 0) (hx : f.ios.exc = 0) (j : Nat → Byte) : (OFS.ofFd f j).Ok :=
  ⟨Nat.le_refl _, Or.inl rfl, hg, hx⟩

example : (match runAll [.put 97, .format [98, 99], .flush 2, .write [100]] { cap := 8, file := { sys := [.did 1, .eintr, .did 2] } } with
    | .ret _ o' => decide (o'.file.out = [97, 98, 99] ∧ o'.pend = [100])
    | _ => false) = true := by decide +kernel

example (f : File) (hg : f.ios.state = 0) (hx : f.ios.exc = 0) (j : Nat → Byte) : (runAll [.put 97, .format [98, 99], .flush 2, .write [100]] (OFS.ofFd f j)).Is
    (fun _ o' => o'.file.out ++ o'.pend = f.out ++ [97, 98, 99, 100]) (fun _ => False) (fun o' => o'.file.out <+: f.out ++ [97, 98, 99, 100]) := by
  refine (ofstream_history [.put 97, .format [98, 99], .flush 2, .write [100]] _ (ofFd_ok f hg hx j)).mono ?_ (fun _ h => h) ?_
  · rintro _ o' ⟨_, h⟩; rw [h]; simp [OFS.ofFd, OFS.pend, WOp.text]
  · intro o' h; simpa [OFS.ofFd, OFS.pend, WOp.text] using h

/-- **C58**: when `flush` returns, everything written is in the file. -/
theorem flush_spec (k : Nat) (o : OFS) (h : o.Ok) : (flushLoop k o).Is (fun _ o' => o'.Ok ∧ o'.file.out = o.file.out ++ o.pend ∧ o'.pend = []) (fun _ => False)
    (fun o' => o'.file.out <+: o.file.out ++ o.pend) := by
  refine (flush_is k o h).mono ?_ (fun _ h => h) (fun _ h => h)
  rintro _ o' ⟨h1, h2, h3⟩
  have hp : o'.pend = [] := by rw [OFS.pend, h3]; rfl
  refine ⟨h1, ?_, hp⟩
  have : o'.file.out ++ o'.pend = o.file.out ++ o.pend := h2
  rwa [hp, List.append_nil] at this

/-- **C58**: on a system that takes something whenever it is asked (or is interrupted), `flush` takes at most two rounds: it
returns, or it waits for the system. -/
theorem flush_ends (k : Nat) (o : OFS) (h : o.Ok) (hg : o.file.good = true) (hs : ∀ a ∈ o.file.sys, a = .eintr ∨ ∃ j, a = .did (j + 1)) :
    (flushLoop (k + 2) o).Is (fun _ o' => o'.file.out = o.file.out ++ o.pend ∧ o'.pend = []) (fun _ => False) (fun o' => o'.file.sys = []) := by
  by_cases hp : o.pos = 0
  · rw [flush_done _ hp]
    have : o.pend = [] := by rw [OFS.pend, hp]; rfl
    exact ⟨by rw [this, List.append_nil], this⟩
  · rw [flush_step _ h hp]
    refine ((overflow_is h o.capacity).mono (fun _ _ h => h) (fun _ h => h) (fun _ h => h.2.1)).bind ?_
    rintro u o1 ⟨a1, a2, a3, a4, a5, a6, a7, a8⟩
    have hc := capacity_pos h hp
    rw [if_pos (by omega)]
    have h0 : o1.pos = 0 := by
      rcases a8 hc.2.1 hg with h0 | ⟨a, ha, ha'⟩
      · exact h0
      · rcases hs a ha with rfl | ⟨j, rfl⟩ <;> simp at ha'
    rw [flush_done _ h0]
    have hpend : o1.pend = [] := by rw [OFS.pend, h0]; rfl
    refine ⟨?_, hpend⟩
    have : o1.file.out ++ o1.pend = o.file.out ++ o.pend := a2
    rwa [hpend, List.append_nil] at this

example : ∀ o', flushLoop 2 { buf := [97, 98], pos := 2, cap := 4, file := { sys := [.did 1, .did 1] } } ≠ .run o' ∨ o'.file.sys = [] := by
  intro o'
  have := flush_ends 0 { buf := [97, 98], pos := 2, cap := 4, file := { sys := [.did 1, .did 1] } } ⟨by decide, Or.inr (by decide), rfl, rfl⟩ rfl (by
    intro a ha; simp at ha; subst ha; exact Or.inr ⟨0, rfl⟩)
  by_cases e : flushLoop 2 { buf := [97, 98], pos := 2, cap := 4, file := { sys := [.did 1, .did 1] } } = .run o'
  · rw [e] at this; exact Or.inr this
  · exact Or.inl e

/-- **C58** is false on a file that has failed: `flush` of anything does not return, however long one watches. It reports nothing,
writes nothing, and takes more memory in every round; in practice it ends when there is no more. The destructor calls `flush`. -/
theorem flush_violated (k : Nat) : ∀ o : OFS, o.Ok → o.file.good = false → o.pos ≠ 0 →
    ∃ o', flushLoop k o = .run o' ∧ o'.file.out = o.file.out ∧ o'.pend = o.pend ∧ o.cap + k ≤ o'.cap ∧ o'.ios.state = 0 := by
  induction k with
  | zero => intro o h _ _; exact ⟨o, rfl, rfl, rfl, Nat.le_refl _, h.good⟩
  | succ k ih =>
    intro o h hb hp
    rw [flush_step k h hp]
    have hc := capacity_pos h hp
    have h1 := overflow_is h o.capacity
    cases e : overflow o.capacity o with
    | oob => rw [e] at h1; exact h1.elim
    | exn o1 => rw [e] at h1; exact h1.elim
    | run o1 => rw [e] at h1; rw [h1.2.2] at hb; cases hb
    | ret u o1 =>
      rw [e] at h1
      obtain ⟨a1, a2, a3, a4, a5, a6, a7, _⟩ := h1
      obtain ⟨b1, b2, b3, b4⟩ := a7 hb
      rw [P.bind_ret e, if_pos (by omega)]
      obtain ⟨o', c1, c2, c3, c4, c5⟩ := ih o1 a1 (by rw [b1]; exact hb) (by omega)
      refine ⟨o', c1, by rw [c2, b1], by rw [c3, b2], ?_, c5⟩
      have hcap : o.cap < o1.cap := by
        have := b4 hc.1
        rcases a1.cap with h' | h'
        · rw [h'] at this; simp at this; omega
        · unfold OFS.capacity at *; omega
      omega

end Ustl.File
