import Verif.File.Life
/-! # File streams that could not be opened; several files through one stream; cin and cout (C79) -/
namespace Ustl.File
open Ustl.Stream

/-! ## A stream whose file could not be opened -/

/-- A stream in a bad state on a file in a bad state, that does not throw. -/
structure Dead (o : OFS) : Prop where
  pos : o.pos ≤ o.buf.length
  bad : o.ios.state ≠ 0
  fbad : o.file.ios.state ≠ 0
  exc : o.ios.exc = 0

theorem dead_overflow {o : OFS} (h : Dead o) (n : Nat) : ∃ o', overflow n o = .ret o'.remaining o' ∧ Dead o' ∧ o'.file = o.file ∧ o'.pos = o.pos ∧
    o.buf.length ≤ o'.buf.length ∧ (n ≤ o'.remaining ∨ o'.buf = o.buf) := by
  have h1 : spill n o = .ret () o := by
    unfold spill
    rw [if_neg (fun hc => h.fbad (by simpa [File.good] using hc.1))]
  unfold overflow
  rw [P.bind_ret h1]
  by_cases hg : n > o.remaining ∧ (o.ios.state = 0 ∨ n ≤ o.capacity - o.pos)
  · have h2 : grow n o = .ret () { o with buf := Text.growTo o.junk o.buf (o.pos + n), cap := newCap o.cap (o.pos + n) } := by
      show Res.ret () (if _ then _ else _) = _
      rw [if_pos hg]
    have hr : OFS.remaining { o with buf := Text.growTo o.junk o.buf (o.pos + n), cap := newCap o.cap (o.pos + n) } = n := by
      show (Text.growTo o.junk o.buf (o.pos + n)).length - o.pos = n
      rw [growTo_length]; omega
    rw [P.bind_ret h2, P.bind_ret (show overify n _ = .ret () _ by unfold overify; rw [if_pos (Nat.le_of_eq hr.symm)])]
    refine ⟨_, rfl, ⟨?_, h.bad, h.fbad, h.exc⟩, rfl, rfl, ?_, Or.inl (Nat.le_of_eq hr.symm)⟩
    · show o.pos ≤ (Text.growTo o.junk o.buf (o.pos + n)).length
      rw [growTo_length]; omega
    · show _ ≤ (Text.growTo o.junk o.buf (o.pos + n)).length
      rw [growTo_length]
      have := hg.1
      have := h.pos
      unfold OFS.remaining at *
      omega
  · have h2 : grow n o = .ret () o := by
      show Res.ret () (if _ then _ else _) = _
      rw [if_neg hg]
    rw [P.bind_ret h2]
    by_cases hn : n ≤ o.remaining
    · rw [P.bind_ret (show overify n o = .ret () o by unfold overify; rw [if_pos hn])]
      exact ⟨o, rfl, h, rfl, rfl, Nat.le_refl _, Or.inl hn⟩
    · have hov : ∃ i, o.ios.overrun o.remaining = (i, false) ∧ i.state ≠ 0 ∧ i.exc = 0 := by
        obtain ⟨_, _, _, ⟨st, ex⟩, _, _⟩ := o
        cases (show ex = 0 from h.exc)
        refine ⟨_, Prod.ext rfl ?_, ?_, rfl⟩
        · simp [Ios.overrun]
        · have hb : st ≠ 0 := h.bad
          intro e
          apply hb
          have := Nat.or_eq_zero_iff.1 e
          exact this.1
      obtain ⟨i, e, hi, hx⟩ := hov
      rw [P.bind_ret (show overify n o = .ret () { o with ios := i } by unfold overify; rw [if_neg hn, e])]
      exact ⟨_, rfl, ⟨h.pos, hi, h.fbad, hx⟩, rfl, rfl, Nat.le_refl _, Or.inr rfl⟩

theorem dead_room {o : OFS} (h : Dead o) (n : Nat) : ∃ o', oroom n o = .ret o'.remaining o' ∧ Dead o' ∧ o'.file = o.file ∧
    (o.remaining ≠ 0 → o' = o) ∧ (o.remaining = 0 → n ≤ o'.remaining ∨ o'.remaining = 0) := by
  unfold oroom
  rw [look_bind]
  by_cases hr : o.remaining ≠ 0
  · rw [if_pos hr]; exact ⟨o, rfl, h, rfl, fun _ => rfl, fun h0 => absurd h0 hr⟩
  · rw [if_neg hr]
    obtain ⟨o', e, h1, h2, h3, h4, h5⟩ := dead_overflow h n
    refine ⟨o', e, h1, h2, fun h => absurd h hr, fun h0 => ?_⟩
    rcases h5 with h5 | h5
    · exact Or.inl h5
    · right; unfold OFS.remaining at *; rw [h3, h5]; exact h0

theorem dead_put {o : OFS} (h : Dead o) (d : List Byte) (hd : d.length ≤ o.remaining) : ∃ o', oput d o = .ret () o' ∧ Dead o' ∧ o'.file = o.file ∧
    o'.remaining = o.remaining - d.length := by
  unfold oput
  have hp := h.pos
  unfold OFS.remaining at hd
  have e : ∃ b, store o.buf o.pos d = some b ∧ b.length = o.buf.length := by
    unfold store
    rw [if_pos (by omega)]
    exact ⟨_, rfl, by simp; omega⟩
  obtain ⟨b, e, hl⟩ := e
  rw [e]
  refine ⟨_, rfl, ⟨?_, h.bad, h.fbad, h.exc⟩, rfl, ?_⟩
  · show o.pos + d.length ≤ b.length
    omega
  · show b.length - (o.pos + d.length) = o.buf.length - o.pos - d.length
    omega

theorem dead_write_nil (k : Nat) {o : OFS} (h : Dead o) : ∃ o', owriteLoop (k + 1) [] o = .ret () o' ∧ Dead o' ∧ o'.file = o.file := by
  obtain ⟨o1, e1, h1, f1, _, _⟩ := dead_room h 0
  refine ⟨o1, ?_, h1, f1⟩
  show (oroom 0 >>= _) o = _
  rw [P.bind_ret e1, if_pos (by simp)]
  rfl

theorem dead_write_fits (k : Nat) {o : OFS} (h : Dead o) (d : List Byte) (hr : o.remaining = 0 ∨ d.length ≤ o.remaining) :
    ∃ o', owriteLoop (k + 2) d o = .ret () o' ∧ Dead o' ∧ o'.file = o.file := by
  obtain ⟨o1, e1, h1, f1, g1, g2⟩ := dead_room h d.length
  show ∃ o', (oroom d.length >>= _) o = _ ∧ _
  rw [P.bind_ret e1]
  by_cases hm : min d.length o1.remaining = 0
  · rw [if_pos hm]; exact ⟨o1, rfl, h1, f1⟩
  · rw [if_neg hm]
    have hle : d.length ≤ o1.remaining := by
      by_cases h0 : o.remaining = 0
      · rcases g2 h0 with h | h
        · exact h
        · omega
      · rw [g1 h0]; rcases hr with h | h
        · exact absurd h h0
        · exact h
    rw [Nat.min_eq_left hle, List.take_length, List.drop_length]
    obtain ⟨o2, e2, h2, f2, _⟩ := dead_put h1 d hle
    rw [P.bind_ret e2]
    obtain ⟨o3, e3, h3, f3⟩ := dead_write_nil k h2
    exact ⟨o3, e3, h3, by rw [f3, f2, f1]⟩

theorem dead_write (k : Nat) {o : OFS} (h : Dead o) (d : List Byte) : ∃ o', owriteLoop (k + 3) d o = .ret () o' ∧ Dead o' ∧ o'.file = o.file := by
  by_cases hr : o.remaining = 0 ∨ d.length ≤ o.remaining
  · exact dead_write_fits (k + 1) h d hr
  · have h0 : o.remaining ≠ 0 := fun h => hr (Or.inl h)
    have hlt : o.remaining < d.length := Nat.lt_of_not_le fun h => hr (Or.inr h)
    obtain ⟨o1, e1, h1, f1, g1, _⟩ := dead_room h d.length
    cases g1 h0
    show ∃ o', (oroom d.length >>= _) o = _ ∧ _
    rw [P.bind_ret e1, if_neg (by omega), Nat.min_eq_right (by omega)]
    obtain ⟨o2, e2, h2, f2, r2⟩ := dead_put h (d.take o.remaining) (by simp; omega)
    rw [P.bind_ret e2]
    obtain ⟨o3, e3, h3, f3⟩ := dead_write_fits k h2 (d.drop o.remaining) (Or.inl (by rw [r2]; simp; omega))
    exact ⟨o3, e3, h3, by rw [f3, f2]⟩

theorem dead_print {o : OFS} (h : Dead o) (t : List Byte) : ∃ o', oprintAt t o.remaining o = .ret () o' ∧ Dead o' ∧ o'.file = o.file ∧ o'.remaining = o.remaining := by
  unfold oprintAt
  by_cases h0 : o.remaining = 0
  · rw [if_pos h0]; exact ⟨o, rfl, h, rfl, rfl⟩
  · rw [if_neg h0]
    have e : ∃ b, store o.buf o.pos (t.take (o.remaining - 1) ++ [0]) = some b ∧ b.length = o.buf.length := by
      unfold store
      have hl : (t.take (o.remaining - 1) ++ [0]).length ≤ o.remaining := by simp; omega
      have hp := h.pos
      have : o.remaining = o.buf.length - o.pos := rfl
      rw [if_pos (by omega)]
      exact ⟨_, rfl, by simp only [List.length_append, List.length_take, List.length_drop] at hl ⊢; omega⟩
    obtain ⟨b, e, hl⟩ := e
    rw [e]
    exact ⟨_, rfl, ⟨by show o.pos ≤ b.length; rw [hl]; exact h.pos, h.bad, h.fbad, h.exc⟩, rfl, by show b.length - o.pos = _; rw [hl]; rfl⟩

theorem dead_format_end {o : OFS} (h : Dead o) (t : List Byte) (sp : Nat) (hs : sp ≤ o.remaining) :
    Dead { o with pos := o.pos + min t.length sp } := by
  refine ⟨?_, h.bad, h.fbad, h.exc⟩
  show o.pos + min t.length sp ≤ o.buf.length
  have := h.pos
  unfold OFS.remaining at hs
  omega

theorem dead_format_fits (k : Nat) {o : OFS} (h : Dead o) (t : List Byte) (hr : t.length < o.remaining) :
    ∃ o', oformatLoop (k + 1) t o = .ret () o' ∧ Dead o' ∧ o'.file = o.file := by
  obtain ⟨o1, e1, h1, f1, r1⟩ := dead_print h t
  show ∃ o', (look OFS.remaining >>= _) o = _ ∧ _
  rw [look_bind, P.bind_ret e1, if_neg (by omega)]
  exact ⟨_, rfl, dead_format_end h1 t o.remaining (Nat.le_of_eq r1.symm), f1⟩

theorem dead_format (k : Nat) {o : OFS} (h : Dead o) (t : List Byte) : ∃ o', oformatLoop (k + 2) t o = .ret () o' ∧ Dead o' ∧ o'.file = o.file := by
  by_cases hr : t.length < o.remaining
  · exact dead_format_fits (k + 1) h t hr
  · obtain ⟨o1, e1, h1, f1, r1⟩ := dead_print h t
    show ∃ o', (look OFS.remaining >>= _) o = _ ∧ _
    rw [look_bind, P.bind_ret e1, if_pos (by omega)]
    obtain ⟨o2, e2, h2, f2, p2, l2, _⟩ := dead_overflow h1 (t.length + 1)
    rw [P.bind_ret e2]
    by_cases hu : t.length < o2.remaining
    · rw [if_pos hu]
      obtain ⟨o3, e3, h3, f3⟩ := dead_format_fits k h2 t hu
      exact ⟨o3, e3, h3, by rw [f3, f2, f1]⟩
    · rw [if_neg hu]
      refine ⟨_, rfl, dead_format_end h2 t o.remaining ?_, by show o2.file = _; rw [f2, f1]⟩
      unfold OFS.remaining at *
      omega

/-- The flushes of a history are watched for at least one round. -/
def Watched : WOp → Prop
  | .flush k => 0 < k
  | _ => True

theorem dead_op {o : OFS} (h : Dead o) (op : WOp) (hw : Watched op) : ∃ o', op.run o = .ret () o' ∧ Dead o' ∧ o'.file = o.file := by
  cases op with
  | put c =>
    obtain ⟨o1, e1, h1, f1, _⟩ := dead_room h 1
    show ∃ o', (oroom 1 >>= _) o = _ ∧ _
    rw [P.bind_ret e1]
    by_cases hr : o1.remaining ≥ 1
    · rw [if_pos hr]
      obtain ⟨o2, e2, h2, f2, _⟩ := dead_put h1 [c] hr
      exact ⟨o2, e2, h2, by rw [f2, f1]⟩
    · rw [if_neg hr]; exact ⟨o1, rfl, h1, f1⟩
  | write d => exact dead_write 0 h d
  | format t => exact dead_format 0 h t
  | flush k =>
    cases k with
    | zero => exact absurd hw (by show ¬ (0 < 0); decide)
    | succ k =>
      refine ⟨o, ?_, h, rfl⟩
      show flushLoop (k + 1) o = _
      unfold flushLoop
      rw [if_neg (fun hc => h.bad hc.1)]

theorem dead_runAll (ops : List WOp) : ∀ {o : OFS}, Dead o → (∀ op ∈ ops, Watched op) → ∃ o', runAll ops o = .ret () o' ∧ Dead o' ∧ o'.file = o.file := by
  induction ops with
  | nil => intro o h _; exact ⟨o, rfl, h, rfl⟩
  | cons op ops ih =>
    intro o h hw
    obtain ⟨o1, e1, h1, f1⟩ := dead_op h op (hw op (by simp))
    obtain ⟨o2, e2, h2, f2⟩ := ih h1 (fun op hop => hw op (by simp [hop]))
    refine ⟨o2, ?_, h2, by rw [f2, f1]⟩
    show (op.run >>= fun _ => runAll ops) o = _
    rw [P.bind_ret e1, e2]

/-- **C79**: a stream that could not be opened (`c` is not the default constructor, and the descriptor is not one) is not good,
also not after any number of writes; all of them return, nothing is written to any file, nothing is closed, and destroying it
returns. No answer of the system is needed, so none of it waits. -/
theorem ofstream_open_failed (c : OCtor) (hc : c ≠ .none) (hn : c.given < 0) (ops : List WOp) (hw : ∀ op ∈ ops, Watched op) (k : Nat) (sys : List Sys) :
    ∃ o1 o2, (do c.run; runAll ops : P OFS Unit) (.blank sys) = .ret () o1 ∧ o1.ios.state ≠ 0 ∧
      odestroy (k + 1) o1 = .ret () o2 ∧ o2.file.out = [] ∧ o2.file.closed = [] ∧ o2.file.sys = sys := by
  obtain ⟨o, e, hb, hp, hx, hf, _, hs, hfd, hsys, hout, hcl⟩ := octor_is c sys
  have hst : o.ios.state = 1 := hs hn hc
  have hd : Dead o := ⟨by rw [hp]; exact Nat.zero_le _, by rw [hst]; decide, by rw [hf, hst]; decide, hx⟩
  obtain ⟨o1, e1, h1, f1⟩ := dead_runAll ops hd hw
  refine ⟨o1, { o1 with file := { o1.file with fd := -1, name := [], ios := { state := 0, exc := 0 } } }, ?_, h1.bad, ?_, ?_, ?_, ?_⟩
  · rw [P.bind_ret e, e1]
  · unfold odestroy
    have hfl : otry (flushLoop (k + 1)) o1 = .ret () o1 := by
      have : flushLoop (k + 1) o1 = .ret () o1 := by unfold flushLoop; rw [if_neg (fun hc => h1.bad hc.1)]
      unfold otry; rw [this]
    rw [P.bind_ret hfl, P.bind_ret (oletGo_eq o1), if_pos (by rw [f1, hfd]; omega)]
    unfold ofile destroy
    rw [modify_bind]
    unfold close
    rw [if_pos (by show (-1 : Int) < 0; decide)]
  · show o1.file.out = []
    rw [f1, hout]
  · show o1.file.closed = []
    rw [f1, hcl]
  · show o1.file.sys = sys
    rw [f1, hsys]

example : ∃ o1 o2, (do (OCtor.file (-1) [120]).run; runAll [.put 97, .format [98, 99], .flush 1] : P OFS Unit) (.blank []) = .ret () o1 ∧ o1.ios.state ≠ 0 ∧
      odestroy 1 o1 = .ret () o2 ∧ o2.file.out = [] := by
  obtain ⟨o1, o2, a, b, c, d, _⟩ := ofstream_open_failed (.file (-1) [120]) (by simp) (by show (-1 : Int) < 0; decide) [.put 97, .format [98, 99], .flush 1]
    (by intro op hop; simp at hop; rcases hop with rfl | rfl | rfl <;> simp [Watched]) 0 []
  exact ⟨o1, o2, a, b, c, d⟩

theorem P.bind_congr {σ α β : Type} {m : P σ α} {f : α → P σ β} {s s' : σ} (h : m s = m s') : (m >>= f) s = (m >>= f) s' := by
  show (match m s with | .ret a s' => f a s' | .exn s' => .exn s' | .oob => .oob | .run s' => .run s') =
    (match m s' with | .ret a s' => f a s' | .exn s' => .exn s' | .oob => .oob | .run s' => .run s')
  rw [h]

/-- A flush whose `write` the system refuses does not return. -/
theorem flush_refused (k : Nat) (o : OFS) (h : o.Ok) (hp : o.pos ≠ 0) (hg : o.file.ios.state = 0) (rest : List Sys) (hs : o.file.sys = .err :: rest) :
    ∃ o', flushLoop (k + 1) o = .run o' := by
  have hpos := h.pos
  have hne : o.buf.take o.pos ≠ [] := by
    intro e
    have := congrArg List.length e
    rw [List.length_take, List.length_nil] at this
    omega
  have hc := capacity_pos h hp
  let f1 : File := { o.file with sys := rest, ios := { o.file.ios with state := 4 } }
  have hw : write (o.buf.take o.pos) o.file = .ret 0 f1 := by
    unfold write
    rw [hs]
    have hr : (do raise 4; pure (o.buf.take o.pos) : P File (List Byte)) { o.file with sys := rest } = .ret (o.buf.take o.pos) f1 := by
      rw [P.bind_ret (a := ()) (s' := f1) (by
        unfold raise
        rw [if_neg (by show ¬ (o.file.ios.exc &&& 4 ≠ 0); rw [h.exc]; simp)]
        show Res.ret () { o.file with sys := rest, ios := { o.file.ios with state := o.file.ios.state ||| 4 } } = _
        rw [hg]; rfl)]
      rfl
    rw [P.bind_ret (show writeLoop (.err :: rest) (o.buf.take o.pos) o.file = .ret (o.buf.take o.pos) f1 by unfold writeLoop; rw [if_neg hne]; exact hr)]
    show Res.ret _ _ = _
    rw [Nat.sub_self]
  have hsp : spill o.capacity o = .ret () { o with file := f1 } := by
    unfold spill
    rw [if_pos ⟨by show decide _ = true; rw [hg]; rfl, hc.2.1⟩]
    rw [P.bind_ret (show ofile (write (o.buf.take o.pos)) o = .ret 0 { o with file := f1 } by unfold ofile; rw [hw])]
    unfold erase
    rw [if_pos ⟨Nat.zero_le _, Nat.zero_le _⟩]
    simp
  have hsp1 : spill o.capacity { o with file := f1 } = .ret () { o with file := f1 } := by
    unfold spill
    rw [if_neg (fun hc => by have : decide ((4 : Nat) = 0) = true := hc.1; simp at this)]
  have hov : overflow o.capacity o = overflow o.capacity { o with file := f1 } := by
    unfold overflow
    rw [P.bind_ret hsp, P.bind_ret hsp1]
  have hok : OFS.Ok { o with file := f1 } := ⟨h.pos, h.cap, h.good, h.exc⟩
  obtain ⟨o', e, _⟩ := flush_violated (k + 1) { o with file := f1 } hok rfl hp
  refine ⟨o', ?_⟩
  rw [← e, flush_step k h hp, flush_step k hok hp]
  show (overflow o.capacity >>= _) o = (overflow o.capacity >>= _) { o with file := f1 }
  exact P.bind_congr hov

/-- **C79** is false for a stream that was never opened: it is good, takes text, and when it is destroyed the system refuses it
and the destructor does not return, however long one watches. -/
theorem unopened_violated (k : Nat) : ∃ o1 o', (do OCtor.none.run; runAll [.put 97] : P OFS Unit) (.blank [.err]) = .ret () o1 ∧ o1.ios.state = 0 ∧ o1.file.fd = -1 ∧
    odestroy (k + 1) o1 = .run o' := by
  have hcap : newCap 1 4095 = 4096 := by decide +kernel
  let o0 : OFS := OFS.mk [] 0 4096 { exc := 0 } { fd := -1, sys := [.err] } (fun _ => 0)
  let o1 : OFS := OFS.mk [97] 1 4096 { exc := 0 } { fd := -1, sys := [.err] } (fun _ => 0)
  have e0 : OCtor.none.run (.blank [.err]) = .ret () o0 := by
    show Res.ret () (OFS.mk [] 0 (newCap 1 4095) { exc := 0 } { fd := -1, sys := [.err] } (fun _ => 0)) = _
    rw [hcap]
  have e1 : runAll [.put 97] o0 = .ret () o1 := by
    have hsp : spill 1 o0 = .ret () o0 := by
      unfold spill
      rw [if_neg (fun hc => by have : 1 > 4096 - 1 - 0 := hc.2; omega)]
    have hgr : grow 1 o0 = .ret () { o0 with buf := [0] } := by
      show Res.ret () (if _ then _ else _) = _
      rw [if_pos (show 1 > o0.remaining ∧ (o0.ios.state = 0 ∨ 1 ≤ o0.capacity - o0.pos) from ⟨by decide, Or.inl rfl⟩)]
      show Res.ret () (OFS.mk _ _ (newCap 4096 1) _ _ _) = _
      rw [show newCap 4096 1 = 4096 from by decide +kernel]
      rfl
    have hro : oroom 1 o0 = .ret 1 { o0 with buf := [0] } := by
      unfold oroom
      rw [look_bind, if_neg (by decide)]
      unfold overflow
      rw [P.bind_ret hsp, P.bind_ret hgr]
      rfl
    show ((oroom 1 >>= _) >>= _) o0 = _
    rw [P.bind_ret (a := ()) (s' := o1)]
    · rfl
    · rw [P.bind_ret hro]; rfl
  obtain ⟨o', e⟩ := flush_refused k o1 ⟨by decide, Or.inr (by show 1 < 4096; decide), rfl, rfl⟩ (by decide) rfl [] rfl
  refine ⟨o1, o', ?_, rfl, rfl, ?_⟩
  · rw [P.bind_ret e0, e1]
  · unfold odestroy
    rw [P.bind_run (by unfold otry; rw [e])]

end Ustl.File
