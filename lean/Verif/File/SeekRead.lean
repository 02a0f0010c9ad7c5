import Verif.File.SeekModel
/-! # C70: reading a file from any position -/
namespace Ustl.File
open Ustl.Stream
open Text (TIS)

/-- What a user does with a file that is read. -/
inductive SOp
  /-- read something -/
  | read (op : RdOp)
  /-- `clear (); seekg (p)` -/
  | seek (p : Nat)
  /-- `clear (); seekg (n, end)` -/
  | seekEnd (n : Int)
  /-- `clear ()` -/
  | clear
  /-- `tellg ()` -/
  | tell

/-- What the user gets. -/
inductive Obs
  | text (d : List Byte)
  | pos (n : Int)
deriving DecidableEq, Repr

/-- Do it with the file stream. -/
def SOp.run : SOp → P Rd (List Obs)
  | .read op => do let d ← onS op.file; pure [.text d]
  | .seek p => do rclear; seekg p .beg; pure []
  | .seekEnd n => do rclear; seekg n .fin; pure []
  | .clear => do rclear; pure []
  | .tell => do pure [.pos (← look Rd.tellg)]

/-- Do all of it. -/
def SOp.runAll : List SOp → P Rd (List Obs)
  | [] => pure []
  | op :: ops => do let a ← op.run; let l ← runAll ops; pure (a ++ l)

/-! ## The specification: the text of the file, and a string stream on what follows the position -/

/-- The text of the file, where the last seek went, and a string stream on the text from there. -/
structure Paper where
  t : TIS
  data : List Byte
  base : Nat

/-- The position: where the last seek went, and how much was read since. -/
def Paper.pos (q : Paper) : Int := q.base + (q.data.drop q.base).length - q.t.unread.length

/-- Go to position `p`: from now on the text that follows is `data.drop p`. -/
def Paper.goto (q : Paper) (p : Nat) : Paper :=
  { q with t := { TIS.mk' (q.data.drop p) with gcount := q.t.gcount, delims := q.t.delims }, base := p }

/-- Forget that the end was reached. -/
def Paper.clear (q : Paper) : Paper := { q with t := { q.t with is := { q.t.is with ios := { q.t.is.ios with state := 0 } } } }

/-- What the user should get, and the position then. `none` if a position would be negative (or the text is not as the
reading needs it). -/
def SOp.ideal (q : Paper) : SOp → Option (List Obs × Paper)
  | .read op => match op.string q.t with
    | .ret d t => some ([.text d], { q with t := t })
    | _ => none
  | .seek p => some ([], q.goto p)
  | .seekEnd n => if 0 ≤ (q.data.length : Int) + n then some ([], q.goto ((q.data.length : Int) + n).toNat) else none
  | .clear => some ([], q.clear)
  | .tell => some ([.pos q.pos], q)

/-- All of it. -/
def SOp.idealAll : List SOp → Paper → Option (List Obs × Paper)
  | [], q => some ([], q)
  | op :: ops, q => match op.ideal q with
    | none => none
    | some (a, q') => match idealAll ops q' with
      | none => none
      | some (l, q'') => some (a ++ l, q'')

/-! ## Proof -/

/-- The file stream reads the paper. -/
structure Reads (r : Rd) (q : Paper) : Prop where
  rel : Rel r.s q.t
  data : r.data = q.data
  base : r.base = q.base
  short : r.data.length < 2 ^ 32
  seekable : r.seekable = true

theorem onS_ret {α : Type} {m : P IFS α} {r : Rd} {a : α} {s : IFS} (h : m r.s = .ret a s) : onS m r = .ret a { r with s := s } := by
  unfold onS; rw [h]

/-- `tellg ()` of a stream in working order: the offset of the file less what is in the buffer. -/
theorem tellg_ahead {r : Rd} (h : r.s.Ok) (hs : r.seekable = true) :
    r.tellg = r.base + (r.data.drop r.base).length - r.s.ahead.length := by
  unfold Rd.tellg Rd.fpos Rd.off IFS.ahead
  rw [if_pos hs, List.length_append, h.len]
  push_cast
  omega

/-- After a `seekg` that the system accepts, to `p`. -/
theorem seekg_ok {r : Rd} (hs : r.seekable = true) {n : Int} {d : Dir} (ht : 0 ≤ target r.data.length r.off n d) :
    seekg n d r = .ret () { r with
      base := (target r.data.length r.off n d).toNat
      s := { r.s with buf := [], lim := 0, pos := 0, ios := { r.s.ios with state := r.s.file.ios.state }
                      file := { r.s.file with src := r.data.drop (target r.data.length r.off n d).toNat } } } := by
  have h : rseek n d r.dropBuf = .ret () { r.dropBuf with
      base := (target r.data.length r.off n d).toNat
      s := { r.dropBuf.s with file := { r.s.file with src := r.data.drop (target r.data.length r.off n d).toNat } } } :=
    if_pos ⟨hs, ht⟩
  unfold seekg
  rw [modify_bind, P.bind_ret h]
  rfl

theorem goto_reads {r : Rd} {q : Paper} (h : Reads r q) (p : Nat) :
    Reads { r with base := p
                   s := { r.s with buf := [], lim := 0, pos := 0, ios := { r.s.ios with state := 0 }
                                   file := { r.s.file with src := r.data.drop p, ios := { r.s.file.ios with state := 0 } } } } (q.goto p) := by
  have o := h.rel.ok
  refine ⟨⟨⟨Nat.le_refl _, Nat.le_refl _, o.exc, o.fexc, o.sys, rfl, Or.inl rfl⟩, ⟨Nat.zero_le _, ?_, rfl, h.rel.tok.del⟩, ?_, h.rel.del, h.rel.gc, rfl⟩, h.data, rfl, h.short, h.seekable⟩
  · show (q.data.drop p).length < 2 ^ 32
    have := h.short; rw [h.data] at this; rw [List.length_drop]; omega
  · show (q.data.drop p).drop 0 = _ ++ r.data.drop p
    rw [h.data]; rfl

theorem clear_reads {r : Rd} {q : Paper} (h : Reads r q) :
    Reads { r with s := { r.s with ios := { r.s.ios with state := 0 }, file := { r.s.file with ios := { r.s.file.ios with state := 0 } } } } q.clear := by
  have o := h.rel.ok
  exact ⟨⟨⟨o.pos, o.lim, o.exc, o.fexc, o.sys, rfl, Or.inl rfl⟩, ⟨h.rel.tok.pos, h.rel.tok.len, h.rel.tok.exc, h.rel.tok.del⟩, h.rel.text, h.rel.del, h.rel.gc, rfl⟩, h.data, h.base, h.short, h.seekable⟩

theorem step_reads (op : SOp) {r : Rd} {q q' : Paper} {l : List Obs} (h : Reads r q) (hi : op.ideal q = some (l, q')) :
    (op.run r).Is (fun l' r' => l' = l ∧ Reads r' q') (fun _ => False) (fun r' => r'.s.file.sys = []) := by
  cases op with
  | read op =>
    unfold SOp.ideal at hi
    have hsim := sim_op op r.s q.t h.rel
    unfold SOp.run
    dsimp only at hi ⊢
    cases e : op.file r.s with
    | ret d s' =>
      rw [e] at hsim
      obtain ⟨t', e', rel⟩ := hsim
      rw [e'] at hi
      injection hi with hi
      injection hi with h1 h2
      subst h1 h2
      rw [P.bind_ret (onS_ret e)]
      exact ⟨rfl, rel, h.data, h.base, h.short, h.seekable⟩
    | exn s' => rw [e] at hsim; exact hsim.elim
    | oob =>
      rw [e] at hsim
      have hsim : op.string q.t = .oob := hsim
      rw [hsim] at hi
      cases hi
    | run s' =>
      rw [e] at hsim
      have : onS op.file r = .run { r with s := s' } := by unfold onS; rw [e]
      rw [P.bind_run this]
      exact hsim
  | seek p =>
    injection hi with hi
    injection hi with h1 h2
    subst h1 h2
    unfold SOp.run
    dsimp only
    unfold rclear
    rw [modify_bind, P.bind_ret (seekg_ok (n := p) (d := .beg) (by exact h.seekable) (by exact Int.natCast_nonneg p))]
    exact ⟨rfl, goto_reads h p⟩
  | seekEnd n =>
    unfold SOp.ideal at hi
    dsimp only at hi
    split at hi
    · rename_i hn
      injection hi with hi
      injection hi with h1 h2
      subst h1 h2
      rw [← h.data] at hn
      unfold SOp.run
      dsimp only
      unfold rclear
      rw [modify_bind, P.bind_ret (seekg_ok (n := n) (d := .fin) (by exact h.seekable) (by exact hn))]
      refine ⟨rfl, ?_⟩
      rw [← h.data]
      exact goto_reads h _
    · cases hi
  | clear =>
    injection hi with hi
    injection hi with h1 h2
    subst h1 h2
    exact ⟨rfl, clear_reads h⟩
  | tell =>
    injection hi with hi
    injection hi with h1 h2
    subst h1 h2
    refine ⟨?_, h⟩
    rw [tellg_ahead h.rel.ok h.seekable, Paper.pos, h.data, h.base, h.rel.text]

theorem all_reads (ops : List SOp) : ∀ {r : Rd} {q q' : Paper} {l : List Obs}, Reads r q → SOp.idealAll ops q = some (l, q') →
    (SOp.runAll ops r).Is (fun l' r' => l' = l ∧ Reads r' q') (fun _ => False) (fun r' => r'.s.file.sys = []) := by
  induction ops with
  | nil =>
    intro r q q' l h hi
    injection hi with hi
    injection hi with h1 h2
    subst h1 h2
    exact ⟨rfl, h⟩
  | cons op ops ih =>
    intro r q q' l h hi
    unfold SOp.idealAll at hi
    cases e1 : op.ideal q with
    | none => rw [e1] at hi; cases hi
    | some x1 =>
      obtain ⟨a, q1⟩ := x1
      rw [e1] at hi
      dsimp only at hi
      cases e2 : SOp.idealAll ops q1 with
      | none => rw [e2] at hi; cases hi
      | some x2 =>
        obtain ⟨b, q2⟩ := x2
        rw [e2] at hi
        injection hi with hi
        injection hi with h1 h2
        subst h1 h2
        unfold SOp.runAll
        refine (step_reads op h e1).bind ?_
        rintro a' r1 ⟨rfl, g⟩
        refine (ih g e2).bind ?_
        rintro b' r2 ⟨rfl, g2⟩
        exact Res.Is.pure ⟨rfl, g2⟩

/-- A newly opened file. -/
def Rd.opened (data : List Byte) (sys : List Sys) (size : Nat) (fill : Byte) : Rd :=
  { s := .ofFile { src := data, sys := sys } size fill, data := data }

/-- The paper of a newly opened file. -/
def Paper.opened (data : List Byte) : Paper := { t := .mk' data, data := data, base := 0 }

/-- **C70**: reading, seeking and telling in any order, with a `clear ()` before every seek, gives what the text of the file has
at these positions: after `seekg (p)` the next thing read is what a string stream on the text from `p` on would give, and
`tellg ()` is the position of the next character that will be read, however much of the file is in the buffer. This holds
for every size of the buffer and however the system hands out the data. Partial: for seeks that are preceded by `clear ()`
(or see `seekg_good`), and are not relative to the position; see `seek_eof_violated` and `seek_cur_violated`. -/
theorem seek_reads_partial (ops : List SOp) (data : List Byte) (sys : List Sys) (size : Nat) (fill : Byte) (hs : Gives sys) (hl : data.length < 2 ^ 32)
    (l : List Obs) (q : Paper) (hi : SOp.idealAll ops (.opened data) = some (l, q)) :
    (SOp.runAll ops (.opened data sys size fill)).Is (fun l' r' => l' = l ∧ r'.tellg = q.pos ∧ r'.data = data) (fun _ => False)
      (fun r' => r'.s.file.sys = []) := by
  have h0 : Reads (.opened data sys size fill) (.opened data) := ⟨ofFile_rel data [0] sys size fill hs hl, rfl, rfl, hl, rfl⟩
  have keep : ∀ (ops : List SOp) (q q' : Paper) (l : List Obs), SOp.idealAll ops q = some (l, q') → q'.data = q.data := by
    intro ops
    induction ops with
    | nil => intro q q' l h; injection h with h; injection h with _ h; rw [h]
    | cons op ops ih =>
      intro q q' l h
      unfold SOp.idealAll at h
      cases e1 : op.ideal q with
      | none => rw [e1] at h; cases h
      | some x1 =>
        obtain ⟨a, q1⟩ := x1
        rw [e1] at h
        dsimp only at h
        cases e2 : SOp.idealAll ops q1 with
        | none => rw [e2] at h; cases h
        | some x2 =>
          obtain ⟨b, q2⟩ := x2
          rw [e2] at h
          injection h with h; injection h with _ h
          subst h
          rw [ih q1 q2 b e2]
          cases op with
          | read op =>
            unfold SOp.ideal at e1
            dsimp only at e1
            split at e1
            · injection e1 with e1; injection e1 with _ e1; rw [← e1]
            · cases e1
          | seek p => injection e1 with e1; injection e1 with _ e1; rw [← e1]; rfl
          | seekEnd n =>
            unfold SOp.ideal at e1
            dsimp only at e1
            split at e1
            · injection e1 with e1; injection e1 with _ e1; rw [← e1]; rfl
            · cases e1
          | clear => injection e1 with e1; injection e1 with _ e1; rw [← e1]; rfl
          | tell => injection e1 with e1; injection e1 with _ e1; rw [← e1]
  refine (all_reads ops h0 hi).mono ?_ (fun _ h => h) (fun _ h => h)
  rintro l' r' ⟨rfl, g⟩
  refine ⟨rfl, ?_, ?_⟩
  · rw [tellg_ahead g.rel.ok g.seekable, Paper.pos, g.data, g.base, g.rel.text]
  · rw [g.data, keep _ _ _ _ hi]; rfl

/-- Read a line, tell, read to the end, go back to offset 1, read a line, go to three before the end, read. -/
example : (SOp.idealAll [.read (.getline 10), .tell, .read .word, .read .word, .seek 1, .read (.getline 10), .seekEnd (-3), .tell, .read .word]
      (.opened [97, 98, 10, 99, 100, 101])).map Prod.fst =
    some [.text [97, 98], .pos 3, .text [99, 100, 101], .text [], .text [98], .pos 3, .text [99, 100, 101]] := by decide +kernel

example : (match SOp.runAll [.read (.getline 10), .tell, .read .word, .read .word, .seek 1, .read (.getline 10), .seekEnd (-3), .tell, .read .word]
      (.opened [97, 98, 10, 99, 100, 101] (List.replicate 30 (.did 2)) 4 0) with
    | .ret l r => decide (l = [.text [97, 98], .pos 3, .text [99, 100, 101], .text [], .text [98], .pos 3, .text [99, 100, 101]] ∧ r.tellg = 6)
    | _ => false) = true := by decide +kernel

/-- **C70**: when the stream is `good ()`, the `clear ()` is not needed: it does nothing. -/
theorem seekg_good (n : Int) (d : Dir) (r : Rd) (h : r.s.Ok) (hg : r.s.ios.state = 0) :
    (do rclear; seekg n d : P Rd Unit) r = seekg n d r := by
  have hf : r.s.file.ios.state = 0 := by rw [← h.same]; exact hg
  unfold rclear
  rw [modify_bind]
  congr 1
  rcases r with ⟨⟨buf, lim, pos, ⟨st, ex⟩, ⟨⟨fst, fex⟩, fd, nm, sy, ou, sr, me, cl⟩, gc, de, ju⟩, data, base, sk⟩
  simp only at hg hf
  subst hg hf
  rfl

example : ∃ r : Rd, r.s.Ok ∧ r.s.ios.state = 0 ∧ r.tellg = 2 :=
  ⟨{ s := { buf := [97, 98, 99], lim := 3, pos := 2, file := { src := [100] } }, data := [97, 98, 99, 100] },
    ⟨by decide, by decide, rfl, rfl, (fun _ h => by cases h), rfl, Or.inl rfl⟩, rfl, by decide⟩

/-- **C70** is false without the `clear ()` when the end was reached: the file is positioned, but the stream still says
`eof ()`, and reads nothing. (C++11 `seekg` clears `eofbit`.) A stream at the end of any file, after `seekg (p)`, gives nothing. -/
theorem seek_eof_violated (r : Rd) (h : r.s.Ok) (hs : r.seekable = true) (he : r.s.ios.state = 6) (p : Nat) :
    ∃ r', seekg p .beg r = .ret () r' ∧ r'.tellg = p ∧ r'.s.ios.state = 6 ∧ imore r'.s = .ret false r'.s := by
  have hf : r.s.file.ios.state = 6 := by rw [← h.same]; exact he
  rw [seekg_ok hs (n := p) (d := .beg) (by exact Int.natCast_nonneg p)]
  refine ⟨_, rfl, ?_, hf, ?_⟩
  · show (if r.seekable then ((p : Int).toNat : Int) + (r.data.drop (p : Int).toNat).length - (r.data.drop (p : Int).toNat).length else -1) - ((0 : Nat) : Int) = p
    rw [if_pos hs]; simp
  · generalize hx : ({ r.s with buf := [], lim := 0, pos := 0, ios := { r.s.ios with state := r.s.file.ios.state }
                                file := { r.s.file with src := r.data.drop (target r.data.length r.off p .beg).toNat } } : IFS) = x
    show imore x = .ret false x
    have x1 : x.remaining = 0 := by rw [← hx]; rfl
    have x2 : x.file.ios.state = 6 := by rw [← hx]; exact hf
    have x3 : x.ios.state = 6 := by rw [← hx]; exact hf
    have x4 : x.ios.exc = 0 := by rw [← hx]; exact h.exc
    have e1 : refill 1 x = .ret () x := by unfold refill; rw [if_pos (by simp [Ios.eof, x2])]
    have e2 : eofCheck 1 x = .ret () x := by
      unfold eofCheck
      rw [if_pos (by simp [Ios.eof, x2])]
      exact iverify_short x4 1 (by omega) x3
    have e3 : underflow 1 x = .ret 0 x := by
      unfold underflow
      rw [P.bind_ret e1, P.bind_ret e2]
      show Res.ret x.remaining x = _
      rw [x1]
    unfold imore
    rw [look_bind, if_neg (by simpa using x1), P.bind_ret e3]
    rfl

example : (match (do let a ← onS ireadString; let b ← onS ireadString; seekg 0 .beg; let c ← onS ireadString; pure [a, b, c] : P Rd (List (List Byte)))
      (.opened [97, 98] (List.replicate 9 (.did 9)) 8 0) with
    | .ret l r => decide (l = [[97, 98], [], []] ∧ r.tellg = 0)
    | _ => false) = true := by decide +kernel

/-- **C70** (partial): `seekg (n, cur)` moves from the offset of the file, not from `tellg ()`: what is in the buffer is
skipped as well. It is right when the buffer is empty. -/
theorem seek_cur_partial (r : Rd) (hs : r.seekable = true) (n : Int) (ht : 0 ≤ r.tellg + r.s.remaining + n) :
    ∃ r', seekg n .cur r = .ret () r' ∧ r'.tellg = r.tellg + r.s.remaining + n := by
  have h1 : target r.data.length r.off n .cur = r.tellg + r.s.remaining + n := by
    show r.off + n = _
    unfold Rd.tellg Rd.fpos
    rw [if_pos hs]; omega
  rw [seekg_ok hs (n := n) (d := .cur) (by rw [h1]; exact ht), h1]
  refine ⟨_, rfl, ?_⟩
  generalize hp : r.tellg + r.s.remaining + n = p at ht
  show (if r.seekable then (p.toNat : Int) + (r.data.drop p.toNat).length - (r.data.drop p.toNat).length else -1) - ((0 : Nat) : Int) = p
  rw [if_pos hs]
  have := Int.toNat_of_nonneg ht
  simp; omega

example : ∃ r : Rd, r.s.Ok ∧ r.seekable = true ∧ 0 ≤ r.tellg + r.s.remaining + (-2) :=
  ⟨{ s := { buf := [97, 98, 99], lim := 3, pos := 2, file := { src := [100] } }, data := [97, 98, 99, 100] },
    ⟨by decide, by decide, rfl, rfl, (fun _ h => by cases h), rfl, Or.inl rfl⟩, rfl, by decide⟩

/-- **C70** is false for `seekg (n, cur)`: after the first line of `a`, newline, `bc`, newline, `d`, all in the buffer, `seekg (0, cur)`, which
should go nowhere, goes to the end. -/
theorem seek_cur_violated : (match (do let a ← onS (igetlineStr 10); let p ← look Rd.tellg; seekg 0 .cur; let p' ← look Rd.tellg; let b ← onS (igetlineStr 10); pure (a, p, p', b) :
      P Rd (List Byte × Int × Int × List Byte)) (.opened [97, 10, 98, 99, 10, 100] [.did 9, .did 9] 16 0) with
    | .ret l _ => decide (l = ([97], 2, 6, []))
    | _ => false) = true := by decide +kernel

/-- **C70**: a `seekg` that the system refuses is reported: `fail ()`, and not `good ()`. -/
theorem seekg_refused (n : Int) (d : Dir) (r : Rd) (h : r.s.Ok) (hr : r.seekable = false ∨ target r.data.length r.off n d < 0) :
    ∃ r', seekg n d r = .ret () r' ∧ r'.s.ios.fail = true ∧ r'.s.file.src = r.s.file.src ∧ r'.s.remaining = 0 := by
  have h1 : rseek n d r.dropBuf = .ret () { r.dropBuf with s := { r.dropBuf.s with file := { r.s.file with ios := { r.s.file.ios with state := r.s.file.ios.state ||| 4 } } } } := by
    unfold rseek
    rw [if_neg (by
      rintro ⟨a, b⟩
      rcases hr with hr | hr
      · rw [show r.dropBuf.seekable = r.seekable from rfl, hr] at a; cases a
      · exact absurd b (by show ¬ 0 ≤ target r.data.length r.off n d; omega))]
    unfold onS ifile raise
    rw [if_neg (by rw [show r.dropBuf.s.file.ios.exc = r.s.file.ios.exc from rfl, h.fexc]; simp)]
    rfl
  unfold seekg
  rw [modify_bind, P.bind_ret h1]
  exact ⟨_, rfl, fail_or4 _ _, rfl, rfl⟩

example : ∃ (r : Rd) (n : Int), r.s.Ok ∧ target r.data.length r.off n .cur < 0 :=
  ⟨{ s := { buf := [97, 98, 99], lim := 3, pos := 2, file := { src := [100] } }, data := [97, 98, 99, 100] }, -9,
    ⟨by decide, by decide, rfl, rfl, (fun _ h => by cases h), rfl, Or.inl rfl⟩, by decide⟩

/-- **C70** is false of a seek that is refused: it should not move, but what is in the buffer is lost, also after `clear ()`. On a
pipe that holds lines `a`, `b` and `c`, after the first line, a seek to anywhere loses the rest of the first piece. -/
theorem seek_refused_violated : (match (do let a ← onS (igetlineStr 10); seekg 0 .beg; rclear; let b ← onS (igetlineStr 10); pure (a, b) :
      P Rd (List Byte × List Byte)) { Rd.opened [97, 10, 98, 10, 99] [.did 4, .did 9, .did 9] 16 0 with seekable := false } with
    | .ret l _ => decide (l = ([97], [99]))
    | _ => false) = true := by decide +kernel

/-- **C70** is false of `tellg ()` on a pipe: it is not -1, but less, by what is in the buffer. -/
theorem tellg_pipe_violated : ∃ r : Rd, r.s.Ok ∧ r.seekable = false ∧ r.tellg = -4 :=
  ⟨{ s := { buf := [97, 98, 99], lim := 3, pos := 0 }, data := [97, 98, 99], seekable := false },
    ⟨by decide, by decide, rfl, rfl, (fun _ h => by cases h), rfl, Or.inl rfl⟩, rfl, by decide⟩

/-- What is left of `sync ()` once the buffer was skipped. -/
theorem underflow_zero {s : IFS} (h : s.Ok) (hr : s.remaining = 0) :
    ∃ s', underflow 0 s = .ret 0 s' ∧ s'.file = s.file ∧ s'.remaining = 0 := by
  unfold underflow
  rcases h.state with h0 | ⟨h6, _⟩
  · obtain ⟨s1, e1, a1, a2, a3, a4, a5⟩ := makeRoom_is (Nat.le_trans h.pos h.lim) 0
    generalize hp : s.pos - toErase 0 s = p at *
    have e2 : fillLoop (s.file.sys.length + 1) (p + 0) p s1 = .ret p s1 := by
      unfold fillLoop; exact if_neg (by omega)
    have e3 : relink p p s1 = .ret () { s1 with ios := { s1.ios with state := s1.file.ios.state }, buf := s1.buf.set p 0, lim := p, pos := p } :=
      if_pos ⟨by omega, Nat.le_refl _⟩
    have e4 : refill 0 s = .ret () { s1 with ios := { s1.ios with state := s1.file.ios.state }, buf := s1.buf.set p 0, lim := p, pos := p } := by
      unfold refill
      rw [if_neg (by simp [Ios.eof, h0]), P.bind_ret e1, hp, P.bind_ret e2, e3]
    rw [P.bind_ret e4]
    have e5 : ∀ x : IFS, x.file.ios.state = 0 → eofCheck 0 x = .ret () x := fun x hx => by
      unfold eofCheck; rw [if_neg (by simp [Ios.eof, hx])]
    rw [P.bind_ret (e5 _ (by show s1.file.ios.state = 0; rw [a1]; exact h0))]
    refine ⟨{ s1 with ios := { s1.ios with state := s1.file.ios.state }, buf := s1.buf.set p 0, lim := p, pos := p }, ?_, a1, ?_⟩
    · show Res.ret (p - p) _ = _
      rw [Nat.sub_self]
    · show p - p = 0
      omega
  · have e1 : refill 0 s = .ret () s := by unfold refill; rw [if_pos (by simp [Ios.eof, h6])]
    have e2 : eofCheck 0 s = .ret () s := by
      unfold eofCheck
      rw [if_pos (by simp [Ios.eof, h6])]
      unfold iverify
      exact if_pos (Nat.zero_le _)
    rw [P.bind_ret e1, P.bind_ret e2]
    exact ⟨s, by show Res.ret s.remaining s = _; rw [hr], rfl, hr⟩

/-- **C70**: `sync ()` forgets what is in the buffer, and does nothing to the file: the next character read is the one at the
file's own offset. -/
theorem sync_spec (r : Rd) (h : r.s.Ok) : ∃ n r', isync r = .ret n r' ∧ r'.s.file = r.s.file ∧ r'.s.remaining = 0 ∧
    r'.tellg = r.fpos ∧ (n = if r.s.ios.state = 0 then -1 else 0) := by
  have hp := h.pos
  have e1 : (do iskip (← look IFS.remaining) : P IFS Unit) r.s = .ret () { r.s with pos := r.s.lim } := by
    rw [look_bind]
    unfold iskip iseek
    have : r.s.pos + r.s.remaining = r.s.lim := by unfold IFS.remaining; omega
    rw [this, if_pos (Nat.le_refl _)]
  have h1 : ({ r.s with pos := r.s.lim } : IFS).Ok := ⟨Nat.le_refl _, h.lim, h.exc, h.fexc, h.sys, h.same, h.state⟩
  obtain ⟨s2, e2, a1, a2⟩ := underflow_zero h1 (by show r.s.lim - r.s.lim = 0; omega)
  unfold isync
  rw [P.bind_ret (onS_ret e1), P.bind_ret (onS_ret (r := { r with s := { r.s with pos := r.s.lim } }) e2), modify_bind]
  refine ⟨_, _, rfl, a1, a2, ?_, ?_⟩
  · show (if r.seekable then (r.base : Int) + (r.data.drop r.base).length - s2.file.src.length else -1) - (s2.remaining : Int) = r.fpos
    rw [a2, a1]
    unfold Rd.fpos Rd.off
    simp
  · show (if s2.file.ios.state = 0 then (-1 : Int) else 0) = _
    rw [a1, h.same]

example : (match isync { s := { buf := [97, 98, 99], lim := 3, pos := 1, file := { src := [100] } }, data := [97, 98, 99, 100] } with
    | .ret n r => decide (n = -1 ∧ r.tellg = 3)
    | _ => false) = true := by decide +kernel

/-- **C70** is false of the result of `sync ()`, which should be 0, and -1 for a failure: it is -1 when all is well, and 0 at the
end of the file. -/
theorem sync_violated (r : Rd) (h : r.s.Ok) : ∃ n r', isync r = .ret n r' ∧ (r'.s.file.ios.state = 0 → n = -1) ∧
    (r'.s.file.ios.state = 6 → n = 0) := by
  obtain ⟨n, r', e, h1, _, _, h4⟩ := sync_spec r h
  refine ⟨n, r', e, ?_, ?_⟩
  · rw [h1, ← h.same]; intro h0; rw [h4, if_pos h0]
  · rw [h1, ← h.same]; intro h0; rw [h4, if_neg (by omega)]

end Ustl.File
