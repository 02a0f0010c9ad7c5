import Verif.File.SeekModel
/-! # C70: writing to any position of a file -/
namespace Ustl.File
open Ustl.Stream

/-! ## The specification: a file that is written byte by byte, without a buffer -/

/-- A file: its contents, the position, and whether it is only appended to. -/
structure Disk where
  data : List Byte
  pos : Nat
  app : Bool
deriving DecidableEq

/-- Write one byte or go somewhere. -/
inductive Act
  | byte (b : Byte)
  | go (n : Int) (d : Dir)
deriving DecidableEq

/-- Byte `i` of the file becomes `b`; a gap is filled with zeros. -/
def setByte (data : List Byte) (i : Nat) (b : Byte) : List Byte :=
  if i < data.length then data.set i b else data ++ List.replicate (i - data.length) 0 ++ [b]

/-- One action; `none` if the position would be negative. -/
def Disk.act (D : Disk) : Act → Option Disk
  | .byte b => some (if D.app then { D with data := D.data ++ [b], pos := D.data.length + 1 } else { D with data := setByte D.data D.pos b, pos := D.pos + 1 })
  | .go n .beg => if 0 ≤ n then some { D with pos := n.toNat } else none
  | .go n .cur => if 0 ≤ D.pos + n then some { D with pos := (D.pos + n).toNat } else none
  | .go n .fin => if 0 ≤ D.data.length + n then some { D with pos := (D.data.length + n).toNat } else none

/-- Many. -/
def Disk.acts : Disk → List Act → Option Disk
  | D, [] => some D
  | D, a :: as => match D.act a with
    | none => none
    | some D' => acts D' as

/-- What a user does with a file that is written; a `seekp`'s flush is watched for some rounds. -/
inductive WsOp
  | write (op : WOp)
  | seek (rounds : Nat) (n : Int) (d : Dir)

/-- The actions it stands for. -/
def WsOp.acts : WsOp → List Act
  | .write op => op.text.map .byte
  | .seek _ n d => [.go n d]

/-- Do it with the stream. -/
def WsOp.run : WsOp → P Wr Unit
  | .write op => onO op.run
  | .seek k n d => seekp k n d

/-- Do all of it, as long as the stream is `good ()`. -/
def WsOp.runAll : List WsOp → P Wr Unit
  | [] => pure ()
  | op :: ops => do
    op.run
    if (← look fun w : Wr => w.o.ios.state) = 0 then runAll ops else pure ()

/-! ## Proof -/

theorem Disk.acts_append (as bs : List Act) : ∀ D : Disk, D.acts (as ++ bs) = match D.acts as with | none => none | some D' => D'.acts bs := by
  induction as with
  | nil => intro D; rfl
  | cons a as ih =>
    intro D
    rw [List.cons_append, Disk.acts, Disk.acts]
    cases D.act a with
    | none => rfl
    | some D' => exact ih D'

theorem overwrite_nil (data : List Byte) (p : Nat) : overwrite data p [] = data := if_pos rfl

/-- Bytes written one after the other are bytes written together. -/
theorem overwrite_getElem (data : List Byte) (p : Nat) (d : List Byte) (hd : d ≠ []) (i : Nat) :
    (overwrite data p d)[i]? = if i < p then (if i < data.length then data[i]? else some 0) else if i < p + d.length then d[i - p]? else data[i]? := by
  unfold overwrite
  rw [if_neg hd]
  have hl : ((data ++ List.replicate (p - data.length) 0).take p).length = p := by simp; omega
  by_cases h1 : i < p
  · rw [if_pos h1, List.append_assoc, List.getElem?_append_left (by omega), List.getElem?_take_of_lt h1]
    by_cases h2 : i < data.length
    · rw [if_pos h2, List.getElem?_append_left h2]
    · rw [if_neg h2, List.getElem?_append_right (by omega), List.getElem?_replicate, if_pos (by omega)]
  · rw [if_neg h1, List.append_assoc, List.getElem?_append_right (by omega), hl]
    by_cases h2 : i < p + d.length
    · rw [if_pos h2, List.getElem?_append_left (by omega)]
    · rw [if_neg h2, List.getElem?_append_right (by omega), List.getElem?_drop]
      congr 1; omega

theorem setByte_overwrite (data : List Byte) (i : Nat) (b : Byte) : setByte data i b = overwrite data i [b] := by
  apply List.ext_getElem?
  intro j
  rw [overwrite_getElem _ _ _ (by simp)]
  unfold setByte
  split
  · rename_i h
    rw [List.getElem?_set]
    by_cases h1 : j < i
    · rw [if_neg (by omega), if_pos h1, if_pos (by omega)]
    · by_cases h2 : i = j
      · subst h2; simp [h]
      · rw [if_neg h2, if_neg h1, if_neg (by simp; omega)]
  · rename_i h
    by_cases h1 : j < i
    · rw [if_pos h1, List.getElem?_append_left (by simp; omega)]
      by_cases h2 : j < data.length
      · rw [if_pos h2, List.getElem?_append_left h2]
      · rw [if_neg h2, List.getElem?_append_right (by omega), List.getElem?_replicate, if_pos (by omega)]
    · rw [if_neg h1, List.getElem?_append_right (by simp; omega)]
      simp only [List.length_append, List.length_replicate, List.length_singleton]
      have e : data.length + (i - data.length) = i := by omega
      rw [e]
      split
      · rfl
      · rename_i h2
        rw [List.getElem?_eq_none (by simp; omega), List.getElem?_eq_none (by omega)]

theorem overwrite_overwrite (data : List Byte) (p : Nat) (a b : List Byte) :
    overwrite (overwrite data p a) (p + a.length) b = overwrite data p (a ++ b) := by
  by_cases ha : a = []
  · subst ha; rw [overwrite_nil]; rfl
  by_cases hb : b = []
  · subst hb; rw [overwrite_nil, List.append_nil]
  have hal := List.length_pos_iff.2 ha
  apply List.ext_getElem?
  intro i
  rw [overwrite_getElem _ _ _ hb, overwrite_getElem data p a ha, overwrite_getElem data p (a ++ b) (by simp [ha])]
  have hlen : p + a.length ≤ (overwrite data p a).length := by
    unfold overwrite; rw [if_neg ha]; simp; omega
  simp only [List.length_append]
  by_cases h1 : i < p
  · rw [if_pos (by omega), if_pos (by omega), if_pos h1, if_pos h1]
  · by_cases h2 : i < p + a.length
    · rw [if_pos h2, if_pos (by omega), if_neg h1, if_pos h2, if_neg h1, if_pos (by omega), List.getElem?_append_left (by omega)]
    · rw [if_neg h2, if_neg h1, if_neg h1]
      by_cases h3 : i < p + a.length + b.length
      · rw [if_pos h3, if_pos (by omega), List.getElem?_append_right (by omega)]
        congr 1; omega
      · rw [if_neg h3, if_neg h2, if_neg (by omega)]

/-- What the bytes `d` make of a file. -/
def Disk.put (D : Disk) (d : List Byte) : Disk :=
  if d = [] then D else if D.app then { D with data := D.data ++ d, pos := (D.data ++ d).length }
  else { D with data := overwrite D.data D.pos d, pos := D.pos + d.length }

theorem acts_bytes (d : List Byte) : ∀ D : Disk, D.acts (d.map .byte) = some (D.put d) := by
  induction d with
  | nil => intro D; rfl
  | cons b d ih =>
    intro D
    rw [List.map_cons, Disk.acts]
    show Disk.acts _ (d.map .byte) = _
    rw [ih]
    congr 1
    unfold Disk.put
    rw [if_neg (List.cons_ne_nil b d)]
    rcases D with ⟨data, pos, app⟩
    cases app
    · simp only [Bool.false_eq_true, if_false]
      split
      · rename_i h; subst h
        rw [setByte_overwrite]; rfl
      · rw [setByte_overwrite, show pos + 1 = pos + [b].length from rfl, overwrite_overwrite]
        simp; omega
    · simp only [if_true]
      split
      · rename_i h; subst h; simp
      · simp

theorem content_put (w : Wr) : w.content = (Disk.put ⟨w.data, w.base, w.app⟩ w.o.file.out).data := by
  unfold Wr.content Disk.put
  by_cases h : w.o.file.out = []
  · rw [h, if_pos rfl, List.append_nil, overwrite_nil]; simp
  · rw [if_neg h]
    cases w.app <;> simp

theorem off_put (w : Wr) : w.off = (Disk.put ⟨w.data, w.base, w.app⟩ w.o.file.out).pos := by
  unfold Wr.off Wr.content Disk.put
  by_cases h : w.o.file.out = []
  · rw [h]; simp
  · cases w.app <;> simp [h]

/-- The stream `w` is where the actions `as` lead from `D`: what is in the buffer is at the end of them. -/
structure At (D : Disk) (as : List Act) (w : Wr) : Prop where
  ok : w.o.Ok
  seekable : w.seekable = true
  hist : ∃ pre, as = pre ++ w.o.all.map .byte ∧ D.acts pre = some ⟨w.data, w.base, w.app⟩

/-- What the file has at any moment is what some of the first actions made. -/
def Partway (D : Disk) (as : List Act) (c : List Byte) : Prop := ∃ l D', l <+: as ∧ D.acts l = some D' ∧ D'.data = c

theorem content_of {D : Disk} {as : List Act} {w : Wr} {pre : List Act} {rest : List Byte} (h1 : as = pre ++ (w.o.file.out ++ rest).map .byte)
    (h2 : D.acts pre = some ⟨w.data, w.base, w.app⟩) : Partway D as w.content := by
  refine ⟨pre ++ w.o.file.out.map .byte, _, ?_, ?_, (content_put w).symm⟩
  · rw [h1, List.map_append, ← List.append_assoc]; exact List.prefix_append _ _
  · rw [Disk.acts_append, h2]; exact acts_bytes _ _

theorem At.partway {D : Disk} {as : List Act} {w : Wr} (h : At D as w) : Partway D as w.content := by
  obtain ⟨pre, h1, h2⟩ := h.hist
  exact content_of h1 h2

theorem Partway.more {D : Disk} {as : List Act} {c : List Byte} (h : Partway D as c) (bs : List Act) : Partway D (as ++ bs) c := by
  obtain ⟨l, D', h1, h2⟩ := h
  exact ⟨l, D', h1.trans (List.prefix_append _ _), h2⟩

theorem onO_is {α : Type} {m : P OFS α} {w : Wr} {R : α → OFS → Prop} {E U : OFS → Prop} (h : (m w.o).Is R E U) :
    (onO m w).Is (fun a w' => ∃ o, w' = { w with o := o } ∧ R a o) (fun w' => ∃ o, w' = { w with o := o } ∧ E o)
      (fun w' => ∃ o, w' = { w with o := o } ∧ U o) := by
  unfold onO
  cases e : m w.o with
  | ret a f => rw [e] at h; exact ⟨f, rfl, h⟩
  | exn f => rw [e] at h; exact ⟨f, rfl, h⟩
  | oob => rw [e] at h; exact h
  | run f => rw [e] at h; exact ⟨f, rfl, h⟩

theorem step_write (op : WOp) {D : Disk} {as : List Act} {w : Wr} (h : At D as w) : ((WsOp.write op).run w).Is
    (fun _ w' => At D (as ++ op.text.map .byte) w' ∧ w'.app = w.app) (fun _ => False) (fun w' => Partway D (as ++ op.text.map .byte) w'.content) := by
  obtain ⟨pre, h1, h2⟩ := h.hist
  have hh := ofstream_history [op] w.o h.ok
  have e : runAll [op] = op.run := by
    funext o
    show (op.run >>= fun _ => (pure () : P OFS Unit)) o = _
    cases h : op.run o with
    | ret a o' => rw [P.bind_ret h]; rfl
    | exn o' => rw [P.bind_exn h]
    | oob => rw [P.bind_oob h]
    | run o' => rw [P.bind_run h]
  rw [e] at hh
  simp only [List.map_cons, List.map_nil, List.flatten_cons, List.flatten_nil, List.append_nil] at hh
  refine (onO_is hh).mono ?_ ?_ ?_
  · rintro _ w' ⟨o, rfl, a1, a2⟩
    refine ⟨⟨a1, h.seekable, pre, ?_, h2⟩, rfl⟩
    rw [h1, show OFS.all o = w.o.all ++ op.text from a2, List.map_append, List.append_assoc]
  · rintro w' ⟨o, _, hf⟩; exact hf
  · rintro w' ⟨o, rfl, rest, hr⟩
    refine content_of (rest := rest) (pre := pre) ?_ h2
    show _ = pre ++ (o.file.out ++ rest).map .byte
    rw [hr, h1, List.append_assoc, ← List.map_append]; rfl

/-- The three kinds of seek, by the place they go to. -/
theorem act_go (D : Disk) (n : Int) (d : Dir) :
    D.act (.go n d) = if 0 ≤ target D.data.length D.pos n d then some { D with pos := (target D.data.length D.pos n d).toNat } else none := by
  cases d <;> rfl

theorem step_seek (k : Nat) (n : Int) (d : Dir) {D : Disk} {as : List Act} {w : Wr} (h : At D as w) (hd : D.acts (as ++ [.go n d]) ≠ none) :
    ((WsOp.seek k n d).run w).Is
    (fun _ w' => (w'.o.ios.state = 0 → At D (as ++ [.go n d]) w') ∧ w'.app = w.app ∧ w'.o.ios.state = w'.o.file.ios.state ∧
      ∃ D', D.acts (as ++ [.go n d]) = some D' ∧ D'.data = w'.content ∧ (D'.pos : Int) = w'.tellp)
    (fun _ => False) (fun w' => Partway D (as ++ [.go n d]) w'.content) := by
  obtain ⟨pre, h1, h2⟩ := h.hist
  show Res.Is _ _ _ (seekp k n d w)
  unfold seekp
  refine ((onO_is (flush_is k w.o h.ok)).mono (fun _ _ h => h) ?_ ?_).bind ?_
  · rintro w' ⟨o, _, hf⟩; exact hf
  · rintro w' ⟨o, rfl, rest, hr⟩
    refine Partway.more (content_of (w := { w with o := o }) (rest := rest) (pre := pre) ?_ h2) _
    show _ = pre ++ (o.file.out ++ rest).map .byte
    rw [hr, h1]
  · rintro _ w1 ⟨o, rfl, a1, a2, a3⟩
    have hall : w.o.all = o.file.out := by
      rw [← a2, OFS.all, OFS.pend, a3, List.take_zero, List.append_nil]
    have hw : D.acts as = some ((Disk.mk w.data w.base w.app).put o.file.out) := by
      rw [h1, Disk.acts_append, h2, hall]; exact acts_bytes _ _
    have hcont := content_put { w with o := o }
    have hoff := off_put { w with o := o }
    dsimp only at hcont hoff
    have happ : ((Disk.mk w.data w.base w.app).put o.file.out).app = w.app := by
      unfold Disk.put; split
      · rfl
      · split <;> rfl
    generalize hq : (Disk.mk w.data w.base w.app).put o.file.out = q at hw hcont hoff happ
    have hgo : D.acts (as ++ [.go n d]) = q.act (.go n d) := by
      rw [Disk.acts_append, hw]
      show Disk.acts q [.go n d] = _
      unfold Disk.acts
      cases q.act (.go n d) <;> rfl
    rw [hgo, act_go] at hd
    have ht : 0 ≤ target q.data.length q.pos n d := by
      by_cases ht : 0 ≤ target q.data.length q.pos n d
      · exact ht
      · rw [if_neg ht] at hd; exact absurd rfl hd
    rw [act_go, if_pos ht] at hgo
    have hsk : wseek n d { w with o := o } = .ret () { w with data := q.data, base := (target q.data.length q.pos n d).toNat, o := { o with file := { o.file with out := [] } } } := by
      unfold wseek
      rw [hcont, hoff]
      exact if_pos ⟨h.seekable, ht⟩
    rw [P.bind_ret hsk]
    refine ⟨fun hg => ⟨⟨a1.pos, a1.cap, hg, a1.exc⟩, h.seekable, as ++ [.go n d], ?_, ?_⟩, rfl, rfl, _, hgo, ?_, ?_⟩
    · show as ++ [.go n d] = as ++ [.go n d] ++ (([] : List Byte) ++ o.pend).map Act.byte
      rw [OFS.pend, a3]; simp
    · rw [hgo, ← happ]
    · show q.data = if w.app then q.data ++ [] else overwrite q.data _ []
      rw [overwrite_nil, List.append_nil]; simp
    · show (((target q.data.length q.pos n d).toNat : Nat) : Int) =
        (if w.seekable then (if w.app ∧ ([] : List Byte) ≠ [] then _ else (((target q.data.length q.pos n d).toNat : Nat) : Int) + ([] : List Byte).length) else -1) + (o.pos : Int)
      rw [if_pos h.seekable, if_neg (fun h => h.2 rfl), a3]
      simp

theorem all_writes (ops : List WsOp) : ∀ {D : Disk} {as : List Act} {w : Wr}, At D as w → D.acts (as ++ ops.flatMap WsOp.acts) ≠ none → (WsOp.runAll ops w).Is
    (fun _ w' => (w'.o.ios.state = 0 → At D (as ++ ops.flatMap WsOp.acts) w') ∧ w'.app = w.app ∧ Partway D (as ++ ops.flatMap WsOp.acts) w'.content)
    (fun _ => False) (fun w' => Partway D (as ++ ops.flatMap WsOp.acts) w'.content) := by
  induction ops with
  | nil =>
    intro D as w h _
    refine ⟨fun _ => ?_, rfl, ?_⟩
    · simpa using h
    · simpa using h.partway
  | cons op ops ih =>
    intro D as w h hd
    rw [List.flatMap_cons, ← List.append_assoc] at hd ⊢
    have hd1 : D.acts (as ++ op.acts) ≠ none := by
      intro hn; rw [Disk.acts_append _ _ D, hn] at hd; exact hd rfl
    have h1 : (op.run w).Is (fun _ w' => (w'.o.ios.state = 0 → At D (as ++ op.acts) w') ∧ w'.app = w.app ∧ Partway D (as ++ op.acts) w'.content)
        (fun _ => False) (fun w' => Partway D (as ++ op.acts) w'.content) := by
      cases op with
      | write op => exact (step_write op h).mono (fun _ w' ⟨a, b⟩ => ⟨fun _ => a, b, a.partway⟩) (fun _ h => h) (fun _ h => h)
      | seek k n d =>
        refine (step_seek k n d h hd1).mono ?_ (fun _ h => h) (fun _ h => h)
        rintro _ w' ⟨a, b, _, D', c1, c2, _⟩
        exact ⟨a, b, as ++ [.go n d], D', List.prefix_refl _, c1, c2⟩
    unfold WsOp.runAll
    refine (h1.mono (fun _ _ h => h) (fun _ h => h) (fun _ h => h.more _)).bind ?_
    rintro _ w1 ⟨a1, a2, a3⟩
    rw [look_bind]
    split
    · rename_i hg
      refine (ih (a1 hg) hd).mono ?_ (fun _ h => h) (fun _ h => h)
      rintro _ w' ⟨b1, b2, b3⟩
      exact ⟨b1, b2.trans a2, b3⟩
    · rename_i hg
      exact ⟨fun h0 => absurd h0 hg, a2, a3.more _⟩

theorem At.full {D : Disk} {as : List Act} {w : Wr} (h : At D as w) :
    D.acts as = some ((Disk.mk w.data w.base w.app).put (w.o.file.out ++ w.o.pend)) := by
  obtain ⟨pre, h1, h2⟩ := h.hist
  rw [h1, Disk.acts_append, h2]; exact acts_bytes _ _

/-- An `ofstream` on an open file: the stream is in working order, nothing is in the buffer and nothing was written. -/
structure Wr.Fresh (w : Wr) : Prop where
  ok : w.o.Ok
  out : w.o.file.out = []
  pos : w.o.pos = 0
  seekable : w.seekable = true

/-- **C70**: writing and seeking in any order, on any system. At every moment, also when an operation is still running or the
system has failed, the file has what some beginning of the same actions, done one byte at a time and without a buffer, would have
made of it: in particular nothing written before a seek lands behind it, or the other way round. When it is done and the
stream is `good ()`, all that is missing is what is in the buffer, and nothing is missing after a flush; and if the file is not
opened for appending, `tellp ()` is the position where the next byte will go. -/
theorem seek_writes_partial (ops : List WsOp) (w : Wr) (hw : w.Fresh) (hd : (Disk.mk w.data w.base w.app).acts (ops.flatMap WsOp.acts) ≠ none) :
    (WsOp.runAll ops w).Is
    (fun _ w' => Partway ⟨w.data, w.base, w.app⟩ (ops.flatMap WsOp.acts) w'.content ∧
      (w'.o.ios.state = 0 → ∃ D', (Disk.mk w.data w.base w.app).acts (ops.flatMap WsOp.acts) = some D' ∧
        (w'.o.pos = 0 → w'.content = D'.data) ∧ (w.app = false → w'.tellp = (D'.pos : Int))))
    (fun _ => False) (fun w' => Partway ⟨w.data, w.base, w.app⟩ (ops.flatMap WsOp.acts) w'.content) := by
  have h0 : At ⟨w.data, w.base, w.app⟩ [] w := ⟨hw.ok, hw.seekable, [], by rw [OFS.all, OFS.pend, hw.out, hw.pos]; rfl, rfl⟩
  have := all_writes ops h0 (by simpa using hd)
  rw [List.nil_append] at this
  refine this.mono ?_ (fun _ h => h) (fun _ h => h)
  rintro _ w' ⟨a1, a2, a3⟩
  refine ⟨a3, fun hg => ?_⟩
  have a := a1 hg
  refine ⟨_, a.full, fun hp => ?_, fun happ => ?_⟩
  · rw [content_put, OFS.pend, hp, List.take_zero, List.append_nil]
  · have happ' : w'.app = false := a2.trans happ
    have hlen : w'.o.pend.length = w'.o.pos := by rw [OFS.pend, List.length_take, Nat.min_eq_left a.ok.pos]
    unfold Wr.tellp Wr.fpos Wr.off Disk.put
    rw [if_pos a.seekable, happ']
    simp only [Bool.false_eq_true, false_and, if_false]
    split
    · rename_i he
      obtain ⟨h1, h2⟩ := List.append_eq_nil_iff.1 he
      rw [h1]; rw [h2] at hlen; simp at hlen; simp [← hlen]
    · simp only [List.length_append]; omega

/-- `abc`, back to 1, `X`, two beyond the end, `Z`, flush: `aXc`, two zeros, `Z`. -/
example : (Disk.mk [] 0 false).acts ([.write (.write [97, 98, 99]), .seek 2 1 .beg, .write (.put 88), .seek 2 2 .fin, .write (.put 90), .write (.flush 2)].flatMap WsOp.acts)
    = some ⟨[97, 88, 99, 0, 0, 90], 6, false⟩ := by decide +kernel

example : (match WsOp.runAll [.write (.write [97, 98, 99]), .seek 2 1 .beg, .write (.put 88), .seek 2 2 .fin, .write (.put 90), .write (.flush 2)]
      { o := { cap := 8, file := { sys := [.did 1, .eintr, .did 2, .did 1, .did 1] } } } with
    | .ret _ w => decide (w.content = [97, 88, 99, 0, 0, 90] ∧ w.tellp = 6)
    | _ => false) = true := by decide +kernel

example : Wr.Fresh { o := { cap := 8, file := { sys := [.did 1, .eintr, .did 2, .did 1, .did 1] } } } :=
  ⟨⟨by decide, Or.inl rfl, rfl, rfl⟩, rfl, rfl, rfl⟩

/-- **C70**: a `seekp` that the system refuses comes after all that was written before is in the file, and is reported. -/
theorem seekp_refused (k : Nat) (n : Int) (d : Dir) (w : Wr) (h : w.o.Ok) (hr : w.seekable = false) : (seekp k n d w).Is
    (fun _ w' => w'.o.file.out = w.o.file.out ++ w.o.pend ∧ w'.o.ios.fail = true) (fun _ => False) (fun w' => w'.o.file.out <+: w.o.file.out ++ w.o.pend) := by
  unfold seekp
  refine ((onO_is (flush_spec k w.o h)).mono (fun _ _ h => h) ?_ ?_).bind ?_
  · rintro w' ⟨o, _, hf⟩; exact hf
  · rintro w' ⟨o, rfl, hf⟩; exact hf
  · rintro _ w1 ⟨o, rfl, a1, a2, _⟩
    have e : wseek n d { w with o := o } = .ret () { w with o := { o with file := { o.file with ios := { o.file.ios with state := o.file.ios.state ||| 4 } } } } := by
      unfold wseek
      rw [if_neg (by rintro ⟨b, _⟩; rw [show ({ w with o := o } : Wr).seekable = w.seekable from rfl, hr] at b; cases b)]
      unfold onO ofile raise
      rw [if_neg (by rw [show ({ w with o := o } : Wr).o.file.ios.exc = o.file.ios.exc from rfl, a1.exc]; simp)]
    rw [P.bind_ret e]
    exact ⟨a2, fail_or4 _ _⟩

example : (match seekp 2 0 .beg { o := { buf := [97, 98], pos := 2, cap := 4, file := { sys := [.did 1, .did 1] } }, seekable := false } with
    | .ret _ w => decide (w.o.file.out = [97, 98] ∧ w.o.ios.state = 4)
    | _ => false) = true := by decide +kernel

/-- **C70** is false of `tellp ()` for a file opened for appending: after `seekp (0)` and writing `xy`, it is 2, though the bytes will go
to the end; and then, after a flush, 5. -/
theorem tellp_append_violated : (match (do seekp 2 0 .beg; onO (owriteLoop 3 [120, 121]); let a ← look Wr.tellp; onO (flushLoop 2); pure (a, ← look Wr.tellp) : P Wr (Int × Int))
      { o := { cap := 8, file := { sys := [.did 2] } }, data := [97, 98, 99], base := 3, app := true } with
    | .ret l w => decide (l = (2, 5) ∧ w.content = [97, 98, 99, 120, 121])
    | _ => false) = true := by decide +kernel

/-- **C70** is false of `tellp ()` on a pipe: with three bytes in the buffer it is 2, not -1. -/
theorem tellp_pipe_violated : ∃ w : Wr, w.o.Ok ∧ w.seekable = false ∧ w.tellp = 2 :=
  ⟨{ o := { buf := [97, 98, 99], pos := 3, cap := 8 }, seekable := false }, ⟨by decide, Or.inr (by decide), rfl, rfl⟩, rfl, by decide⟩

end Ustl.File
