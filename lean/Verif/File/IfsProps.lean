import Verif.File.Ifs
import Verif.Text.RoundTrip
/-! # ifstream: lines, blocks and numbers (C59) -/
namespace Ustl.File
open Ustl.Stream
open Text (TIS)

example : Gives [.did 1, .eintr, .did 3, .did 3] := by
  intro a ha
  simp at ha
  rcases ha with rfl | rfl | rfl
  · exact Or.inr ⟨0, rfl⟩
  · exact Or.inl rfl
  · exact Or.inr ⟨2, rfl⟩

example : (match fileAll [.getline 10, .word, .char] (.ofFile { src := [97, 98, 10, 99, 32, 100], sys := [.did 1, .eintr, .did 3, .did 3, .did 1] } 4 205) with
    | .ret l s' => decide (l = [[97, 98], [99], [100]] ∧ s'.ahead = [])
    | _ => false) = true := by decide +kernel

theorem stringAll_cons (op : RdOp) (ops : List RdOp) : stringAll (op :: ops) = (op.string >>= fun w => stringAll ops >>= fun l => pure (w :: l)) := rfl

theorem string_getline (d : Byte) : RdOp.string (.getline d) = Text.getlineStr d := rfl

theorem getlines_succ (d : Byte) (n : Nat) : Text.getlines d (n + 1) = Text.lineThen d (Text.getlines d n) := rfl

theorem stringAll_lines (delim : Byte) (ls : List (List Byte)) : stringAll (ls.map fun _ => .getline delim) = Text.getlines delim ls.length := by
  induction ls with
  | nil => rfl
  | cons w ls ih => rw [List.map_cons, List.length_cons, stringAll_cons, string_getline, getlines_succ, ih, Text.lineThen]

/-- **C59**: a file that consists of lines is read as these lines, whatever the size of the buffer and the pieces the system
gives. -/
theorem file_lines_spec (delim : Byte) (ls : List (List Byte)) (rest : List Byte) (hd : ∀ w ∈ ls, delim ∉ w) (sys : List Sys) (size : Nat) (fill : Byte) (hs : Gives sys)
    (hl : (ls.flatMap (· ++ [delim]) ++ rest).length < 2 ^ 32) :
    (fileAll (ls.map fun _ => .getline delim) (.ofFile { src := ls.flatMap (· ++ [delim]) ++ rest, sys := sys } size fill)).Is
      (fun l s' => l = ls ∧ s'.ahead = rest) (fun _ => False) (fun s' => s'.file.sys = []) := by
  have ht : (TIS.mk' (ls.flatMap (· ++ [delim]) ++ rest)).unread = ls.flatMap (· ++ [delim]) ++ rest := by simp [TIS.unread, TIS.mk']
  obtain ⟨t', e, h1, h2, h3⟩ := Text.getlines_spec delim ls (s := .mk' (ls.flatMap (· ++ [delim]) ++ rest)) ⟨Nat.zero_le _, hl, rfl, rfl⟩ rest ht hd
  refine (ifstream_as_string_partial _ _ [0] sys size fill hs hl ls t' (by rw [stringAll_lines]; exact e)).mono ?_ (fun _ h => h) (fun _ h => h)
  rintro l s' ⟨g1, g2, _⟩
  exact ⟨g1, by rw [g2, h2]⟩

example : Gives [.did 1, .did 2, .did 9] ∧ (∀ w ∈ [[97], [98]], (10 : Byte) ∉ w) := by
  refine ⟨?_, by decide⟩
  intro a ha; simp at ha; rcases ha with rfl | rfl | rfl
  · exact Or.inr ⟨0, rfl⟩
  · exact Or.inr ⟨1, rfl⟩
  · exact Or.inr ⟨8, rfl⟩

example : (match fileAll [.getline 10, .getline 10] (.ofFile { src := [97, 10, 98, 10, 99], sys := [.did 1, .did 2, .did 9] } 8 0) with
    | .ret l s' => decide (l = [[97], [98]] ∧ s'.ahead = [99])
    | _ => false) = true := by decide +kernel

/-- **C59** (partial): `read (p, n)` gives the next `n` bytes if everything in the buffer was read before, or if the buffer has `n`
bytes. What is missing: see `read_block_violated`. -/
theorem read_block_partial {s : IFS} (h : s.Ok) (n : Nat) (hn : 0 < n) (h32 : n < 2 ^ 32) (hr : s.remaining = 0 ∨ n ≤ s.remaining) (ha : n ≤ s.ahead.length) :
    (iread n s).Is (fun d s' => d = s.ahead.take n ∧ s'.Ok ∧ s'.ahead = s.ahead.drop n ∧ s'.gcount = n) (fun _ => False) (fun s' => s'.file.sys = []) := by
  have hfin : ∀ s1 : IFS, s1.Ok → n ≤ s1.remaining → s1.ahead = s.ahead → ((do isetCount n; itakeN (n % 2 ^ 32) : P IFS (List Byte)) s1).Is
      (fun d s' => d = s.ahead.take n ∧ s'.Ok ∧ s'.ahead = s.ahead.drop n ∧ s'.gcount = n) (fun _ => False) (fun s' => s'.file.sys = []) := by
    intro s1 h1 hn1 ha1
    rw [isetCount, modify_bind, Nat.mod_eq_of_lt h32]
    have hlim := h1.lim
    have hpos := h1.pos
    have hn1' := hn1
    unfold IFS.remaining at hn1'
    have e : itakeN n { s1 with gcount := n } = .ret (s1.unread.take n) { s1 with gcount := n, pos := s1.pos + n } := by
      unfold itakeN
      rw [if_pos (show n ≤ ({ s1 with gcount := n } : IFS).remaining from hn1)]
      have h2 : slice s1.buf s1.pos n = some (s1.unread.take n) := by
        unfold slice IFS.unread
        rw [if_pos (by omega), List.drop_take, List.take_take, Nat.min_eq_left (by omega)]
      rw [show ({ s1 with gcount := n } : IFS).buf = s1.buf from rfl, show ({ s1 with gcount := n } : IFS).pos = s1.pos from rfl, h2]
    rw [e]
    have hul : n ≤ s1.unread.length := by rw [h1.len]; exact hn1
    refine ⟨?_, ⟨by show s1.pos + n ≤ s1.lim; omega, h1.lim, h1.exc, h1.fexc, h1.sys, h1.same, h1.state⟩, ?_, rfl⟩
    · rw [← ha1, IFS.ahead, List.take_append_of_le_length hul]
    · rw [← ha1, IFS.ahead, IFS.ahead, List.drop_append_of_le_length hul]
      show (s1.buf.take s1.lim).drop (s1.pos + n) ++ _ = _
      rw [← List.drop_drop]; rfl
  unfold iread ishort
  by_cases hlt : s.remaining < n
  · have h0 : s.remaining = 0 := by omega
    refine Res.Is.bind (R := fun b s1 => b = false ∧ s1.Ok ∧ n ≤ s1.remaining ∧ s1.ahead = s.ahead) ?_ ?_
    · rw [look_bind, if_pos hlt]
      refine (underflow_is n hn h h0).bind ?_
      rintro u s1 ⟨b1, b2, b3, b4, b5, b6⟩
      have hnu : n ≤ u := by
        rcases b6 with b6 | ⟨b6, b7, b8⟩
        · exact b6.1
        · rw [← b2, IFS.ahead, b8, List.append_nil, b1.len, ← b3] at ha; exact ha
      exact Res.Is.pure ⟨by simp; omega, b1, by omega, b2⟩
    · rintro b s1 ⟨rfl, b1, b2, b3⟩
      exact hfin s1 b1 b2 b3
  · refine Res.Is.bind (R := fun b s1 => b = false ∧ s1 = s) ?_ ?_
    · rw [look_bind, if_neg hlt]; exact Res.Is.pure ⟨rfl, rfl⟩
    · rintro b s1 ⟨rfl, rfl⟩
      exact hfin s1 h (by omega) rfl

example : (iread 3 (.ofFile { src := [97, 98, 99, 100], sys := [.did 1, .did 2] } 8 0)).Is
    (fun d s' => d = [97, 98, 99] ∧ s'.Ok ∧ s'.ahead = [100] ∧ s'.gcount = 3) (fun _ => False) (fun s' => s'.file.sys = []) :=
  read_block_partial (ofFile_rel [97, 98, 99, 100] [] [.did 1, .did 2] 8 0 (by
    intro a ha; simp at ha; rcases ha with rfl | rfl
    · exact Or.inr ⟨0, rfl⟩
    · exact Or.inr ⟨1, rfl⟩) (by decide)).ok 3 (by decide) (by decide) (Or.inl rfl) (by decide)

/-- **C59** is false for `read (p, n)` when the buffer has some bytes, but not `n`: `underflow` reads over them. From a file
`ab`, newline, `cdefgh` of which the buffer holds the first five bytes, `getline` and `read (p, 4)` give `ab` and `efgh`: `cd` is lost. -/
theorem read_block_violated : (match (do let l ← igetlineStr 10; let d ← iread 4; pure (l, d) : P IFS (List Byte × List Byte))
      (.ofFile { src := [97, 98, 10, 99, 100, 101, 102, 103, 104], sys := [.did 5, .did 9, .did 9] } 16 0) with
    | .ret r _ => decide (r = ([97, 98], [101, 102, 103, 104]))
    | _ => false) = true := by decide +kernel

/-- **C59** is false for `getline (p, n)`: whether the end of the line is taken depends on whether it is in the buffer already.
With `ab`, newline, `cd` and room for two characters, the second `getline` gives `cd` or nothing. -/
theorem getline_buf_violated : (∀ k ∈ [(5, [99, 100, 0]), (2, [0])], (match (do let _ ← igetlineBuf 3 10; igetlineBuf 3 10 : P IFS (List Byte))
      (.ofFile { src := [97, 98, 10, 99, 100], sys := [.did k.1, .did 9, .did 9] } 16 0) with
    | .ret r _ => decide (r = k.2)
    | _ => false) = true) := by decide +kernel

/-- **C59** is false for numbers: the text `12 34` gives 12, unless the piece the system gave ends behind `12`: then it gives 34
at once, and 12 is lost. -/
theorem read_number_violated : (∀ k ∈ [(5, 12), (2, 34)], (match ireadNumber 32 0 9 (.ofFile { src := [49, 50, 32, 51, 52, 10], sys := [.did k.1, .did 9, .did 9] } 16 0) with
    | .ret r _ => decide (r = k.2)
    | _ => false) = true) := by decide +kernel

/-- **C59** is false for numbers: 1234 is 34 when the piece the system gave ends within it. -/
theorem read_number_split_violated : (match ireadNumber 32 0 9 (.ofFile { src := [49, 50, 51, 52, 10], sys := [.did 2, .did 9, .did 9] } 16 0) with
    | .ret r _ => decide (r = 34)
    | _ => false) = true := by decide +kernel

theorem iskipLoop_ok (ds : List Byte) : ∀ (f : Nat) (s : IFS) (x c : Byte) (r : List Byte), s.Ok → s.unread = ds ++ c :: r →
    (∀ d ∈ ds, s.isDelim d = true) → s.isDelim c = false → s.isDelim x = true → ds.length + 2 ≤ f →
    iskipLoop f x s = .ret c { s with pos := s.pos + (ds.length + 1) } := by
  have one : ∀ (f : Nat) (s : IFS) (x c : Byte) (r : List Byte), s.Ok → s.unread = c :: r → s.isDelim x = true →
      iskipLoop (f + 1) x s = iskipLoop f c { s with pos := s.pos + 1 } ∧ ({ s with pos := s.pos + 1 } : IFS).Ok ∧ ({ s with pos := s.pos + 1 } : IFS).unread = r := by
    intro f s x c r h hu hx
    obtain ⟨c', hc, hp, he⟩ := unread_cons h (by rw [hu]; simp)
    rw [hu] at he
    injection he with he1 he2
    subst he1
    have hrem : s.remaining ≠ 0 := by unfold IFS.remaining; omega
    have e1 : imore s = .ret true s := by unfold imore; rw [look_bind, if_pos hrem]; rfl
    have e2 : igetc x s = .ret c { s with pos := s.pos + 1 } := by
      unfold igetc; rw [look_bind, if_pos (by omega)]; unfold itake; rw [hc]
    refine ⟨?_, ⟨hp, h.lim, h.exc, h.fexc, h.sys, h.same, h.state⟩, he2.symm⟩
    conv => lhs; unfold iskipLoop iskipRound
    rw [look_bind, if_pos hx, P.bind_ret e1, if_pos rfl, P.bind_ret e2]
  induction ds with
  | nil =>
    intro f s x c r h hu _ hc hx hf
    obtain ⟨f, rfl⟩ : ∃ g, f = g + 2 := ⟨f - 2, by simp at hf; omega⟩
    obtain ⟨e, _, _⟩ := one (f + 1) s x c r h hu hx
    rw [e]
    unfold iskipLoop iskipRound
    rw [look_bind, if_neg (by show ¬ s.isDelim c = true; rw [hc]; simp)]
    rfl
  | cons d ds ih =>
    intro f s x c r h hu hd hc hx hf
    obtain ⟨f, rfl⟩ : ∃ g, f = g + 1 := ⟨f - 1, by simp at hf; omega⟩
    obtain ⟨e, h1, h2⟩ := one f s x d (ds ++ c :: r) h hu hx
    rw [e, ih f { s with pos := s.pos + 1 } d c r h1 h2 (fun y hy => hd y (by simp [hy])) hc (hd d (by simp)) (by simp at hf ⊢; omega)]
    congr 2
    show s.pos + 1 + (ds.length + 1) = s.pos + (ds.length + 1 + 1)
    omega

/-- **C59** (partial): a number in the usual notation is read correctly if it is in the buffer with the character behind it, which
must not be a letter or digit. What is missing: numbers that the end of a piece cuts, or touches (`read_number_violated`,
`read_number_split_violated`). -/
theorem read_number_partial {s : IFS} (h : s.Ok) {f : Text.Fmt} (hw : f.width = 0) {t : Text.ITy} {v : Int} {ds rest : List Byte} {e : Byte} (bits k : Nat)
    (hu : s.unread = ds ++ Text.intText f t v ++ e :: rest) (hd : ∀ d ∈ ds, s.isDelim d = true) (he : Text.digitVal e = none)
    (hsign : s.isDelim 45 = false ∧ s.isDelim 43 = false) (hdig : ∀ c, Text.isDigit 16 c = true → s.isDelim c = false) (hdel : s.delims ≠ []) :
    ∃ s', ireadNumber bits f.base.num (k + 1) s = .ret (Text.toS bits (Text.clip (Text.numVal f t v))) s' ∧ s'.Ok ∧ s'.unread = e :: rest ∧ s'.file = s.file := by
  obtain ⟨c, txt, et, hc⟩ := Text.intText_cons hw t v
  have hcd : s.isDelim c = false := by
    rcases hc with rfl | rfl | hc
    · exact hsign.1
    · exact hsign.2
    · exact hdig c hc
  have hc0 : c ≠ 0 := by rintro rfl; revert hc; decide
  have hu0 : s.unread = ds ++ c :: (txt ++ e :: rest) := by rw [hu, et]; simp
  have hx : s.isDelim (s.delims.headD 0) = true := by
    unfold IFS.isDelim
    cases hdl : s.delims with
    | nil => exact absurd hdl hdel
    | cons a b => simp
  have hlen := congrArg List.length hu0
  rw [h.len] at hlen
  have e1 : iskipDelims s = .ret c { s with pos := s.pos + (ds.length + 1) } := by
    unfold iskipDelims
    exact iskipLoop_ok ds _ s _ c _ h hu0 hd hcd hx (by unfold IFS.left; rw [hlen]; simp; omega)
  have hlim := h.lim
  have hlen' : s.lim - s.pos = ds.length + (txt.length + (rest.length + 1) + 1) := by simpa [IFS.remaining] using hlen
  have e2 : iungetc { s with pos := s.pos + (ds.length + 1) } = .ret () { s with pos := s.pos + ds.length } := by
    unfold iungetc iseek
    rw [if_neg (by show ¬ s.pos + (ds.length + 1) = 0; omega)]
    rw [if_pos (by show s.pos + (ds.length + 1) - 1 ≤ s.lim; omega)]
    congr 2
  have hun1 : ({ s with pos := s.pos + ds.length } : IFS).unread = Text.intText f t v ++ e :: rest := by
    show (s.buf.take s.lim).drop (s.pos + ds.length) = _
    rw [← List.drop_drop]
    show s.unread.drop _ = _
    rw [hu, List.append_assoc, List.drop_left]
  have hst := Text.strtol_intText hw (t := t) (v := v) he (rest ++ [0])
  have hil : (Text.intText f t v).length = txt.length + 1 := by rw [et]; rfl
  have e3 : iskip (Text.intText f t v).length { s with pos := s.pos + ds.length } = .ret () { s with pos := s.pos + ds.length + (Text.intText f t v).length } := by
    unfold iskip iseek
    rw [if_pos (by show s.pos + ds.length + (Text.intText f t v).length ≤ s.lim; omega)]
  refine ⟨{ s with pos := s.pos + ds.length + (Text.intText f t v).length }, ?_, ⟨by show s.pos + ds.length + (Text.intText f t v).length ≤ s.lim; omega, h.lim, h.exc, h.fexc, h.sys, h.same, h.state⟩, ?_, rfl⟩
  · unfold ireadNumber
    rw [P.bind_ret e1, if_neg hc0, P.bind_ret e2]
    unfold inumLoop inumRound
    rw [look_bind, hun1, show (Text.intText f t v ++ e :: rest ++ [0]) = Text.intText f t v ++ e :: (rest ++ [0]) by simp, hst]
    simp only
    rw [P.bind_ret e3, look_bind, if_neg (by show ¬ s.lim - (s.pos + ds.length + (Text.intText f t v).length) = 0; omega)]
    rfl
  · show (s.buf.take s.lim).drop (s.pos + ds.length + (Text.intText f t v).length) = _
    rw [← List.drop_drop, show (s.buf.take s.lim).drop (s.pos + ds.length) = ({ s with pos := s.pos + ds.length } : IFS).unread from rfl, hun1, List.drop_left]

example : (match ireadNumber 32 0 1 { buf := [32, 45, 49, 50, 32], lim := 5, file := {} } with
    | .ret r _ => decide (r = -12)
    | _ => false) = true := by decide +kernel

end Ustl.File
