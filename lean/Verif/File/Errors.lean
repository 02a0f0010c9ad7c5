import Verif.File.Load
/-! # Whole files: no error is passed over (C66) -/
namespace Ustl.File
open Ustl.Stream

/-- Of the answers `as` none that was used was an error. -/
def Clean (as rest : List Sys) : Prop := ∃ used, as = used ++ rest ∧ .err ∉ used

theorem Clean.refl (as : List Sys) : Clean as as := ⟨[], rfl, by simp⟩

theorem Clean.trans {a b c : List Sys} (h : Clean a b) (g : Clean b c) : Clean a c := by
  obtain ⟨u, rfl, hu⟩ := h
  obtain ⟨v, rfl, hv⟩ := g
  exact ⟨u ++ v, by simp, by simp [hu, hv]⟩

theorem Clean.cons {a : Sys} (ha : a ≠ .err) {as rest : List Sys} (h : Clean as rest) : Clean (a :: as) rest := by
  obtain ⟨u, rfl, hu⟩ := h
  exact ⟨a :: u, rfl, by simp [hu, Ne.symm ha]⟩

theorem raise7 {f : File} (hx : f.ios.exc = 7) {v : Nat} (hv : v = 6 ∨ v = 4 ∨ v = 5) :
    raise v f = .exn { f with ios := { f.ios with state := f.ios.state ||| v } } := by
  unfold raise
  rw [if_pos (by rw [hx]; rcases hv with rfl | rfl | rfl <;> decide)]

theorem writeLoop_clean (as : List Sys) : ∀ (d l : List Byte) (f f' : File), f.ios.exc = 7 → writeLoop as d f = .ret l f' → Clean as f'.sys := by
  induction as with
  | nil =>
    intro d l f f' hx h
    unfold writeLoop at h
    split at h
    · cases h; exact .refl _
    · cases h
  | cons a as ih =>
    intro d l f f' hx h
    unfold writeLoop at h
    split at h
    · cases h; exact .refl _
    · cases a with
      | did k =>
        simp only at h
        split at h
        · exact .cons (by simp) (ih _ _ { f with out := f.out ++ d.take (min k d.length) } _ hx h)
        · rw [P.bind_exn (raise7 (f := { f with sys := as }) hx (.inl rfl))] at h; cases h
      | eintr => exact .cons (by simp) (ih _ _ _ _ hx h)
      | eagain => cases h; exact .cons (by simp) (.refl _)
      | err => rw [P.bind_exn (raise7 (f := { f with sys := as }) hx (.inr (.inl rfl)))] at h; cases h

theorem readsomeLoop_clean (n : Nat) (as : List Sys) : ∀ (d : List Byte) (f f' : File), f.ios.exc = 7 → readsomeLoop n as f = .ret d f' →
    Clean as f'.sys := by
  induction as with
  | nil => intro d f f' hx h; cases h
  | cons a as ih =>
    intro d f f' hx h
    unfold readsomeLoop at h
    cases a with
    | did k =>
      simp only at h
      split at h
      · cases h; exact .cons (by simp) (.refl _)
      · rw [P.bind_exn (raise7 (f := { f with sys := as }) hx (.inl rfl))] at h; cases h
    | eintr => exact .cons (by simp) (ih _ _ _ hx h)
    | eagain => cases h; exact .cons (by simp) (.refl _)
    | err => rw [P.bind_exn (raise7 (f := { f with sys := as }) hx (.inr (.inl rfl)))] at h; cases h

theorem readLoop_clean (k : Nat) : ∀ (n br r : Nat) (f f' : File), f.ios.exc = 7 → readLoop k n br f = .ret r f' → Clean f.sys f'.sys := by
  induction k with
  | zero => intro n br r f f' hx h; cases h
  | succ k ih =>
    intro n br r f f' hx h
    unfold readLoop at h
    split at h
    · cases e : readsome (n - br) f with
      | oob => have h1 := readsomeLoop_is (n - br) f.sys f; rw [show readsomeLoop (n - br) f.sys f = .oob from e] at h1; exact h1.elim
      | exn f1 => rw [P.bind_exn e] at h; cases h
      | run f1 => rw [P.bind_run e] at h; cases h
      | ret d f1 =>
        rw [P.bind_ret e] at h
        have hi := readsomeLoop_ret7 _ _ _ _ _ hx e
        exact (readsomeLoop_clean _ _ _ _ _ hx e).trans (ih _ _ _ { f1 with mem := f1.mem ++ d } _ (by show f1.ios.exc = 7; rw [hi, hx]) h)
    · cases h; exact .refl _

theorem closeLoop_clean (as : List Sys) : ∀ (f f' : File), f.ios.exc = 7 → closeLoop as f = .ret () f' → Clean as f'.sys := by
  induction as with
  | nil => intro f f' hx h; cases h
  | cons a as ih =>
    intro f f' hx h
    unfold closeLoop at h
    cases a with
    | did k => cases h; exact .cons (by simp) (.refl _)
    | eintr => exact .cons (by simp) (ih { f with closed := f.closed ++ [f.fd] } _ hx h)
    | eagain => simp only at h; rw [raise7 (f := { f with sys := as, closed := f.closed ++ [f.fd] }) hx (.inr (.inr rfl))] at h; cases h
    | err => simp only at h; rw [raise7 (f := { f with sys := as, closed := f.closed ++ [f.fd] }) hx (.inr (.inr rfl))] at h; cases h

/-- A sequence that returns: each part did. -/
theorem bind_ret_split {σ α β : Type} {m : P σ α} {k : α → P σ β} {s s' : σ} {b : β} (h : (m >>= k) s = .ret b s') :
    ∃ a s1, m s = .ret a s1 ∧ k a s1 = .ret b s' := by
  cases e : m s with
  | ret a s1 => exact ⟨a, s1, rfl, by rw [P.bind_ret e] at h; exact h⟩
  | exn s1 => rw [P.bind_exn e] at h; cases h
  | run s1 => rw [P.bind_run e] at h; cases h
  | oob =>
    have : (m >>= k) s = .oob := by
      show (match m s with | .ret a s' => k a s' | .exn s' => .exn s' | .oob => .oob | .run s' => .run s') = _
      rw [e]
    rw [this] at h; cases h

theorem close_clean {f f' : File} (hx : f.ios.exc = 7) (h : close f = .ret () f') : Clean f.sys f'.sys := by
  unfold close at h
  split at h
  · cases h; exact .refl _
  · obtain ⟨a, f1, e, h⟩ := bind_ret_split h
    have h1 : Clean f.sys f1.sys := closeLoop_clean _ _ _ hx e
    cases h
    exact h1

/-- **C66** no error is passed over: if `write_file` returns, none of the answers it got from the system, to `write` or to `close`,
was an error. -/
theorem write_file_errors (nfd : Int) (name d : List Byte) (f f' : File) (hf : f.fd < 0) (h : writeFile nfd name d f = .ret () f') :
    ∃ used, f.sys = used ++ f'.sys ∧ .err ∉ used := by
  unfold writeFile inScope at h
  have hb := writeFileBody_is nfd name d f hf
  cases e : writeFileBody nfd name d f with
  | oob => rw [e] at h; cases h
  | run f1 => rw [e] at h; cases h
  | exn f1 =>
    rw [e] at h
    simp only at h
    have hd := destroy_any f1
    cases e2 : destroy f1 with
    | ret a f2 => rw [e2] at h; cases h
    | exn f2 => rw [e2] at h; cases h
    | oob => rw [e2] at h; cases h
    | run f2 => rw [e2] at h; cases h
  | ret a f1 =>
    rw [e] at h hb
    obtain ⟨_, hfd, _⟩ := hb
    simp only at h
    rw [P.bind_ret (destroy_none hfd)] at h
    cases h
    show Clean f.sys f1.sys
    unfold writeFileBody at e
    obtain ⟨_, f2, e2, e⟩ := bind_ret_split e
    cases e2
    obtain ⟨_, f3, e3, e⟩ := bind_ret_split e
    obtain ⟨_, f4, e4, e⟩ := bind_ret_split e
    have h3 := attach_fresh nfd name { f with ios := { f.ios with exc := 7 } } hf rfl
    have e3 : attach nfd name { f with ios := { f.ios with exc := 7 } } = .ret _ f3 := e3
    rw [e3] at h3
    obtain ⟨_, _, _, h3i, _, h3s⟩ := h3
    unfold write at e4
    obtain ⟨l, f5, e5, e4⟩ := bind_ret_split e4
    cases e4
    have h3s : f3.sys = f.sys := h3s
    rw [← h3s]
    have hx : f3.ios.exc = 7 := by rw [h3i]
    refine (writeLoop_clean _ _ _ _ _ hx e5).trans (close_clean ?_ e)
    rw [writeLoop_ret7 _ _ _ _ _ hx e5, hx]

theorem onFile_ret_split {α : Type} {m : P File α} {s s' : Ld} {a : α} (h : onFile m s = .ret a s') : m { s.f with mem := [] } = .ret a s'.f := by
  unfold onFile at h
  cases e : m { s.f with mem := [] } with
  | oob => rw [e] at h; cases h
  | exn f => rw [e] at h; simp only at h; split at h <;> cases h
  | run f => rw [e] at h; simp only at h; split at h <;> cases h
  | ret b f => rw [e] at h; simp only at h; split at h <;> cases h; rfl

/-- **C66** no error is passed over: if `read_file` returns, none of the answers it got from the system, to `read` or to `close`, was an
error. -/
theorem read_file_errors (nfd : Int) (name : List Byte) (st : Option Nat) (free : Nat) (junk : Nat → Byte) (s s' : Ld) (hf : s.f.fd < 0)
    (h : readFile nfd name st free junk s = .ret () s') : ∃ used, s.f.sys = used ++ s'.f.sys ∧ .err ∉ used := by
  unfold readFile at h
  have hb := readFileBody_is nfd name st free junk s hf
  cases e : readFileBody nfd name st free junk s with
  | oob => rw [e] at h; cases h
  | run f1 => rw [e] at h; cases h
  | exn s1 =>
    rw [e] at h
    simp only at h
    cases e2 : onFile destroy s1 with
    | ret a f2 => rw [e2] at h; cases h
    | exn f2 => rw [e2] at h; cases h
    | oob => rw [e2] at h; cases h
    | run f2 => rw [e2] at h; cases h
  | ret a s1 =>
    rw [e] at h hb
    obtain ⟨_, hfd, _⟩ := hb
    simp only at h
    have h := onFile_ret_split h
    rw [destroy_none (f := { s1.f with mem := [] }) hfd] at h
    injection h with _ h
    rw [← h]
    show Clean s.f.sys s1.f.sys
    unfold readFileBody at e
    obtain ⟨_, s2, e2, e⟩ := bind_ret_split e
    obtain ⟨_, s3, e3, e⟩ := bind_ret_split e
    obtain ⟨n, s4, e4, e⟩ := bind_ret_split e
    rw [modify_bind] at e
    obtain ⟨_, s5, e5, e⟩ := bind_ret_split e
    obtain ⟨_, s6, e6, e⟩ := bind_ret_split e
    cases e
    have e2 := onFile_ret_split e2
    have e3 := onFile_ret_split e3
    have e4 := onFile_ret_split e4
    have e5 := onFile_ret_split e5
    have e6 := onFile_ret_split e6
    unfold exceptions modify at e2
    injection e2 with _ e2
    have h3 := attach_fresh nfd name { s2.f with mem := [] } (by rw [← e2]; exact hf) (by rw [← e2])
    rw [e3] at h3
    obtain ⟨_, _, _, h3i, _, h3s⟩ := h3
    have h3s : s3.f.sys = s.f.sys := by rw [h3s, ← e2]
    have h4 : s4.f = { s3.f with mem := [] } := by
      unfold fsize at e4
      cases st with
      | none => cases e4
      | some m => injection e4 with _ e4; exact e4.symm
    have h4s : s4.f.sys = s.f.sys := by rw [h4]; exact h3s
    have h4x : s4.f.ios.exc = 7 := by rw [h4]; show s3.f.ios.exc = 7; rw [h3i]
    have h4i : s4.f.ios = ⟨0, 7⟩ := by rw [h4]; exact h3i
    rw [← h4s]
    unfold read at e5
    have h5 := readLoop_clean _ _ _ _ { s4.f with mem := [] } _ h4x e5
    have h5i := readLoop_ret7 _ _ _ _ { s4.f with mem := [] } _ h4i e5
    exact h5.trans (close_clean (f := { s5.f with mem := [] }) (by show s5.f.ios.exc = 7; rw [h5i]; exact h4x) e6)

example : (match writeFile 5 [97] [1, 2, 3] { fd := -1, sys := [.did 2, .err, .did 0] } with
    | .exn f => decide (f.out = [1, 2] ∧ f.closed = [5]) | _ => false) = true := by decide +kernel

end Ustl.File
