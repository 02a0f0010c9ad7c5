import Verif.File.Saved
/-! # Whole files: reading them, and the round trip (C66) -/
namespace Ustl.File
open Ustl.Stream

theorem store_nil (b : Blk) : b.store [] = b := by simp [Blk.store]

theorem onFile_is {α : Type} {m : P File α} {s : Ld} {R : α → File → Prop} {E U : File → Prop} (h : (m { s.f with mem := [] }).Is R E U)
    (hR : ∀ a f, R a f → f.mem.length ≤ s.b.buf.length) (hE : ∀ f, E f → f.mem.length ≤ s.b.buf.length)
    (hU : ∀ f, U f → f.mem.length ≤ s.b.buf.length) : (onFile m s).Is
    (fun a s' => R a s'.f ∧ s'.b = s.b.store s'.f.mem) (fun s' => E s'.f ∧ s'.b = s.b.store s'.f.mem)
    (fun s' => U s'.f ∧ s'.b = s.b.store s'.f.mem) := by
  unfold onFile
  cases e : m { s.f with mem := [] } with
  | oob => rw [e] at h; exact h.elim
  | ret a f => rw [e] at h; simp only; rw [if_pos (hR a f h)]; exact ⟨h, rfl⟩
  | exn f => rw [e] at h; simp only; rw [if_pos (hE f h)]; exact ⟨h, rfl⟩
  | run f => rw [e] at h; simp only; rw [if_pos (hU f h)]; exact ⟨h, rfl⟩

/-- An operation that stores nothing leaves the block alone. -/
theorem onFile_still {α : Type} {m : P File α} {s : Ld} {R : α → File → Prop} {E U : File → Prop} (h : (m { s.f with mem := [] }).Is R E U)
    (hR : ∀ a f, R a f → f.mem = []) (hE : ∀ f, E f → f.mem = []) (hU : ∀ f, U f → f.mem = []) : (onFile m s).Is
    (fun a s' => R a s'.f ∧ s'.b = s.b) (fun s' => E s'.f ∧ s'.b = s.b) (fun s' => U s'.f ∧ s'.b = s.b) := by
  refine (onFile_is h (fun a f h => by rw [hR a f h]; simp) (fun f h => by rw [hE f h]; simp) (fun f h => by rw [hU f h]; simp)).mono ?_ ?_ ?_
  · rintro a s' ⟨h1, h2⟩; exact ⟨h1, by rw [h2, hR a _ h1, store_nil]⟩
  · rintro s' ⟨h1, h2⟩; exact ⟨h1, by rw [h2, hE _ h1, store_nil]⟩
  · rintro s' ⟨h1, h2⟩; exact ⟨h1, by rw [h2, hU _ h1, store_nil]⟩

theorem readsomeLoop_ints (n : Nat) (as : List Sys) : ∀ (f : File), (readsomeLoop n as f).Is (fun _ f' => ints f'.sys ≤ ints as)
    (fun f' => ints f'.sys ≤ ints as) (fun f' => ints f'.sys ≤ ints as) := by
  induction as with
  | nil => intro f; exact Nat.le_refl _
  | cons a as ih =>
    intro f
    have hl := ints_cons_le a as
    have bad : ∀ v, ((do raise v; pure [] : P File (List Byte)) { f with sys := as }).Is (fun _ f' => ints f'.sys ≤ ints (a :: as))
        (fun f' => ints f'.sys ≤ ints (a :: as)) (fun f' => ints f'.sys ≤ ints (a :: as)) := by
      intro v
      refine Res.Is.bind ((raise_sys v _).mono (fun _ _ h => h) (fun _ h => by rw [h]; exact hl) (fun _ h => h.elim)) ?_
      intro _ f' h
      show ints f'.sys ≤ _
      rw [h]; exact hl
    unfold readsomeLoop
    cases a with
    | did k =>
      simp only
      split
      · exact hl
      · exact bad 6
    | eintr => exact (ih f).mono (fun _ _ h => Nat.le_trans h hl) (fun _ h => Nat.le_trans h hl) (fun _ h => Nat.le_trans h hl)
    | eagain => exact hl
    | err => exact bad 4

theorem readLoop_ints (k : Nat) : ∀ (n br : Nat) (f : File), (readLoop k n br f).Is (fun _ f' => ints f'.sys ≤ ints f.sys)
    (fun f' => ints f'.sys ≤ ints f.sys) (fun f' => ints f'.sys ≤ ints f.sys) := by
  induction k with
  | zero => intro n br f; exact Nat.le_refl _
  | succ k ih =>
    intro n br f
    unfold readLoop
    split
    · refine Res.Is.bind (readsomeLoop_ints (n - br) f.sys f) ?_
      intro d f1 h
      show Res.Is _ _ _ (readLoop k n (br + d.length) { f1 with mem := f1.mem ++ d })
      exact (ih n (br + d.length) { f1 with mem := f1.mem ++ d }).mono (fun _ _ g => Nat.le_trans g h) (fun _ g => Nat.le_trans g h)
        (fun _ g => Nat.le_trans g h)
    · exact Nat.le_refl _

/-- `read` with exceptions on, from a stream in good order. -/
theorem read_on (n : Nat) (f : File) (hi : f.ios = ⟨0, 7⟩) (hm : f.mem = []) : (read n f).Is
    (fun _ f' => n ≤ f.src.length ∧ f'.mem = f.src.take n ∧ f'.fd = f.fd ∧ f'.closed = f.closed ∧ f'.ios.exc = 7 ∧ ints f'.sys ≤ ints f.sys)
    (fun f' => f'.mem <+: f.src ∧ f'.mem.length < n ∧ f'.fd = f.fd ∧ f'.closed = f.closed ∧ ints f'.sys ≤ ints f.sys)
    (fun f' => f'.mem <+: f.src ∧ f'.mem.length < n ∧ f'.fd = f.fd ∧ f'.closed = f.closed) := by
  have h := readLoop_is (f.sys.length + 1) n 0 f (by omega) (by omega)
  have hv := readLoop_ints (f.sys.length + 1) n 0 f
  unfold read
  cases e : readLoop (f.sys.length + 1) n 0 f with
  | oob => rw [e] at h; exact h.elim
  | ret r f1 =>
    rw [e] at h hv
    obtain ⟨d, used, g, h1, h2, h3, h4, h5⟩ := h
    have hio := readLoop_ret7 _ _ _ _ _ _ hi e
    have hr : r = n := by
      rcases Nat.lt_or_ge r n with h | h
      · have := (h5 (by rw [hi]) h).1
        rw [hio, hi] at this
        simp [Ios.fail] at this
      · omega
    have hd : d.length = n := by omega
    have hsrc : f.src.take n = d := by rw [g.src, ← hd]; simp
    refine ⟨by rw [g.src]; simp; omega, by rw [g.mem, hm, hsrc]; rfl, g.kept.fd, g.kept.closed, by rw [hio, hi], hv⟩
  | exn f1 =>
    rw [e] at h hv
    obtain ⟨d, g, h1, _⟩ := h
    have hmm : f1.mem = d := by rw [g.mem, hm]; rfl
    exact ⟨by rw [hmm, g.src]; exact List.prefix_append _ _, by rw [hmm]; omega, g.kept.fd, g.kept.closed, hv⟩
  | run f1 =>
    rw [e] at h hv
    obtain ⟨d, g, h1, _⟩ := h
    have hmm : f1.mem = d := by rw [g.mem, hm]; rfl
    exact ⟨by rw [hmm, g.src]; exact List.prefix_append _ _, by rw [hmm]; omega, g.kept.fd, g.kept.closed⟩

/-- The block after the beginning `d` of the file was stored in it. -/
def Stored (free : Nat) (junk : Nat → Byte) (src : List Byte) (b b' : Blk) : Prop :=
  b' = b ∨ ∃ n d, d <+: src ∧ d.length ≤ n ∧ b' = (b.reserve free n junk).store d

theorem reserve_length (b : Blk) (free n : Nat) (junk : Nat → Byte) : n ≤ (b.reserve free n junk).buf.length := by
  unfold Blk.reserve
  simp; omega

theorem readFileBody_is (nfd : Int) (name : List Byte) (st : Option Nat) (free : Nat) (junk : Nat → Byte) (s : Ld) (hf : s.f.fd < 0) :
    (readFileBody nfd name st free junk s).Is
    (fun _ s' => 0 ≤ nfd ∧ s'.f.fd < 0 ∧ (∃ n, st = some n ∧ n ≤ s.f.src.length ∧ s'.b.size = n ∧ s'.b.bytes = s.f.src.take n ∧
        s'.b = { (s.b.reserve free n junk).store (s.f.src.take n) with size := n }) ∧
      ∃ j, s'.f.closed = s.f.closed ++ List.replicate (j + 1) nfd ∧ j + ints s'.f.sys ≤ ints s.f.sys)
    (fun s' => Stored free junk s.f.src s.b s'.b ∧ ((nfd < 0 ∧ s'.f.fd < 0 ∧ s'.b = s.b ∧ s'.f.closed = s.f.closed) ∨
      (0 ≤ nfd ∧ s'.f.fd = nfd ∧ (st = none → s'.b = s.b) ∧
        ∃ j, s'.f.closed = s.f.closed ++ List.replicate j nfd ∧ j + ints s'.f.sys ≤ ints s.f.sys + 1)))
    (fun s' => Stored free junk s.f.src s.b s'.b) := by
  unfold readFileBody
  -- exceptions
  have h0 : onFile (exceptions 7) s = .ret () ⟨{ s.f with mem := [], ios := { s.f.ios with exc := 7 } }, s.b⟩ := by
    unfold onFile exceptions modify
    simp only
    rw [if_pos (by simp), store_nil]
  rw [P.bind_ret h0]
  -- attach
  refine Res.Is.bind ((onFile_still (attach_fresh nfd name { s.f with mem := [], ios := { s.f.ios with exc := 7 } } hf rfl)
    (fun _ _ h => h.1.mem) (fun _ h => h.1.mem) (fun _ h => h.elim)).mono (fun _ _ h => h) ?_ (fun _ h => h.1.elim)) ?_
  · rintro s1 ⟨⟨h1, h2, h3, h4, h5⟩, hb⟩
    exact ⟨.inl hb, .inl ⟨h3, h2, hb, h4⟩⟩
  rintro _ s1 ⟨⟨s1o, a1, a2, a3, a4, a5⟩, hb⟩
  have a4 : s1.f.closed = s.f.closed := a4
  have a5 : s1.f.sys = s.f.sys := a5
  have asrc : s1.f.src = s.f.src := s1o.src
  have hb : s1.b = s.b := hb
  -- fstat
  cases st with
  | none =>
    have h1 : onFile (fsize none) s1 = .exn ⟨{ s1.f with mem := [] }, s1.b⟩ := by
      unfold onFile fsize
      simp only
      rw [if_pos (by simp), store_nil]
    rw [P.bind_exn h1]
    refine ⟨.inl hb, .inr ⟨a2, a1, fun _ => hb, 0, ?_, ?_⟩⟩
    · show s1.f.closed = _; rw [a4]; simp
    · show 0 + ints s1.f.sys ≤ _; rw [a5]; omega
  | some n =>
    have h1 : onFile (fsize (some n)) s1 = .ret n ⟨{ s1.f with mem := [] }, s1.b⟩ := by
      unfold onFile fsize
      simp only
      rw [if_pos (by simp), store_nil]
    rw [P.bind_ret h1, modify_bind, hb]
    have hr := read_on n { s1.f with mem := [] } a3 rfl
    have hcap := reserve_length s.b free n junk
    refine Res.Is.bind ((onFile_is (s := ⟨{ s1.f with mem := [] }, s.b.reserve free n junk⟩) hr ?_ ?_ ?_).mono (fun _ _ h => h) ?_ ?_) ?_
    · rintro _ f ⟨g1, g2, _⟩
      rw [g2, List.length_take]
      exact Nat.le_trans (Nat.min_le_left _ _) hcap
    · rintro f ⟨_, g, _⟩; exact Nat.le_trans (Nat.le_of_lt g) hcap
    · rintro f ⟨_, g, _⟩; exact Nat.le_trans (Nat.le_of_lt g) hcap
    · rintro s2 ⟨⟨g1, g2, g3, g4, g5⟩, hb2⟩
      have g1 : s2.f.mem <+: s1.f.src := g1
      have g4 : s2.f.closed = s1.f.closed := g4
      have g5 : ints s2.f.sys ≤ ints s1.f.sys := g5
      refine ⟨.inr ⟨n, s2.f.mem, asrc ▸ g1, Nat.le_of_lt g2, hb2⟩, .inr ⟨a2, g3.trans a1, by simp, 0, by rw [g4, a4]; simp, by rw [← a5]; omega⟩⟩
    · rintro s2 ⟨⟨g1, g2, g3, g4⟩, hb2⟩
      have g1 : s2.f.mem <+: s1.f.src := g1
      exact .inr ⟨n, s2.f.mem, asrc ▸ g1, Nat.le_of_lt g2, hb2⟩
    rintro _ s2 ⟨⟨g1, g2, g3, g4, g5, g6⟩, hb2⟩
    have g1 : n ≤ s1.f.src.length := g1
    have g2 : s2.f.mem = s1.f.src.take n := g2
    have g3 : s2.f.fd = nfd := g3.trans a1
    have g4 : s2.f.closed = s.f.closed := g4.trans a4
    have g6 : ints s2.f.sys ≤ ints s1.f.sys := g6
    rw [asrc] at g1 g2
    rw [g2] at hb2
    have hb2 : s2.b = (s.b.reserve free n junk).store (s.f.src.take n) := hb2
    have haft : Stored free junk s.f.src s.b s2.b :=
      .inr ⟨n, s.f.src.take n, List.take_prefix _ _, by rw [List.length_take]; exact Nat.min_le_left _ _, hb2⟩
    -- close
    refine Res.Is.bind ((onFile_still (close_any { s2.f with mem := [] }) (fun _ _ h => h.1.mem) (fun _ h => h.1.mem) (fun _ h => h.1.mem)).mono
      (fun _ _ h => h) ?_ ?_) ?_
    · rintro s3 ⟨⟨c1, c2, c3, ⟨j, c4, c5⟩, _⟩, hb3⟩
      have c4 : s3.f.closed = s2.f.closed ++ List.replicate (j + 1) s2.f.fd := c4
      have c5 : j + ints s3.f.sys ≤ ints s2.f.sys := c5
      refine ⟨by rw [hb3]; exact haft, .inr ⟨a2, c2.trans g3, by simp, j + 1, by rw [c4, g4, g3], by rw [← a5]; omega⟩⟩
    · rintro s3 ⟨_, hb3⟩
      rw [hb3]; exact haft
    rintro _ s3 ⟨⟨c1, c2, _, c4⟩, hb3⟩
    rw [if_neg (by show ¬ s2.f.fd < 0; omega)] at c4
    obtain ⟨j, c5, c6⟩ := c4
    have c5 : s3.f.closed = s2.f.closed ++ List.replicate (j + 1) s2.f.fd := c5
    have c6 : j + ints s3.f.sys ≤ ints s2.f.sys := c6
    refine ⟨a2, c2, ⟨n, rfl, g1, rfl, ?_, ?_⟩, j, by show s3.f.closed = _; rw [c5, g4, g3], by show j + ints s3.f.sys ≤ _; rw [← a5]; omega⟩
    · show s3.b.buf.take n = _
      rw [hb3, hb2]
      unfold Blk.store
      have : (s.f.src.take n).length = n := by rw [List.length_take]; omega
      show (s.f.src.take n ++ _).take n = _
      rw [List.take_append_of_le_length (by omega), List.take_of_length_le (by omega)]
    · show ({ s3.b with size := n } : Blk) = _
      rw [hb3, hb2]

/-- **C66** `read_file`, for every file, every block and every way the system behaves: nothing is stored outside the block. If it
returns, the file was opened and closed, and the block shows exactly the first `n` bytes of the file, where `n` is the size that
`fstat` gave. If it throws, the size of the block is as before, and if the file could not be opened or its size could not be found
out, so is everything in it. Unless interrupted, the descriptor is closed once if it returns, and once or twice if it throws. -/
theorem read_file_partial (nfd : Int) (name : List Byte) (st : Option Nat) (free : Nat) (junk : Nat → Byte) (s : Ld) (hf : s.f.fd < 0)
    (hc : s.f.closed = []) : (readFile nfd name st free junk s).Is
    (fun _ s' => 0 ≤ nfd ∧ (∃ n, st = some n ∧ n ≤ s.f.src.length ∧ s'.b.size = n ∧ s'.b.bytes = s.f.src.take n) ∧ s'.f.fd < 0 ∧
      ∃ j, 1 ≤ j ∧ j ≤ 1 + ints s.f.sys ∧ s'.f.closed = List.replicate j nfd)
    (fun s' => s'.b.size = s.b.size ∧ s'.f.fd < 0 ∧ (nfd < 0 ∨ st = none → s'.b = s.b) ∧ if nfd < 0 then s'.f.closed = []
      else ∃ j, 1 ≤ j ∧ j ≤ 2 + ints s.f.sys ∧ s'.f.closed = List.replicate j nfd)
    (fun _ => True) := by
  have hsize : ∀ b', Stored free junk s.f.src s.b b' → b'.size = s.b.size := by
    rintro b' (rfl | ⟨n, d, _, _, rfl⟩) <;> rfl
  have hb := readFileBody_is nfd name st free junk s hf
  rw [hc] at hb
  unfold readFile
  cases e : readFileBody nfd name st free junk s with
  | oob => rw [e] at hb; exact hb
  | run s1 => trivial
  | ret a s1 =>
    rw [e] at hb
    obtain ⟨h1, h2, ⟨n, h3, h3a, h3b, h3c, _⟩, j, h4, h5⟩ := hb
    simp only
    refine (onFile_still (destroy_any { s1.f with mem := [] }) (fun _ _ h => h.1.mem) (fun _ h => h.elim) (fun _ h => h.1.mem)).mono
      ?_ (fun _ h => h.1.elim) (fun _ _ => trivial)
    rintro _ s2 ⟨⟨c1, c2, c3⟩, hb2⟩
    rw [if_pos (show s1.f.fd < 0 from h2)] at c3
    refine ⟨h1, ⟨n, h3, h3a, by rw [hb2, h3b], by rw [hb2, h3c]⟩, c2, j + 1, by omega, by omega, ?_⟩
    rw [c3.1]; exact h4
  | exn s1 =>
    rw [e] at hb
    obtain ⟨haft, hb⟩ := hb
    have hd := onFile_still (s := s1) (destroy_any { s1.f with mem := [] }) (fun _ _ h => h.1.mem) (fun _ h => h.elim) (fun _ h => h.1.mem)
    simp only
    cases e2 : onFile destroy s1 with
    | oob => rw [e2] at hd; exact hd
    | run s2 => trivial
    | exn s2 => rw [e2] at hd; exact hd.1.elim
    | ret a s2 =>
      rw [e2] at hd
      obtain ⟨⟨c1, c2, c3⟩, hb2⟩ := hd
      refine ⟨by rw [hb2]; exact hsize _ haft, c2, ?_, ?_⟩
      · intro hh
        rw [hb2]
        rcases hb with ⟨_, _, h, _⟩ | ⟨h1, _, h, _⟩
        · exact h
        · rcases hh with hh | hh
          · omega
          · exact h hh
      · rcases hb with ⟨h1, h2, _, h4⟩ | ⟨h1, h2, _, j, h4, h5⟩
        · rw [if_pos (show s1.f.fd < 0 from h2)] at c3
          rw [if_pos h1, c3.1]; exact h4
        · rw [if_neg (show ¬ s1.f.fd < 0 by omega)] at c3
          rw [if_neg (by omega)]
          obtain ⟨i, c4, c5⟩ := c3
          have c5 : i + ints s2.f.sys ≤ ints s1.f.sys := c5
          refine ⟨j + (i + 1), by omega, by omega, ?_⟩
          rw [c4]
          show s1.f.closed ++ List.replicate (i + 1) s1.f.fd = _
          rw [h4, h2, List.nil_append, List.replicate_append_replicate]

example : (match readFile 4 [97] (some 3) 1 (fun _ => 9) ⟨{ fd := -1, src := [1, 2, 3], sys := [.did 2, .eagain, .did 9, .did 0] }, ⟨[7, 7], 2⟩⟩ with
    | .ret _ s => decide (s.b = ⟨[1, 2, 3, 9], 3⟩ ∧ s.f.closed = [4]) | _ => false) = true := by decide +kernel

theorem attach_opens {nfd : Int} (hn : 0 ≤ nfd) (name : List Byte) (f : File) (hf : f.fd < 0) :
    attach nfd name f = .ret () { f with name := name, ios := { f.ios with state := 0 }, fd := nfd } := by
  unfold attach checkFd
  rw [modify_bind, if_neg (by omega), pure_bind']
  have : close { f with name := name, ios := { f.ios with state := 0 } } = .ret () { f with name := name, ios := { f.ios with state := 0 } } := by
    unfold close
    rw [if_pos hf]
  rw [P.bind_ret this]
  rfl

theorem close_did {f : File} (hf : 0 ≤ f.fd) {k : Nat} {as : List Sys} (hs : f.sys = .did k :: as) :
    close f = .ret () { f with sys := as, closed := f.closed ++ [f.fd], fd := -1, name := [] } := by
  unfold close
  rw [if_neg (by omega), hs]
  rfl

theorem destroy_none {f : File} (hf : f.fd < 0) : destroy f = .ret () { f with ios := ⟨0, 0⟩ } := by
  unfold destroy
  rw [modify_bind]
  exact if_pos hf

theorem onFile_ret {α : Type} {m : P File α} {s : Ld} {a : α} {f : File} (h : m { s.f with mem := [] } = .ret a f)
    (hl : f.mem.length ≤ s.b.buf.length) : onFile m s = .ret a ⟨f, s.b.store f.mem⟩ := by
  unfold onFile
  rw [h]
  exact if_pos hl

theorem onFile_ret0 {α : Type} {m : P File α} {s : Ld} {a : α} {f : File} (h : m { s.f with mem := [] } = .ret a f) (hm : f.mem = []) :
    onFile m s = .ret a ⟨f, s.b⟩ := by
  rw [onFile_ret h (by rw [hm]; simp), hm, store_nil]

/-- `write_file` returns if writing and closing succeed. -/
theorem writeFile_ok {nfd : Int} (hn : 0 ≤ nfd) (name d : List Byte) {f f1 : File} (hf : f.fd < 0) {r k : Nat} {as : List Sys}
    (hw : write d { f with name := name, ios := ⟨0, 7⟩, fd := nfd } = .ret r f1) (hfd : f1.fd = nfd) (hs : f1.sys = .did k :: as) :
    ∃ f', writeFile nfd name d f = .ret () f' := by
  unfold writeFile inScope
  have e : writeFileBody nfd name d f = .ret () { f1 with sys := as, closed := f1.closed ++ [f1.fd], fd := -1, name := [] } := by
    unfold writeFileBody exceptions
    rw [modify_bind, P.bind_ret (attach_opens hn name { f with ios := { f.ios with exc := 7 } } hf), P.bind_ret hw]
    exact close_did (by omega) hs
  rw [e]
  simp only
  rw [P.bind_ret (destroy_none (by show (-1 : Int) < 0; decide))]
  exact ⟨_, rfl⟩

/-- `read_file` returns if reading and closing succeed. -/
theorem readFile_ok {nfd : Int} (hn : 0 ≤ nfd) (name : List Byte) (n free : Nat) (junk : Nat → Byte) {s : Ld} (hf : s.f.fd < 0) {f1 : File} {r k : Nat}
    {as : List Sys} (hr : read n { s.f with mem := [], name := name, ios := ⟨0, 7⟩, fd := nfd } = .ret r f1) (hm : f1.mem.length ≤ n)
    (hfd : f1.fd = nfd) (hs : f1.sys = .did k :: as) : ∃ s', readFile nfd name (some n) free junk s = .ret () s' := by
  unfold readFile
  have e : ∃ s', readFileBody nfd name (some n) free junk s = .ret () s' ∧ s'.f.fd < 0 := by
    unfold readFileBody
    have h0 : onFile (exceptions 7) s = .ret () ⟨{ s.f with mem := [], ios := { s.f.ios with exc := 7 } }, s.b⟩ := onFile_ret0 rfl rfl
    have h1 : onFile (attach nfd name) ⟨{ s.f with mem := [], ios := { s.f.ios with exc := 7 } }, s.b⟩ =
        .ret () ⟨{ s.f with mem := [], name := name, ios := ⟨0, 7⟩, fd := nfd }, s.b⟩ :=
      onFile_ret0 (attach_opens hn name _ hf) rfl
    have h2 : onFile (fsize (some n)) ⟨{ s.f with mem := [], name := name, ios := ⟨0, 7⟩, fd := nfd }, s.b⟩ =
        .ret n ⟨{ s.f with mem := [], name := name, ios := ⟨0, 7⟩, fd := nfd }, s.b⟩ := onFile_ret0 rfl rfl
    have h3 : onFile (read n) ⟨{ s.f with mem := [], name := name, ios := ⟨0, 7⟩, fd := nfd }, s.b.reserve free n junk⟩ = .ret r ⟨f1, _⟩ :=
      onFile_ret hr (Nat.le_trans hm (reserve_length _ _ _ _))
    rw [P.bind_ret h0, P.bind_ret h1, P.bind_ret h2, modify_bind, P.bind_ret h3]
    have h4 := onFile_ret0 (m := close) (s := ⟨f1, (s.b.reserve free n junk).store f1.mem⟩)
      (close_did (f := { f1 with mem := [] }) (by show 0 ≤ f1.fd; omega) hs) rfl
    rw [P.bind_ret h4]
    exact ⟨_, rfl, by show (-1 : Int) < 0; decide⟩
  obtain ⟨s1, e, h⟩ := e
  rw [e]
  simp only
  rw [onFile_ret0 (destroy_none (f := { s1.f with mem := [] }) h) rfl]
  exact ⟨_, rfl⟩

/-- **C66** is false for files whose size the system does not know, such as those in /proc, and pipes: `fstat` gives 0, and
`read_file` returns an empty block without an error, whatever the file holds. -/
theorem read_file_zero_violated (nfd : Int) (h : 0 ≤ nfd) (name src : List Byte) (free : Nat) (junk : Nat → Byte) (b : Blk) (as : List Sys) :
    ∃ s', readFile nfd name (some 0) free junk ⟨{ fd := -1, src := src, sys := .did 0 :: as }, b⟩ = .ret () s' ∧ s'.b.bytes = [] := by
  have hs := read_file_partial nfd name (some 0) free junk ⟨{ fd := -1, src := src, sys := .did 0 :: as }, b⟩ (show (-1 : Int) < 0 by decide) rfl
  have hret : ∃ s', readFile nfd name (some 0) free junk ⟨{ fd := -1, src := src, sys := .did 0 :: as }, b⟩ = .ret () s' :=
    readFile_ok h name 0 free junk (show (-1 : Int) < 0 by decide) (r := 0) rfl (Nat.zero_le 0) rfl rfl
  obtain ⟨s', e⟩ := hret
  rw [e] at hs
  obtain ⟨_, ⟨n, h1, _, _, h2⟩, _⟩ := hs
  refine ⟨s', e, ?_⟩
  rw [h2, ← Option.some.inj h1]
  rfl

/-- **C66** is false of a block that holds something when reading fails: what it shows has been overwritten by the part of the file
that could be read. -/
theorem read_file_exn_violated : (match readFile 4 [97] (some 3) 0 (fun _ => 9) ⟨{ fd := -1, src := [1, 2, 3], sys := [.did 1, .err, .did 0] }, ⟨[7, 8], 2⟩⟩ with
    | .exn s => decide (s.b.bytes = [1, 8]) | _ => false) = true := by decide +kernel

/-- **C66**, and **C23**, are false of a string that reads a file: the byte after its text is whatever was there, for every file and
every string that had to grow. -/
theorem read_file_string_violated (nfd : Int) (name : List Byte) (n : Nat) (junk : Nat → Byte) (s s' : Ld) (hf : s.f.fd < 0) (hn : s.b.buf.length ≤ n)
    (h : readFileBody nfd name (some n) 1 junk s = .ret () s') : s'.b.buf[n]? = some (junk (n - s.b.buf.length)) := by
  have hb := readFileBody_is nfd name (some n) 1 junk s hf
  rw [h] at hb
  obtain ⟨_, _, ⟨m, h1, h2, _, _, h3⟩, _⟩ := hb
  cases h1
  rw [h3]
  show (s.f.src.take n ++ (s.b.buf ++ _).drop (s.f.src.take n).length)[n]? = _
  have hl : (s.f.src.take n).length = n := by rw [List.length_take]; omega
  rw [List.getElem?_append_right (by omega), hl, Nat.sub_self, List.getElem?_drop, show n + 0 = n from rfl,
    List.getElem?_append_right hn, List.getElem?_map, List.getElem?_range (by omega)]
  rfl

/-! ## The round trip -/

/-- **C66** what `write_file` wrote is what `read_file` reads: for every content, every block that is read into, and every way the
system may split, interrupt or delay the transfers, if both return, no write was answered with `EAGAIN`, and `fstat` tells the size of
the file, then the block read shows what the block written showed. -/
theorem file_round_trip (nfd nfd' : Int) (name name' d : List Byte) (as : List Sys) (ha : .eagain ∉ as) (f' : File)
    (hw : writeFile nfd name d { fd := -1, sys := as } = .ret () f') (as' : List Sys) (b : Blk) (free : Nat) (junk : Nat → Byte) (s' : Ld)
    (hr : readFile nfd' name' (some f'.out.length) free junk ⟨{ fd := -1, src := f'.out, sys := as' }, b⟩ = .ret () s') :
    s'.b.bytes = d ∧ s'.b.size = d.length := by
  have h1 := write_file_partial nfd name d { fd := -1, sys := as } (show (-1 : Int) < 0 by decide) rfl rfl
  rw [hw] at h1
  obtain ⟨_, h2, _⟩ := h1
  have h2 : f'.out = d := h2.resolve_right fun h => ha h.1
  have h3 := read_file_partial nfd' name' (some f'.out.length) free junk ⟨{ fd := -1, src := f'.out, sys := as' }, b⟩ (show (-1 : Int) < 0 by decide) rfl
  rw [hr] at h3
  obtain ⟨_, ⟨n, e, _, h4, h5⟩, _⟩ := h3
  have e := Option.some.inj e
  have h5 : s'.b.bytes = f'.out.take n := h5
  rw [← e, List.take_length, h2] at h5
  exact ⟨h5, by rw [h4, ← e, h2]⟩

/-- Every answer is a transfer of something. -/
def Working (l : List Sys) : Prop := ∀ a ∈ l, ∃ k, a = .did (k + 1)

theorem writeLoop_works (as : List Sys) : ∀ (d : List Byte) (f : File), Working as → d.length ≤ as.length →
    ∃ as', writeLoop as d f = .ret [] { f with out := f.out ++ d, sys := as' } ∧ Working as' ∧ as.length ≤ as'.length + d.length := by
  induction as with
  | nil =>
    intro d f _ hl
    have : d = [] := List.length_eq_zero_iff.1 (by simpa using hl)
    subst this
    exact ⟨[], by simp [writeLoop], by simp [Working], by simp⟩
  | cons a as ih =>
    intro d f hw hl
    unfold writeLoop
    by_cases hd : d = []
    · subst hd
      exact ⟨a :: as, by simp, hw, by simp⟩
    · obtain ⟨k, rfl⟩ := hw a (by simp)
      have hp := List.length_pos_iff.2 hd
      rw [if_neg hd]
      simp only
      rw [if_pos (by omega)]
      have hl' : (d.drop (min (k + 1) d.length)).length ≤ as.length := by simp at *; omega
      obtain ⟨as', h1, h2, h3⟩ := ih (d.drop (min (k + 1) d.length)) { f with out := f.out ++ d.take (min (k + 1) d.length) }
        (fun a ha => hw a (by simp [ha])) hl'
      refine ⟨as', ?_, h2, ?_⟩
      · rw [h1]
        simp only [List.append_assoc, List.take_append_drop]
      · simp at *; omega

theorem readLoop_works (k : Nat) : ∀ (n br : Nat) (f : File), Working f.sys → br ≤ n → n - br ≤ f.src.length → n - br < k → n - br ≤ f.sys.length →
    f.ios.state = 0 → ∃ as', readLoop k n br f = .ret n { f with mem := f.mem ++ f.src.take (n - br), src := f.src.drop (n - br), sys := as' } ∧
      Working as' ∧ f.sys.length ≤ as'.length + (n - br) := by
  induction k with
  | zero => intro n br f _ _ _ h; omega
  | succ k ih =>
    intro n br f hw hbr hs hk hl hg
    unfold readLoop
    by_cases h : br < n
    · rw [if_pos ⟨h, by simp [File.good, hg]⟩]
      cases e : f.sys with
      | nil => rw [e] at hl; simp at hl; omega
      | cons a as =>
        obtain ⟨j, rfl⟩ := hw a (by rw [e]; simp)
        have hm : 0 < min (j + 1) (min (n - br) f.src.length) := by omega
        have hr : readsome (n - br) f = .ret (f.src.take (min (j + 1) (min (n - br) f.src.length)))
            { f with sys := as, src := f.src.drop (min (j + 1) (min (n - br) f.src.length)) } := by
          unfold readsome
          rw [e]
          unfold readsomeLoop
          simp only
          rw [if_pos hm]
        rw [P.bind_ret hr]
        generalize hq : min (j + 1) (min (n - br) f.src.length) = q at *
        have hq1 : q ≤ n - br := by omega
        have hql : (f.src.take q).length = q := by rw [List.length_take]; omega
        show ∃ as', readLoop k n (br + (f.src.take q).length) { f with sys := as, src := f.src.drop q, mem := f.mem ++ f.src.take q } = _ ∧ _
        rw [hql]
        obtain ⟨as', h1, h2, h3⟩ := ih n (br + q) { f with sys := as, src := f.src.drop q, mem := f.mem ++ f.src.take q }
          (fun a ha => hw a (by rw [e]; exact List.mem_cons_of_mem _ ha)) (by omega) (by show n - (br + q) ≤ (f.src.drop q).length; simp; omega) (by omega)
          (by show n - (br + q) ≤ as.length; rw [e] at hl; simp at hl; omega) hg
        refine ⟨as', ?_, h2, ?_⟩
        · rw [h1]
          have e1 : n - br = q + (n - (br + q)) := by omega
          have e2 : f.src.take (n - br) = f.src.take q ++ (f.src.drop q).take (n - (br + q)) := by rw [e1, List.take_add]
          have e3 : f.src.drop (n - br) = (f.src.drop q).drop (n - (br + q)) := by rw [List.drop_drop, ← e1]
          simp only [e2, e3, List.append_assoc]
        · have h3 : as.length ≤ as'.length + (n - (br + q)) := h3
          simp
          omega
    · rw [if_neg (fun c => h c.1)]
      have : n - br = 0 := by omega
      have hn : br = n := by omega
      rw [this]
      exact ⟨f.sys, by simp [hn], hw, by omega⟩

/-- **C66** the round trip succeeds: if the files can be opened, `fstat` works, and every request transfers at least one byte, both
functions return, and what is read is what was written. -/
theorem file_round_trip_works (nfd nfd' : Int) (hn : 0 ≤ nfd) (hn' : 0 ≤ nfd') (name name' d : List Byte) (as as' : List Sys)
    (hw : Working as) (hl : d.length < as.length) (hw' : Working as') (hl' : d.length < as'.length) (b : Blk) (free : Nat) (junk : Nat → Byte) :
    ∃ f' s', writeFile nfd name d { fd := -1, sys := as } = .ret () f' ∧ f'.out = d ∧
      readFile nfd' name' (some f'.out.length) free junk ⟨{ fd := -1, src := f'.out, sys := as' }, b⟩ = .ret () s' ∧ s'.b.bytes = d := by
  have hag : ∀ {l}, Working l → Sys.eagain ∉ l := by
    intro l h hm; obtain ⟨k, e⟩ := h _ hm; cases e
  have hwr : ∃ f', writeFile nfd name d { fd := -1, sys := as } = .ret () f' := by
    obtain ⟨as1, h1, h2, h3⟩ := writeLoop_works as d { fd := nfd, name := name, sys := as, ios := ⟨0, 7⟩ } hw (by omega)
    cases as1 with
    | nil => simp at h3; omega
    | cons a as1 =>
      obtain ⟨k, rfl⟩ := h2 a (by simp)
      exact writeFile_ok hn name d (show (-1 : Int) < 0 by decide)
        (hw := show write d { fd := nfd, name := name, sys := as, ios := ⟨0, 7⟩ } = _ from P.bind_ret h1) rfl rfl
  obtain ⟨f', ef⟩ := hwr
  have ho : f'.out = d := by
    have h1 := write_file_partial nfd name d { fd := -1, sys := as } (show (-1 : Int) < 0 by decide) rfl rfl
    rw [ef] at h1
    exact h1.2.1.resolve_right fun h => hag hw h.1
  have hrd : ∃ s', readFile nfd' name' (some f'.out.length) free junk ⟨{ fd := -1, src := f'.out, sys := as' }, b⟩ = .ret () s' := by
    rw [ho]
    obtain ⟨as1, h1, h2, h3⟩ := readLoop_works (as'.length + 1) d.length 0 { fd := nfd', name := name', src := d, sys := as', ios := ⟨0, 7⟩ } hw' (by omega)
      (by simp) (by simp; omega) (by simp; omega) rfl
    cases as1 with
    | nil => simp at h3; omega
    | cons a as1 =>
      obtain ⟨k, rfl⟩ := h2 a (by simp)
      refine readFile_ok hn' name' d.length free junk (show (-1 : Int) < 0 by decide)
        (hr := show read d.length { fd := nfd', name := name', src := d, sys := as', ios := ⟨0, 7⟩ } = _ from h1) ?_ rfl rfl
      simp
  obtain ⟨s', es⟩ := hrd
  exact ⟨f', s', ef, ho, es, (file_round_trip nfd nfd' name name' d as (hag hw) f' ef as' b free junk s' es).1⟩

example : Working [.did 1, .did 5, .did 3, .did 2] ∧ [1, 2, 3].length < [Sys.did 1, .did 5, .did 3, .did 2].length :=
  ⟨fun a h => by simp at h; rcases h with rfl | rfl | rfl | rfl <;> exact ⟨_, rfl⟩, by decide⟩

end Ustl.File
