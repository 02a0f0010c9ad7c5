import Verif.Atomic.Model
/-
# C68: a spin lock made of an `atomic_flag`

The client program, run by each of `n` threads as many times as it likes:

    while (flag.test_and_set()) {}
    T t = x;          // x is an ordinary, unprotected variable
    x = t + 1;
    flag.clear();

Each access to `flag` or to `x` is one step.  Taking steps one at a time is sound for `x` because
the default order, `memory_order_seq_cst`, makes the program free of data races, which is what
`spin_exclusion` shows.
-/
namespace Ustl.Atomic
namespace Spin
variable {b n : Nat}

/-- Where a thread is in the program above. (client program; calls uatomic.h:92-95) -/
inductive At (b : Nat) where
  | outside
  | entered
  | read (t : BitVec b)
  | written
  deriving DecidableEq

/-- In the critical section: between the end of the loop and the return of `clear`. -/
def At.inside : At b → Prop
  | .outside => False
  | _ => True

/-- The flag, the variable, the threads, and how many times the variable was written (not seen
    by the program). (client program; calls uatomic.h:92-95) -/
structure Sys (n b : Nat) where
  flag : Bool
  x : BitVec b
  th : Fin n → At b
  writes : Nat := 0

/-- Thread `i` moved. (client program; calls uatomic.h:92-95) -/
def put (th : Fin n → At b) (i : Fin n) (t : At b) : Fin n → At b := fun j => if j = i then t else th j

/-- One step of any thread; the boolean says whether it was a turn of the waiting loop.
    (client program; calls uatomic.h:92-95) -/
inductive Step : Sys n b → Fin n → Bool → Sys n b → Prop where
  | spin (s : Sys n b) (i) : s.th i = .outside → (testAndSet s.flag).1 = true →
      Step s i true { s with flag := (testAndSet s.flag).2 }
  | enter (s : Sys n b) (i) : s.th i = .outside → (testAndSet s.flag).1 = false →
      Step s i false { s with flag := (testAndSet s.flag).2, th := put s.th i .entered }
  | load (s : Sys n b) (i) : s.th i = .entered →
      Step s i false { s with th := put s.th i (.read s.x) }
  | store (s : Sys n b) (i t) : s.th i = .read t →
      Step s i false { s with x := t + 1, writes := s.writes + 1, th := put s.th i .written }
  | leave (s : Sys n b) (i) : s.th i = .written →
      Step s i false { s with flag := clear s.flag, th := put s.th i .outside }

/-- Any number of steps, in any order. (client program; calls uatomic.h:92-95) -/
inductive Runs : Sys n b → Sys n b → Prop where
  | refl (s) : Runs s s
  | step {s s' s'' i o} : Runs s s' → Step s' i o s'' → Runs s s''

/-- Where the program starts: the flag is `ATOMIC_FLAG_INIT`, nobody is inside.
    (uatomic.h:97) -/
def Start (s : Sys n b) : Prop := s.flag = false ∧ s.writes = 0 ∧ ∀ i, s.th i = .outside

/-- What holds at every moment. -/
structure Holds (x0 : BitVec b) (s : Sys n b) : Prop where
  one : ∀ i j, (s.th i).inside → (s.th j).inside → i = j
  flag : s.flag = true ↔ ∃ i, (s.th i).inside
  fresh : ∀ i t, s.th i = .read t → t = s.x
  sum : s.x = x0 + BitVec.ofNat b s.writes

theorem put_same (th : Fin n → At b) (i : Fin n) (t : At b) : put th i t i = t := by simp [put]
theorem put_other (th : Fin n → At b) {i j : Fin n} (t : At b) (h : j ≠ i) : put th i t j = th j := by
  simp [put, h]

theorem holds_step {x0 : BitVec b} {s s' : Sys n b} {i : Fin n} {o : Bool} (h : Holds x0 s)
    (hs : Step s i o s') : Holds x0 s' := by
  -- moving inside the critical section
  have stay : ∀ (i : Fin n) (a : At b), (s.th i).inside → a.inside →
      (∀ p q, (put s.th i a p).inside → (put s.th i a q).inside → p = q) ∧
      (s.flag = true ↔ ∃ p, (put s.th i a p).inside) := by
    intro i a hi ha
    have hp : ∀ p, (put s.th i a p).inside → p = i := by
      intro p hp
      by_cases hpi : p = i
      · exact hpi
      · rw [put_other _ _ hpi] at hp; exact h.one p i hp hi
    refine ⟨fun p q h1 h2 => (hp p h1).trans (hp q h2).symm, ?_⟩
    exact ⟨fun _ => ⟨i, by rw [put_same]; exact ha⟩, fun _ => h.flag.2 ⟨i, hi⟩⟩
  cases hs with
  | spin hi hf =>
    have : s.flag = true := hf
    refine ⟨h.one, ?_, h.fresh, h.sum⟩
    show true = true ↔ _
    rw [← h.flag, this]
  | enter hi hf =>
    have hf : s.flag = false := hf
    have none : ∀ j, ¬ (s.th j).inside := by
      intro j hj
      have := h.flag.2 ⟨j, hj⟩
      rw [hf] at this; cases this
    have hp : ∀ p, (put s.th i .entered p).inside → p = i := by
      intro p hp
      by_cases hpi : p = i
      · exact hpi
      · rw [put_other _ _ hpi] at hp; exact (none p hp).elim
    refine ⟨fun p q h1 h2 => (hp p h1).trans (hp q h2).symm, ?_, ?_, h.sum⟩
    · exact ⟨fun _ => ⟨i, by show (put s.th i _ i).inside; rw [put_same]; trivial⟩, fun _ => rfl⟩
    · intro j t hj
      by_cases hji : j = i
      · subst hji
        have hj : put s.th j .entered j = .read t := hj
        rw [put_same] at hj; cases hj
      · have hj : put s.th i .entered j = .read t := hj
        rw [put_other _ _ hji] at hj; exact h.fresh j t hj
  | load hi =>
    obtain ⟨h1, h2⟩ := stay i (.read s.x) (by rw [hi]; trivial) trivial
    refine ⟨h1, h2, ?_, h.sum⟩
    intro j t hj
    have hj : put s.th i (.read s.x) j = .read t := hj
    by_cases hji : j = i
    · subst hji; rw [put_same] at hj; injection hj with hj; exact hj.symm
    · rw [put_other _ _ hji] at hj; exact h.fresh j t hj
  | store t hi =>
    obtain ⟨h1, h2⟩ := stay i .written (by rw [hi]; trivial) trivial
    refine ⟨h1, h2, ?_, ?_⟩
    · intro j u hj
      have hj : put s.th i .written j = .read u := hj
      by_cases hji : j = i
      · subst hji; rw [put_same] at hj; cases hj
      · rw [put_other _ _ hji] at hj
        exact (hji (h.one j i (by rw [hj]; trivial) (by rw [hi]; trivial))).elim
    · show t + 1 = x0 + BitVec.ofNat b (s.writes + 1)
      rw [h.fresh i t hi, h.sum]
      apply BitVec.eq_of_toNat_eq
      simp [BitVec.toNat_add, Nat.add_assoc]
  | leave hi =>
    have none : ∀ p, ¬ (put s.th i .outside p).inside := by
      intro p hp
      by_cases hpi : p = i
      · subst hpi; rw [put_same] at hp; exact hp
      · rw [put_other _ _ hpi] at hp
        exact hpi (h.one p i hp (by rw [hi]; trivial))
    refine ⟨fun p q h1 _ => (none p h1).elim, ?_, ?_, h.sum⟩
    · refine ⟨fun h => ?_, fun ⟨p, hp⟩ => (none p hp).elim⟩
      have h : false = true := h
      cases h
    · intro j t hj
      have hj : put s.th i .outside j = .read t := hj
      by_cases hji : j = i
      · subst hji; rw [put_same] at hj; cases hj
      · rw [put_other _ _ hji] at hj; exact h.fresh j t hj

theorem holds_runs {s s' : Sys n b} (h0 : Start s) (h : Runs s s') : Holds s.x s' := by
  induction h with
  | refl =>
    obtain ⟨h1, h2, h3⟩ := h0
    refine ⟨fun i j hi _ => ?_, ?_, fun i t hi => ?_, ?_⟩
    · rw [h3] at hi; exact hi.elim
    · rw [h1]; exact ⟨(nomatch ·), fun ⟨i, hi⟩ => by rw [h3] at hi; exact hi.elim⟩
    · rw [h3] at hi; cases hi
    · rw [h2]; simp
  | step _ hs ih => exact holds_step ih hs

/-- **C68**: mutual exclusion.  A flag taken with `test_and_set` in a loop and given back with
    `clear` lets at most one thread in at a time, whatever the schedule. -/
theorem spin_exclusion {s s' : Sys n b} (h0 : Start s) (h : Runs s s') (i j : Fin n)
    (hi : (s'.th i).inside) (hj : (s'.th j).inside) : i = j :=
  (holds_runs h0 h).one i j hi hj

/-- **C68**: so that an ordinary variable incremented inside loses no increment. -/
theorem spin_counts {s s' : Sys n b} (h0 : Start s) (h : Runs s s') :
    s'.x = s.x + BitVec.ofNat b s'.writes :=
  (holds_runs h0 h).sum

/-- **C68**: there is no deadlock.  At every moment, either nobody is inside, and then any thread
    gets in with its next step; or somebody is, and it has a next step, which is not a turn of the
    waiting loop. -/
theorem spin_progress {s s' : Sys n b} (h0 : Start s) (h : Runs s s') :
    ((∀ j, ¬ (s'.th j).inside) ∧ ∀ i, ∃ s'', Step s' i false s'' ∧ (s''.th i).inside) ∨
    ∃ i s'', (s'.th i).inside ∧ Step s' i false s'' := by
  have inv := holds_runs h0 h
  cases hf : s'.flag with
  | false =>
    left
    have none : ∀ j, ¬ (s'.th j).inside := by
      intro j hj
      have := inv.flag.2 ⟨j, hj⟩
      rw [hf] at this; cases this
    refine ⟨none, fun i => ?_⟩
    have hi : s'.th i = .outside := by
      have := none i
      cases hth : s'.th i with
      | outside => rfl
      | _ => rw [hth] at this; exact (this trivial).elim
    refine ⟨_, .enter s' i hi hf, ?_⟩
    show (put s'.th i .entered i).inside
    rw [put_same]; trivial
  | true =>
    right
    obtain ⟨i, hi⟩ := inv.flag.1 hf
    cases hth : s'.th i with
    | outside => rw [hth] at hi; exact hi.elim
    | entered => exact ⟨i, _, by rw [hth]; trivial, .load s' i hth⟩
    | read t => exact ⟨i, _, by rw [hth]; trivial, .store s' i t hth⟩
    | written => exact ⟨i, _, by rw [hth]; trivial, .leave s' i hth⟩

/-- Two threads: one goes in and out while the other waits, and then the other goes in. -/
example : ∃ s' : Sys 2 8, Start (⟨false, 5, fun _ => .outside, 0⟩ : Sys 2 8) ∧
    Runs ⟨false, 5, fun _ => .outside, 0⟩ s' ∧ s'.x = 6 ∧ s'.th 1 = .entered := by
  refine ⟨_, ⟨rfl, rfl, fun _ => rfl⟩, .step (.step (.step (.step (.step (.step (.refl _)
    (.enter _ 0 rfl rfl)) (.spin _ 1 rfl rfl)) (.load _ 0 rfl)) (.store _ 0 _ rfl))
    (.leave _ 0 rfl)) (.enter _ 1 rfl rfl), rfl, rfl⟩

end Spin
end Ustl.Atomic
