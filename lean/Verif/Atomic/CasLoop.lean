import Verif.Atomic.Model
import Mathlib.Data.Fintype.Card
import Mathlib.Data.Fintype.Basic
/-
# C68: the compare-exchange loop

The client program, run by each of `n` threads for each of its functions `f`:

    T e = a.load();
    while (!a.compare_exchange_weak (e, f(e))) {}

(or `compare_exchange_strong`).  Only the calls on `a` are shared; each is one step.
-/
namespace Ustl.Atomic
namespace CasLoop
variable {b n : Nat}

/-- Where a thread is: about to load, or about to try with what it last saw.  This is the client
    program above, not code in /repo; the calls it makes are uatomic.h:38-47. -/
inductive Phase (b : Nat) where
  | start
  | trying (e : BitVec b)
  deriving DecidableEq

/-- A thread: the functions it still has to apply, and where it is. (client program; calls
    uatomic.h:38-47) -/
structure Thread (b : Nat) where
  todo : List (BitVec b → BitVec b)
  phase : Phase b := .start

/-- The shared object, the threads, and a log (not seen by the program) of which thread's
    compare-exchange succeeded with which function. (client program; calls uatomic.h:38-47) -/
structure Sys (n b : Nat) where
  word : BitVec b
  th : Fin n → Thread b
  log : List (Fin n × (BitVec b → BitVec b)) := []

/-- The attempt to replace `e` by `f e`. (uatomic.h:42-47) -/
def attempt (weak : Bool) (e d : BitVec b) : Call b :=
  if weak then .compareExchangeWeak e d else .compareExchangeStrong e d

/-- Thread `i` replaced. (client program; calls uatomic.h:38-47) -/
def put (th : Fin n → Thread b) (i : Fin n) (t : Thread b) : Fin n → Thread b :=
  fun j => if j = i then t else th j

/-- One step of any thread.  The boolean says whether it was a successful compare-exchange.
    (client program; calls uatomic.h:38-47) -/
inductive Step (weak : Bool) : Sys n b → Bool → Sys n b → Prop where
  | load (s : Sys n b) (i f fs r w') :
      s.th i = ⟨f :: fs, .start⟩ → Builtin.Does (Call.code .load) s.word r w' →
      Step weak s false ⟨w', put s.th i ⟨f :: fs, .trying r.val⟩, s.log⟩
  | hit (s : Sys n b) (i f fs e r w') :
      s.th i = ⟨f :: fs, .trying e⟩ →
      Builtin.Does (Call.code (attempt weak e (f e))) s.word r w' → r.ok = true →
      Step weak s true ⟨w', put s.th i ⟨fs, .start⟩, s.log ++ [(i, f)]⟩
  | miss (s : Sys n b) (i f fs e r w') :
      s.th i = ⟨f :: fs, .trying e⟩ →
      Builtin.Does (Call.code (attempt weak e (f e))) s.word r w' → r.ok = false →
      Step weak s false ⟨w', put s.th i ⟨f :: fs, .trying r.val⟩, s.log⟩

/-- Any number of steps, in any order. (client program; calls uatomic.h:38-47) -/
inductive Runs (weak : Bool) : Sys n b → Sys n b → Prop where
  | refl (s) : Runs weak s s
  | step {s s' s'' o} : Runs weak s s' → Step weak s' o s'' → Runs weak s s''

theorem attempt_ok {weak : Bool} {e d w w' : BitVec b} {r : Ret b}
    (h : Builtin.Does (Call.code (attempt weak e d)) w r w') :
    (r.ok = true → w = e ∧ w' = d) ∧ (r.ok = false → w' = w ∧ r.val = w) ∧
    (r.ok = false → weak = false → w ≠ e) := by
  have hcode : Call.code (attempt weak e d) = Builtin.casN e d weak := by cases weak <;> rfl
  rw [hcode] at h
  cases h <;> simp_all

/-- **C68**: a compare-exchange loop is atomic.  Whatever the schedule, and whether or not the weak
    form fails without cause, the object holds the result of applying, to its first value, the
    functions whose loops have ended, each once, one after another; and each thread's functions
    were applied in the order of its program. -/
theorem cas_loop_atomic {weak : Bool} {s s' : Sys n b} (hl : s.log = []) (h : Runs weak s s') :
    s'.word = s'.log.foldl (fun w p => p.2 w) s.word ∧
    ∀ i, (s'.log.filter (·.1 = i)).map (·.2) ++ (s'.th i).todo = (s.th i).todo := by
  induction h with
  | refl => simp [hl]
  | @step s1 s2 o _ hs ih =>
    obtain ⟨hw, ht⟩ := ih
    cases hs with
    | load i f fs r w' hi hd =>
      simp only [Call.code] at hd
      cases hd
      refine ⟨hw, fun j => ?_⟩
      have := ht j
      show _ ++ (put s1.th i _ j).todo = _
      unfold put
      by_cases hj : j = i
      · subst hj; rw [hi] at this; simpa using this
      · simpa [hj] using this
    | hit i f fs e r w' hi hd hok =>
      obtain ⟨h1, _, _⟩ := attempt_ok hd
      obtain ⟨h1, h2⟩ := h1 hok
      refine ⟨?_, fun j => ?_⟩
      · show w' = (s1.log ++ [(i, f)]).foldl _ _
        rw [List.foldl_append, ← hw, h2, ← h1]
        rfl
      · have := ht j
        show ((s1.log ++ [(i, f)]).filter _).map _ ++ (put s1.th i _ j).todo = _
        unfold put
        by_cases hj : j = i
        · subst hj; rw [hi] at this; rw [← this]; simp [List.filter_append]
        · rw [← this, if_neg hj, List.filter_append]
          have : ¬ i = j := fun h => hj h.symm
          simp [this]
    | miss i f fs e r w' hi hd hok =>
      obtain ⟨_, h1, _⟩ := attempt_ok hd
      obtain ⟨h1, h2⟩ := h1 hok
      subst h1
      refine ⟨hw, fun j => ?_⟩
      have := ht j
      show _ ++ (put s1.th i _ j).todo = _
      unfold put
      by_cases hj : j = i
      · subst hj; rw [hi] at this; simpa using this
      · simpa [hj] using this

/-- Steps none of which is a successful compare-exchange, counted. (client program; calls
    uatomic.h:38-47) -/
inductive Fruitless (weak : Bool) : Sys n b → Nat → Sys n b → Prop where
  | refl (s) : Fruitless weak s 0 s
  | step {s s' s'' k} : Fruitless weak s k s' → Step weak s' false s'' → Fruitless weak s (k + 1) s''

/-- Threads whose next compare-exchange would fail, or that have yet to load. -/
def behind (s : Sys n b) : Finset (Fin n) :=
  Finset.univ.filter fun i => (s.th i).phase ≠ .trying s.word

theorem mem_behind {s : Sys n b} {i : Fin n} :
    i ∈ behind s ↔ (s.th i).phase ≠ .trying s.word :=
  ⟨fun h => (Finset.mem_filter.1 h).2, fun h => Finset.mem_filter.2 ⟨Finset.mem_univ i, h⟩⟩

theorem behind_step {s s' : Sys n b} (h : Step false s false s') :
    (behind s').card + 1 ≤ (behind s).card := by
  have key : ∀ (i : Fin n) (t : Thread b), (s.th i).phase ≠ .trying s.word →
      t.phase = .trying s.word →
      (behind ⟨s.word, put s.th i t, s.log⟩).card + 1 ≤ (behind s).card := by
    intro i t hi ht
    have hsub : behind ⟨s.word, put s.th i t, s.log⟩ ⊂ behind s := by
      rw [Finset.ssubset_iff_of_subset]
      · refine ⟨i, mem_behind.2 hi, fun h => mem_behind.1 h ?_⟩
        show (put s.th i t i).phase = _
        simp [put, ht]
      · intro j hj
        have hj : (put s.th i t j).phase ≠ .trying s.word := mem_behind.1 hj
        rw [mem_behind]
        by_cases hji : j = i
        · subst hji; exact hi
        · simpa [put, hji] using hj
    exact Finset.card_lt_card hsub
  cases h with
  | load i f fs r w' hi hd =>
    simp only [Call.code] at hd
    cases hd
    exact key i _ (by rw [hi]; simp) rfl
  | miss i f fs e r w' hi hd hok =>
    obtain ⟨_, h1, h2⟩ := attempt_ok hd
    obtain ⟨h1, h3⟩ := h1 hok
    have h2 := h2 hok rfl
    subst h1
    refine key i _ ?_ (by rw [h3])
    rw [hi]
    intro h
    injection h with h
    exact h2 h.symm

/-- **C68**: and it is lock-free with the strong form: among any `n + 1` consecutive steps of `n`
    threads, from whatever state, at least one completes a loop. -/
theorem cas_loop_lock_free {s s' : Sys n b} {k : Nat} (h : Fruitless false s k s') : k ≤ n := by
  have key : (behind s').card + k ≤ (behind s).card := by
    induction h with
    | refl => simp
    | step _ hs ih =>
      have := behind_step hs
      omega
  have : (behind s).card ≤ n := by
    simpa using Finset.card_le_univ (behind s)
  omega

/-- **C68**: two threads, each adding one twice; the second is overtaken between its load and its
    attempt, misses, and tries again: nothing is lost. -/
example : ∃ s' : Sys 2 8, Runs false ⟨7, fun _ => ⟨[(· + 1)], .start⟩, []⟩ s' ∧ s'.word = 9 ∧
    ∀ i, (s'.th i).todo = [] := by
  refine ⟨_, .step (.step (.step (.step (.step (.refl _)
    (.load _ 0 _ _ _ _ rfl (.loadN _)))
    (.load _ 1 _ _ _ _ rfl (.loadN _)))
    (.hit _ 0 _ _ _ _ _ rfl (.casHit _ _ _) rfl))
    (.miss _ 1 _ _ _ _ _ rfl (.casMiss _ _ _ _ (by decide)) rfl))
    (.hit _ 1 _ _ _ _ _ rfl (.casHit _ _ _) rfl), rfl, ?_⟩
  intro i
  match i with
  | 0 => rfl
  | 1 => rfl

example : ∃ s' : Sys 2 8, Fruitless false ⟨7, fun _ => ⟨[(· + 1)], .start⟩, []⟩ 2 s' :=
  ⟨_, .step (.step (.refl _) (.load _ 0 _ _ _ _ rfl (.loadN _))) (.load _ 1 _ _ _ _ rfl (.loadN _))⟩

end CasLoop
end Ustl.Atomic
