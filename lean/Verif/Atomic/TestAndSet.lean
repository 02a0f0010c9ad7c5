/-!
# `TestAndSet` as a lock (C94)

On x86 the exchange of a register with memory is one step no other processor can divide; elsewhere the code reads, then writes.
-/
namespace Ustl.Atomic.Tas

/-! ### x86 -/

/-- `TestAndSet`: `oldVal` starts as 1 and is exchanged with `*pm`. The result and the new `*pm`. Models uutility.h:229-234. -/
def testAndSet (pm : Int) : Bool × Int :=
  let oldVal := 1
  let (oldVal, pm) := (pm, oldVal)
  (oldVal == 0, pm)

/-- What a thread does to the flag in one step: a call of `TestAndSet` with its result, or a plain store, such as the 0 that frees the lock. -/
inductive Ev where
  | tas (thread : Nat) (won : Bool)
  | store (thread : Nat) (v : Int)
deriving DecidableEq

/-- Every order of steps of any threads, from one value of the flag to another. -/
inductive Hist : Int → List Ev → Int → Prop where
  | nil (w) : Hist w [] w
  | tas {w w' es} (t) : Hist (testAndSet w).2 es w' → Hist w (.tas t (testAndSet w).1 :: es) w'
  | store {w' es} (w t v) : Hist v es w' → Hist w (.store t v :: es) w'

theorem hist_tas {w w' : Int} {t : Nat} {b : Bool} {es : List Ev} (h : Hist w (.tas t b :: es) w') : b = (testAndSet w).1 ∧ Hist (testAndSet w).2 es w' := by
  cases h with
  | tas t h => exact ⟨rfl, h⟩

theorem hist_split : ∀ {a b : List Ev} {w w' : Int}, Hist w (a ++ b) w' → ∃ u, Hist w a u ∧ Hist u b w'
  | [], b, w, w', h => ⟨w, .nil w, h⟩
  | _ :: a, b, w, w', h => by
    cases h with
    | tas t h => obtain ⟨u, h1, h2⟩ := hist_split h; exact ⟨u, .tas t h1, h2⟩
    | store w t v h => obtain ⟨u, h1, h2⟩ := hist_split h; exact ⟨u, .store w t v h1, h2⟩

theorem stays : ∀ {es : List Ev} {w w' : Int}, Hist w es w' → w ≠ 0 → (∀ t, Ev.store t 0 ∉ es) → w' ≠ 0 ∧ ∀ t, Ev.tas t true ∉ es
  | [], w, w', h, hw, _ => by cases h; exact ⟨hw, fun t => List.not_mem_nil⟩
  | e :: es, w, w', h, hw, hs => by
    have hs' : ∀ t, Ev.store t 0 ∉ es := fun t hm => hs t (List.mem_cons_of_mem _ hm)
    cases h with
    | tas t h =>
      obtain ⟨h1, h2⟩ := stays h (show (testAndSet w).2 ≠ 0 by simp [testAndSet]) hs'
      refine ⟨h1, fun t' hm => ?_⟩
      rcases List.mem_cons.1 hm with hm | hm
      · injection hm with _ hm
        simp [testAndSet] at hm
        exact hw hm
      · exact h2 t' hm
    | store w t v h =>
      obtain ⟨h1, h2⟩ := stays h (fun hv => hs t (by simp [hv])) hs'
      refine ⟨h1, fun t' hm => ?_⟩
      rcases List.mem_cons.1 hm with hm | hm
      · cases hm
      · exact h2 t' hm

/-- **C94**: if the flag is 0 the next call takes it, and a call that returns false found it taken. -/
theorem free_is_taken {w w' : Int} {won : Bool} {t : Nat} {es : List Ev} (h : Hist w (.tas t won :: es) w') : won = true ↔ w = 0 := by
  cases h with
  | tas t h => simp [testAndSet]

/-- **C94**: between two calls that return true, of the same thread or of two, somebody stored a 0: nobody else gets the lock while it is held. -/
theorem one_holder {w w' : Int} {pre mid post : List Ev} {i j : Nat} (h : Hist w (pre ++ .tas i true :: (mid ++ .tas j true :: post)) w') :
    ∃ t, Ev.store t 0 ∈ mid := by
  obtain ⟨u, -, h⟩ := hist_split h
  have h' : ∃ x, x ≠ 0 ∧ Hist x (mid ++ .tas j true :: post) w' := ⟨_, by simp [testAndSet], (hist_tas h).2⟩
  obtain ⟨x, hx, h⟩ := h'
  obtain ⟨v, h1, h2⟩ := hist_split h
  apply Classical.byContradiction
  intro hn
  exact (stays h1 hx fun t ht => hn ⟨t, ht⟩).1 ((free_is_taken h2).1 rfl)

example : Hist 0 [.tas 0 true, .tas 1 false, .store 0 0, .tas 1 true] 1 := .tas 0 (.tas 1 (.store 1 0 0 (.tas 1 (.nil 1))))

/-- **C94**: of threads that each call once, on a flag that is 0 and that nobody stores to, the first wins and no other. -/
theorem first_wins {w' : Int} {ts : List (Nat × Bool)} (h : Hist 0 (ts.map fun p => .tas p.1 p.2) w') :
    ts.map Prod.snd = (List.range ts.length).map (· == 0) := by
  cases ts with
  | nil => rfl
  | cons p ts =>
    obtain ⟨t, b⟩ := p
    have h1 : b = true := (free_is_taken h).2 rfl
    subst h1
    generalize hb : (true : Bool) = b at h
    rcases h with _ | ⟨_, h⟩
    have h2 := (stays h (by simp [testAndSet]) (by intro t; simp)).2
    have h3 : ts.map Prod.snd = List.replicate ts.length false := by
      refine List.eq_replicate_iff.2 ⟨by simp, fun c hc => ?_⟩
      obtain ⟨q, hq, rfl⟩ := List.mem_map.1 hc
      cases hc2 : q.2 with
      | false => rfl
      | true => exact absurd (List.mem_map.2 ⟨q, hq, by rw [hc2]⟩) (h2 q.1)
    rw [List.map_cons, h3, List.length_cons, List.range_succ_eq_map, List.map_cons, List.map_map]
    congr 1
    refine (List.eq_replicate_iff.2 ⟨by simp, fun c hc => ?_⟩).symm
    obtain ⟨k, -, rfl⟩ := List.mem_map.1 hc
    rfl

example : Hist 0 ([(3, true), (1, false), (2, false)].map fun p => .tas p.1 p.2) 1 := .tas 3 (.tas 1 (.tas 2 (.nil 1)))

/-! ### Elsewhere -/

/-- Where a thread is in `TestAndSet`: before it, between reading and writing, after it. Models uutility.h:239-242. -/
inductive At where
  | before
  | between (oldVal : Int)
  | after (result : Bool)
deriving DecidableEq

/-- The flag and the threads. -/
structure Sys where
  pm : Int
  th : Nat → At

/-- Thread `i` is at `a` now. -/
def Sys.set (s : Sys) (i : Nat) (a : At) : Nat → At := fun j => if j = i then a else s.th j

/-- One step of thread `i`: `const int oldVal (*pm)`, or `*pm = 1; return !oldVal`. Models uutility.h:239-242. -/
inductive Step : Sys → Nat → Sys → Prop where
  | read (s i) : s.th i = .before → Step s i { s with th := s.set i (.between s.pm) }
  | write (s i) (o : Int) : s.th i = .between o → Step s i { pm := 1, th := s.set i (.after (o == 0)) }

/-- Any number of steps of threads in any order. -/
inductive Runs : Sys → Sys → Prop where
  | refl (s) : Runs s s
  | step {s t u i} : Runs s t → Step t i u → Runs s u

/-- **C94** is false on other processors: for every number of threads there is an order of their steps in which all of them get the lock. -/
theorem portable_violated (n : Nat) : ∃ s, Runs ⟨0, fun _ => .before⟩ s ∧ ∀ i < n, s.th i = .after true := by
  have h1 : ∀ k, Runs ⟨0, fun _ => .before⟩ ⟨0, fun i => if i < k then .between 0 else .before⟩ := by
    intro k
    induction k with
    | zero => exact .refl _
    | succ k ih =>
      have hs := Step.read ⟨0, fun i => if i < k then .between 0 else .before⟩ k (by simp)
      have e : (Sys.set ⟨0, fun i => if i < k then At.between 0 else .before⟩ k (.between 0)) = fun i => if i < k + 1 then .between 0 else .before := by
        funext i
        by_cases hik : i = k
        · simp [Sys.set, hik]
        · have : (i < k + 1) ↔ (i < k) := by omega
          simp [Sys.set, hik, this]
      refine .step ih (u := ⟨0, _⟩) (i := k) ?_
      rw [← e]
      exact hs
  have h2 : ∀ k ≤ n, ∃ pm, Runs ⟨0, fun _ => .before⟩ ⟨pm, fun i => if i < k then .after true else if i < n then .between 0 else .before⟩ := by
    intro k
    induction k with
    | zero => intro _; exact ⟨0, by simpa using h1 n⟩
    | succ k ih =>
      intro hk
      obtain ⟨pm, ih⟩ := ih (by omega)
      have hs := Step.write ⟨pm, fun i => if i < k then .after true else if i < n then .between 0 else .before⟩ k 0 (by simp; omega)
      have e : (Sys.set ⟨pm, fun i => if i < k then .after true else if i < n then At.between 0 else .before⟩ k (.after ((0 : Int) == 0))) =
          fun i => if i < k + 1 then .after true else if i < n then .between 0 else .before := by
        funext i
        by_cases hik : i = k
        · simp [Sys.set, hik]
        · have : (i < k + 1) ↔ (i < k) := by omega
          simp [Sys.set, hik, this]
      refine ⟨1, .step ih (i := k) ?_⟩
      rw [← e]
      exact hs
  obtain ⟨pm, h⟩ := h2 n (Nat.le_refl _)
  exact ⟨_, h, fun i hi => by simp [hi]⟩

/-- **C94**: a call that no other thread interrupts does the same there as on x86. -/
theorem portable_alone (s t u : Sys) (i : Nat) (h0 : s.th i = .before) (h1 : Step s i t) (h2 : Step t i u) :
    u.th i = .after (testAndSet s.pm).1 ∧ u.pm = (testAndSet s.pm).2 := by
  cases h1 with
  | read h =>
    cases h2 with
    | read h' => simp [Sys.set] at h'
    | write o h' =>
      simp [Sys.set] at h'
      subst h'
      simp [Sys.set, testAndSet]
  | write o h => rw [h0] at h; cases h

example : ∃ t u, Step ⟨5, fun _ => .before⟩ 2 t ∧ Step t 2 u := ⟨_, _, .read _ 2 rfl, .write _ 2 5 (by simp [Sys.set])⟩

end Ustl.Atomic.Tas
