/-!
# Scope guards (umemory.h: scope_exit) (C75)

A program makes guards, moves them (which makes a new guard), releases them and destroys them. Guards are numbered in
the order they come to be; the action given to a guard made by `make_scope_exit` is identified by the guard's number.
-/
namespace Ustl.Raw

/-- A `scope_exit` object: `_f`, `_enabled`, and whether its destructor has not run yet. -/
structure Guard where
  f : Nat
  enabled : Bool
  alive : Bool := true

/-- All the guards so far and the actions run so far. -/
structure GSt where
  gs : List Guard := []
  log : List Nat := []

/-- What a program does with guards: `g` is a guard's number. -/
inductive GOp where
  | make
  | move (g : Nat)
  | release (g : Nat)
  | destroy (g : Nat)
deriving DecidableEq

/-- `release ()`. Models umemory.h:223. -/
def Guard.release (g : Guard) : Guard := { g with enabled := false }

/-- One step; `none` when the guard does not exist any more. The constructor, the moving constructor, `release` and the
destructor. The move operations of the action itself are not modelled. Models umemory.h:221-224, 234-236. -/
def gstep (s : GSt) : GOp → Option GSt
  | .make => some { s with gs := s.gs ++ [{ f := s.gs.length, enabled := true }] }
  | .move i =>
    match s.gs[i]? with
    | none => none
    | some g =>
      if g.alive then some { s with gs := s.gs.set i g.release ++ [{ f := g.f, enabled := g.enabled }] } else none
  | .release i =>
    match s.gs[i]? with
    | none => none
    | some g => if g.alive then some { s with gs := s.gs.set i g.release } else none
  | .destroy i =>
    match s.gs[i]? with
    | none => none
    | some g =>
      if g.alive then
        some { gs := s.gs.set i { g with alive := false }, log := if g.enabled then s.log ++ [g.f] else s.log }
      else none

/-- A history from the beginning. -/
def grun (h : List GOp) : Option GSt := h.foldlM gstep {}

/-! ## Specification -/

/-- What has become of an action: guard `g` has it, it has run, it was released, or it does not exist yet. -/
inductive Fate where
  | unborn
  | held (g : Nat)
  | ran
  | released
deriving DecidableEq

/-- How one step changes the fate of action `a`; `n` guards exist before it. -/
def Fate.next (a n : Nat) : Fate → GOp → Fate
  | .unborn, .make => if n = a then .held n else .unborn
  | .held g, .move i => if i = g then .held n else .held g
  | .held g, .release i => if i = g then .released else .held g
  | .held g, .destroy i => if i = g then .ran else .held g
  | f, _ => f

/-- Number of guards that exist after a history. -/
def born (h : List GOp) : Nat := (h.filter fun o => match o with | .make => true | .move _ => true | _ => false).length

/-- The fate of action `a` after a history (latest step first). -/
def fateR (a : Nat) : List GOp → Fate
  | [] => .unborn
  | o :: h => (fateR a h).next a (born h) o

/-- The fate of action `a` after a history. -/
def fate (a : Nat) (h : List GOp) : Fate := fateR a h.reverse

/-- Action `a` exists: some step made a guard by `make_scope_exit` when `a` guards existed. -/
def Made (a : Nat) (h : List GOp) : Prop := ∃ p q, h = p ++ [.make] ++ q ∧ born p = a

/-! ## Proof -/

/-- What ties the guards to the fates. -/
structure GInv (h : List GOp) (s : GSt) : Prop where
  len : s.gs.length = born h
  nodup : s.log.Nodup
  ran : ∀ a, a ∈ s.log ↔ fate a h = .ran
  held : ∀ a g, fate a h = .held g ↔ ∃ x, s.gs[g]? = some x ∧ x.alive = true ∧ x.enabled = true ∧ x.f = a
  lt : ∀ (g : Nat) x, s.gs[g]? = some x → x.f < s.gs.length
  unborn : ∀ a, born h ≤ a → fate a h = .unborn

theorem born_snoc (h : List GOp) (o : GOp) :
    born (h ++ [o]) = born h + (match o with | .make => 1 | .move _ => 1 | _ => 0) := by
  unfold born
  rw [List.filter_append, List.length_append]
  cases o <;> rfl

theorem born_rev (h : List GOp) : born h.reverse = born h := by
  unfold born; rw [List.filter_reverse, List.length_reverse]

theorem fate_snoc (a : Nat) (h : List GOp) (o : GOp) : fate a (h ++ [o]) = (fate a h).next a (born h) o := by
  unfold fate
  rw [List.reverse_append]
  show fateR a (o :: h.reverse) = _
  rw [fateR, born_rev]

theorem gset_get (l : List Guard) (i j : Nat) (x : Guard) (h : i < l.length) :
    (l.set i x)[j]? = if j = i then some x else l[j]? := by
  rw [List.getElem?_set]
  by_cases hj : i = j
  · rw [if_pos hj, if_pos hj.symm, if_pos (by omega)]
  · rw [if_neg hj, if_neg (Ne.symm hj)]

theorem glt {l : List Guard} {i : Nat} {x : Guard} (h : l[i]? = some x) : i < l.length := by
  rcases Nat.lt_or_ge i l.length with h' | h'
  · exact h'
  · rw [List.getElem?_eq_none h'] at h; cases h

theorem gapp_get (l : List Guard) (j : Nat) (x : Guard) :
    (l ++ [x])[j]? = if j = l.length then some x else l[j]? := by
  rw [List.getElem?_append]
  by_cases hj : j < l.length
  · rw [if_pos hj, if_neg (by omega)]
  · rw [if_neg hj]
    by_cases h2 : j = l.length
    · rw [if_pos h2, h2]; simp
    · rw [if_neg h2, List.getElem?_eq_none (by simp; omega), List.getElem?_eq_none (by omega)]

theorem ginv_step (h : List GOp) (s s' : GSt) (o : GOp) (hi : GInv h s) (hs : gstep s o = some s') :
    GInv (h ++ [o]) s' := by
  cases o with
  | make =>
    cases hs
    have hlen := hi.len
    refine ⟨by simp [born_snoc, hlen], hi.nodup, fun a => ?_, fun a g => ?_, fun g x hx => ?_, fun a ha => ?_⟩
    · rw [fate_snoc]
      show a ∈ s.log ↔ _
      rw [hi.ran a]
      cases hf : fate a h <;> simp only [Fate.next] <;> (try split) <;> simp
    · rw [fate_snoc]
      show _ ↔ ∃ x, (s.gs ++ [_])[g]? = some x ∧ _
      rw [gapp_get]
      by_cases hg : g = s.gs.length
      · rw [if_pos hg]
        constructor
        · intro hh
          refine ⟨_, rfl, rfl, rfl, ?_⟩
          cases hf : fate a h with
          | unborn =>
            rw [hf] at hh; simp only [Fate.next] at hh
            split at hh
            · show s.gs.length = a
              omega
            · cases hh
          | held g' =>
            rw [hf] at hh; simp only [Fate.next] at hh; cases hh
            obtain ⟨x, hx, _⟩ := (hi.held a g).1 hf
            exact absurd (glt hx) (by omega)
          | ran => rw [hf] at hh; cases hh
          | released => rw [hf] at hh; cases hh
        · rintro ⟨x, hx, _, _, hxa⟩
          cases hx
          have ha : s.gs.length = a := hxa
          rw [hi.unborn a (by omega)]
          simp only [Fate.next]
          rw [if_pos (by omega), ← hlen, hg]
      · rw [if_neg hg, ← hi.held a g]
        cases hf : fate a h with
        | unborn =>
          simp only [Fate.next]
          split
          · constructor
            · intro hh; injection hh with hh; omega
            · intro hh; cases hh
          · simp
        | held g' => simp [Fate.next]
        | ran => simp [Fate.next]
        | released => simp [Fate.next]
    · have hx' : (s.gs ++ [{ f := s.gs.length, enabled := true }])[g]? = some x := hx
      rw [gapp_get] at hx'
      show x.f < (s.gs ++ [_]).length
      rw [List.length_append, List.length_singleton]
      split at hx'
      · cases hx'; show s.gs.length < _; omega
      · have := hi.lt g x hx'; omega
    · rw [born_snoc] at ha
      rw [fate_snoc, hi.unborn a (by simp at ha; omega)]
      simp only [Fate.next]
      rw [if_neg (by simp at ha; omega)]
  | move i =>
    have hlen := hi.len
    simp only [gstep] at hs
    cases hgi : s.gs[i]? with
    | none => rw [hgi] at hs; cases hs
    | some x0 =>
      rw [hgi] at hs
      simp only at hs
      by_cases hal : x0.alive = true
      · rw [if_pos hal] at hs
        cases hs
        have hil := glt hgi
        have hget : ∀ g, (s.gs.set i x0.release ++ [{ f := x0.f, enabled := x0.enabled }])[g]? =
            if g = s.gs.length then some { f := x0.f, enabled := x0.enabled } else if g = i then some x0.release
            else s.gs[g]? := by
          intro g; rw [gapp_get, List.length_set, gset_get _ _ _ _ hil]
        refine ⟨by simp [born_snoc, hlen], hi.nodup, fun a => ?_, fun a g => ?_, fun g x hx => ?_, fun a ha => ?_⟩
        · rw [fate_snoc]
          show a ∈ s.log ↔ _
          rw [hi.ran a]
          cases hf : fate a h <;> simp only [Fate.next] <;> (try split) <;> simp
        · rw [fate_snoc]
          show _ ↔ ∃ x, (s.gs.set i x0.release ++ [_])[g]? = some x ∧ _
          rw [hget]
          -- the action the moved guard has
          have hold : ∀ b, fate b h = .held i ↔ x0.enabled = true ∧ x0.f = b := by
            intro b
            rw [hi.held b i]
            constructor
            · rintro ⟨x, hx, _, h2, h3⟩; rw [hgi] at hx; cases hx; exact ⟨h2, h3⟩
            · rintro ⟨h2, h3⟩; exact ⟨x0, hgi, hal, h2, h3⟩
          have hlt : ∀ g', fate a h = .held g' → g' < s.gs.length := by
            intro g' hf
            obtain ⟨x, hx, _⟩ := (hi.held a g').1 hf
            exact glt hx
          by_cases hai : fate a h = .held i
          · rw [hai]
            simp only [Fate.next, if_pos]
            have hx0 := (hold a).1 hai
            by_cases hg : g = s.gs.length
            · rw [if_pos hg]
              refine ⟨fun _ => ⟨_, rfl, rfl, hx0.1, hx0.2⟩, fun _ => by rw [← hlen, hg]⟩
            · rw [if_neg hg]
              refine ⟨fun hh => ?_, fun hh => ?_⟩
              · injection hh with hh; omega
              · exfalso
                split at hh
                · obtain ⟨x, hx, _, h2, _⟩ := hh; cases hx; cases h2
                · have h2 := (hi.held a g).2 hh
                  rw [hai] at h2; injection h2 with h2; omega
          · have hnext : (fate a h).next a (born h) (.move i) = fate a h := by
              cases hf : fate a h with
              | held g' =>
                simp only [Fate.next]
                rw [if_neg]
                intro e; subst e; exact hai hf
              | unborn => rfl
              | ran => rfl
              | released => rfl
            rw [hnext]
            by_cases hg : g = s.gs.length
            · rw [if_pos hg]
              refine ⟨fun hh => ?_, fun hh => ?_⟩
              · have := hlt g hh; omega
              · obtain ⟨x, hx, _, h2, h3⟩ := hh
                cases hx
                exact absurd ((hold a).2 ⟨h2, h3⟩) hai
            · rw [if_neg hg]
              by_cases hgi2 : g = i
              · rw [if_pos hgi2]
                refine ⟨fun hh => absurd (hgi2 ▸ hh) hai, fun hh => ?_⟩
                obtain ⟨x, hx, _, h2, _⟩ := hh; cases hx; cases h2
              · rw [if_neg hgi2]; exact hi.held a g
        · have hx' := hx
          have hx' : (s.gs.set i x0.release ++ [{ f := x0.f, enabled := x0.enabled }])[g]? = some x := hx
          rw [hget] at hx'
          show x.f < (s.gs.set i x0.release ++ [_]).length
          rw [List.length_append, List.length_set, List.length_singleton]
          have h0 := hi.lt i x0 hgi
          split at hx'
          · cases hx'; show x0.f < _; omega
          · split at hx'
            · cases hx'; show x0.f < _; omega
            · have := hi.lt g x hx'; omega
        · rw [born_snoc] at ha
          rw [fate_snoc, hi.unborn a (by simp at ha; omega)]
          rfl
      · rw [if_neg hal] at hs; cases hs
  | release i =>
    have hlen := hi.len
    simp only [gstep] at hs
    cases hgi : s.gs[i]? with
    | none => rw [hgi] at hs; cases hs
    | some x0 =>
      rw [hgi] at hs
      simp only at hs
      by_cases hal : x0.alive = true
      · rw [if_pos hal] at hs
        cases hs
        have hil := glt hgi
        have hget : ∀ g, (s.gs.set i x0.release)[g]? = if g = i then some x0.release else s.gs[g]? :=
          fun g => gset_get _ _ _ _ hil
        refine ⟨by simp [born_snoc, hlen], hi.nodup, fun a => ?_, fun a g => ?_, fun g x hx => ?_, fun a ha => ?_⟩
        · rw [fate_snoc]
          show a ∈ s.log ↔ _
          rw [hi.ran a]
          cases hf : fate a h <;> simp only [Fate.next] <;> (try split) <;> simp
        · rw [fate_snoc]
          show _ ↔ ∃ x, (s.gs.set i x0.release)[g]? = some x ∧ _
          rw [hget]
          by_cases hg : g = i
          · rw [if_pos hg]
            refine ⟨fun hh => ?_, fun hh => ?_⟩
            · exfalso
              cases hf : fate a h with
              | held g' =>
                rw [hf] at hh; simp only [Fate.next] at hh
                split at hh
                · cases hh
                · injection hh with hh; omega
              | unborn => rw [hf] at hh; cases hh
              | ran => rw [hf] at hh; cases hh
              | released => rw [hf] at hh; cases hh
            · obtain ⟨x, hx, _, h2, _⟩ := hh; cases hx; cases h2
          · rw [if_neg hg, ← hi.held a g]
            cases hf : fate a h with
            | held g' =>
              simp only [Fate.next]
              split
              · refine ⟨fun hh => (by cases hh), fun hh => ?_⟩
                injection hh with hh; omega
              · exact Iff.rfl
            | unborn => exact Iff.rfl
            | ran => exact Iff.rfl
            | released => exact Iff.rfl
        · have hx' : (s.gs.set i x0.release)[g]? = some x := hx
          rw [hget] at hx'
          show x.f < (s.gs.set i x0.release).length
          rw [List.length_set]
          split at hx'
          · cases hx'; exact hi.lt i x0 hgi
          · exact hi.lt g x hx'
        · rw [born_snoc] at ha
          rw [fate_snoc, hi.unborn a (by simp at ha; omega)]
          rfl
      · rw [if_neg hal] at hs; cases hs
  | destroy i =>
    have hlen := hi.len
    simp only [gstep] at hs
    cases hgi : s.gs[i]? with
    | none => rw [hgi] at hs; cases hs
    | some x0 =>
      rw [hgi] at hs
      simp only at hs
      by_cases hal : x0.alive = true
      · rw [if_pos hal] at hs
        cases hs
        have hil := glt hgi
        have hget : ∀ g, (s.gs.set i { x0 with alive := false })[g]? =
            if g = i then some { x0 with alive := false } else s.gs[g]? := fun g => gset_get _ _ _ _ hil
        have hold : ∀ b, fate b h = .held i ↔ x0.enabled = true ∧ x0.f = b := by
          intro b
          rw [hi.held b i]
          constructor
          · rintro ⟨x, hx, _, h2, h3⟩; rw [hgi] at hx; cases hx; exact ⟨h2, h3⟩
          · rintro ⟨h2, h3⟩; exact ⟨x0, hgi, hal, h2, h3⟩
        refine ⟨by simp [born_snoc, hlen], ?_, fun a => ?_, fun a g => ?_, fun g x hx => ?_, fun a ha => ?_⟩
        · show (if x0.enabled = true then s.log ++ [x0.f] else s.log).Nodup
          split
          · next he =>
            refine List.nodup_append.2 ⟨hi.nodup, by simp, fun b hb c hc e => ?_⟩
            have h1 := (hi.ran b).1 hb
            have h2 := (hold x0.f).2 ⟨he, rfl⟩
            rw [List.mem_singleton] at hc
            subst hc; subst e
            rw [h1] at h2; cases h2
          · exact hi.nodup
        · rw [fate_snoc]
          show a ∈ (if x0.enabled = true then s.log ++ [x0.f] else s.log) ↔ _
          have hmem : a ∈ (if x0.enabled = true then s.log ++ [x0.f] else s.log) ↔
              a ∈ s.log ∨ fate a h = .held i := by
            rw [hold a]
            split
            · next he => rw [List.mem_append, List.mem_singleton]; simp [he, eq_comm]
            · next he => simp [he]
          rw [hmem, hi.ran a]
          cases hf : fate a h with
          | held g' =>
            simp only [Fate.next]
            split
            · next e => simp [e]
            · next e =>
              refine ⟨fun hh => ?_, fun hh => by cases hh⟩
              rcases hh with hh | hh
              · cases hh
              · injection hh with hh; omega
          | unborn => simp [Fate.next]
          | ran => simp [Fate.next]
          | released => simp [Fate.next]
        · rw [fate_snoc]
          show _ ↔ ∃ x, (s.gs.set i { x0 with alive := false })[g]? = some x ∧ _
          rw [hget]
          by_cases hg : g = i
          · rw [if_pos hg]
            refine ⟨fun hh => ?_, fun hh => ?_⟩
            · exfalso
              cases hf : fate a h with
              | held g' =>
                rw [hf] at hh; simp only [Fate.next] at hh
                split at hh
                · cases hh
                · injection hh with hh; omega
              | unborn => rw [hf] at hh; cases hh
              | ran => rw [hf] at hh; cases hh
              | released => rw [hf] at hh; cases hh
            · obtain ⟨x, hx, h2, _⟩ := hh; cases hx; cases h2
          · rw [if_neg hg, ← hi.held a g]
            cases hf : fate a h with
            | held g' =>
              simp only [Fate.next]
              split
              · refine ⟨fun hh => (by cases hh), fun hh => ?_⟩
                injection hh with hh; omega
              · exact Iff.rfl
            | unborn => exact Iff.rfl
            | ran => exact Iff.rfl
            | released => exact Iff.rfl
        · have hx' : (s.gs.set i { x0 with alive := false })[g]? = some x := hx
          rw [hget] at hx'
          show x.f < (s.gs.set i { x0 with alive := false }).length
          rw [List.length_set]
          split at hx'
          · cases hx'; exact hi.lt i x0 hgi
          · exact hi.lt g x hx'
        · rw [born_snoc] at ha
          rw [fate_snoc, hi.unborn a (by simp at ha; omega)]
          rfl
      · rw [if_neg hal] at hs; cases hs

theorem ginv_run (h : List GOp) : ∀ s, grun h = some s → GInv h s := by
  suffices ∀ (q p : List GOp) (s0 s : GSt), GInv p s0 → q.foldlM gstep s0 = some s → GInv (p ++ q) s by
    intro s hs
    refine this h [] {} s ⟨rfl, List.nodup_nil, fun a => ?_, fun a g => ?_, fun g x hx => ?_, fun a _ => rfl⟩ hs
    · exact ⟨fun hh => (by cases hh), fun hh => (by cases hh)⟩
    · exact ⟨fun hh => (by cases hh), fun ⟨x, hx, _⟩ => (by cases hx)⟩
    · cases hx
  intro q
  induction q with
  | nil =>
    intro p s0 s hi hs
    rw [List.append_nil]
    cases hs; exact hi
  | cons o q ih =>
    intro p s0 s hi hs
    rw [List.foldlM_cons] at hs
    cases hg : gstep s0 o with
    | none => rw [hg] at hs; cases hs
    | some s1 =>
      rw [hg] at hs
      have := ih (p ++ [o]) s1 s (ginv_step p s0 s1 o hi hg) hs
      simpa using this

/-- **C75.** Over any history of making, moving, releasing and destroying guards: an action runs when the guard that
then has it is destroyed, if that guard was not released, and no action ever runs twice. -/
theorem scope_exit_once (h : List GOp) (s : GSt) (hs : grun h = some s) :
    s.log.Nodup ∧ ∀ a, a ∈ s.log ↔ fate a h = .ran :=
  ⟨(ginv_run h s hs).nodup, (ginv_run h s hs).ran⟩

/-- An action given to a guard exists from then on. -/
theorem made_born (a : Nat) (h : List GOp) (hm : Made a h) : fate a h ≠ .unborn := by
  obtain ⟨p, q, rfl, hp⟩ := hm
  have hb : ∀ (q : List GOp), fate a (p ++ [.make] ++ q) ≠ .unborn := by
    intro q
    induction hq : q.reverse generalizing q with
    | nil =>
      obtain rfl : q = [] := by simpa using hq
      rw [List.append_nil, fate_snoc]
      cases hf : fate a p <;> simp [Fate.next, hp]
    | cons o r ih =>
      obtain rfl : q = r.reverse ++ [o] := by rw [← List.reverse_reverse q, hq]; simp
      rw [← List.append_assoc, fate_snoc]
      have := ih r.reverse (by simp)
      cases hf : fate a (p ++ [.make] ++ r.reverse) with
      | unborn => exact absurd hf this
      | held g => cases o <;> simp only [Fate.next] <;> (try split) <;> simp
      | ran => simp [Fate.next]
      | released => simp [Fate.next]
  exact hb q

/-- **C75.** Once every guard is destroyed, every action that was ever given to a guard has run or was released. -/
theorem scope_exit_all (h : List GOp) (s : GSt) (hs : grun h = some s) (hd : ∀ x ∈ s.gs, x.alive = false)
    (a : Nat) (ha : Made a h) : (a ∈ s.log ∧ fate a h = .ran) ∨ (a ∉ s.log ∧ fate a h = .released) := by
  have hi := ginv_run h s hs
  cases hf : fate a h with
  | unborn => exact absurd hf (made_born a h ha)
  | held g =>
    obtain ⟨x, hx, hal, _⟩ := (hi.held a g).1 hf
    rw [hd x (List.mem_of_getElem? hx)] at hal; cases hal
  | ran => exact Or.inl ⟨(hi.ran a).2 hf, rfl⟩
  | released => exact Or.inr ⟨fun hh => (by rw [(hi.ran a).1 hh] at hf; cases hf), rfl⟩

/-- **C75.** A guard made and destroyed, moved as often as one likes in between (returned from a function, put in
another object), runs its action exactly once. -/
theorem scope_exit_moved (n : Nat) :
    ∃ s, grun (.make :: (List.range n).map .move ++ (List.range (n + 1)).map .destroy) = some s ∧ s.log = [0] := by
  let G := fun (b : Bool) => ({ f := 0, enabled := b } : Guard)
  let D := fun (b : Bool) => ({ f := 0, enabled := b, alive := false } : Guard)
  have h1 : ∀ k, ((List.range k).map GOp.move).foldlM gstep { gs := [G true] } =
      some { gs := List.replicate k (G false) ++ [G true] } := by
    intro k
    induction k with
    | zero => rfl
    | succ k ih =>
      rw [List.range_succ, List.map_append, List.foldlM_append, ih]
      show (gstep _ (.move k) >>= fun s => some s) = _
      have hg : (List.replicate k (G false) ++ [G true])[k]? = some (G true) := by simp
      simp only [gstep, hg]
      rw [if_pos rfl]
      show some _ = some _
      congr 2
      rw [List.set_append_right _ _ (by simp)]
      simp only [List.length_replicate, Nat.sub_self, List.set_cons_zero]
      rw [List.replicate_succ']
      rfl
  have h2 : ∀ k, k ≤ n → ((List.range k).map GOp.destroy).foldlM gstep { gs := List.replicate n (G false) ++ [G true] } =
      some { gs := List.replicate k (D false) ++ (List.replicate (n - k) (G false) ++ [G true]) } := by
    intro k
    induction k with
    | zero => intro _; rfl
    | succ k ih =>
      intro hk
      rw [List.range_succ, List.map_append, List.foldlM_append, ih (by omega)]
      show (gstep _ (.destroy k) >>= fun s => some s) = _
      have hr : List.replicate (n - k) (G false) = G false :: List.replicate (n - (k + 1)) (G false) := by
        rw [← List.replicate_succ]; congr 1; omega
      have hg : (List.replicate k (D false) ++ (List.replicate (n - k) (G false) ++ [G true]))[k]? = some (G false) := by
        rw [hr]; simp
      simp only [gstep, hg]
      rw [if_pos rfl, hr, List.set_append_right _ _ (by simp)]
      simp only [List.length_replicate, Nat.sub_self, List.cons_append, List.set_cons_zero]
      rw [List.replicate_succ', List.append_assoc]
      rfl
  refine ⟨{ gs := List.replicate n (D false) ++ [D true], log := [0] }, ?_, rfl⟩
  unfold grun
  rw [List.cons_append, List.foldlM_cons]
  show ((List.range n).map GOp.move ++ (List.range (n + 1)).map GOp.destroy).foldlM gstep { gs := [G true] } = _
  rw [List.foldlM_append, h1]
  show ((List.range (n + 1)).map GOp.destroy).foldlM gstep _ = _
  rw [List.range_succ, List.map_append, List.foldlM_append, h2 n (Nat.le_refl _)]
  show (gstep _ (.destroy n) >>= fun s => some s) = _
  have hg : (List.replicate n (D false) ++ (List.replicate (n - n) (G false) ++ [G true]))[n]? = some (G true) := by simp
  simp only [gstep, hg]
  rw [if_pos rfl, if_pos rfl, List.set_append_right _ _ (by simp)]
  simp only [List.length_replicate, Nat.sub_self, List.replicate_zero, List.nil_append, List.set_cons_zero]
  rfl

example : grun [.make, .move 0, .make, .release 2, .destroy 0, .destroy 2, .destroy 1] =
    some { gs := [⟨0, false, false⟩, ⟨0, true, false⟩, ⟨2, false, false⟩], log := [0] } := rfl
example : fate 0 [.make, .move 0, .make, .release 2, .destroy 0, .destroy 2, .destroy 1] = .ran ∧
    fate 2 [.make, .move 0, .make, .release 2, .destroy 0, .destroy 2, .destroy 1] = .released := by decide
example : Made 2 [.make, .move 0, .make, .release 2] := ⟨[.make, .move 0], [.release 2], rfl, rfl⟩

/-- `make_unique_resource_checked (r, invalid, d)` and then the destructor of the result: the resources the deleter is
called with. Models umemory.h:290-295 and 250-251, 255-260. -/
def checkedCalls {R : Type _} [DecidableEq R] (r invalid : R) : List R :=
  let shouldrun := !(r == invalid)
  if shouldrun then [r] else []

/-- **C75.** A checked resource is released once if it is valid, and never if it is not. -/
theorem unique_resource_checked {R : Type _} [DecidableEq R] (r invalid : R) :
    (r ≠ invalid → checkedCalls r invalid = [r]) ∧ checkedCalls invalid invalid = [] := by
  constructor
  · intro h; simp [checkedCalls, h]
  · simp [checkedCalls]

example : checkedCalls 3 (-1 : Int) = [3] ∧ checkedCalls (-1) (-1 : Int) = [] := by decide

end Ustl.Raw
