import Verif.Fds.Props
/-! # Several fstream objects in one process: the theorems (C103) -/
namespace Ustl.Fds

/-- The result of `close`, at the state that it leaves. -/
theorem close_of {k : Kernel} {o : Obj} {p : SObj} (h : Holds k o p) : ∃ fd : Int, fd < 0 ∧ closeF o k = ({ fd := fd, state := p.state }, drop k o.fd) := by
  have := closeF_is h o.state
  rw [← h.1]
  exact this

/-- Opening: the new descriptor is in the table before the old one is closed. -/
theorem drop_new {k : Kernel} {o : Obj} {p : SObj} (h : Holds k o p) {n : Nat} (hn : k.table n = none) :
    drop { k with table := upd k.table n (some k.next), data := upd k.data k.next [], next := k.next + 1 } o.fd =
      { drop k o.fd with table := upd (drop k o.fd).table n (some k.next), data := upd k.data k.next [], next := k.next + 1 } ∧
    (drop k o.fd).table n = none ∧ (drop k o.fd).next = k.next ∧ (drop k o.fd).data = k.data := by
  obtain ⟨_, ⟨h1, _⟩ | ⟨m, f, h1, _, h3⟩⟩ := h
  · unfold drop
    rw [if_pos h1, if_pos h1]
    exact ⟨rfl, hn, rfl, rfl⟩
  · have hc : ¬ o.fd < 0 := by omega
    have hm : m ≠ n := by rintro rfl; rw [hn] at h3; exact nomatch h3
    unfold drop
    rw [if_neg hc, if_neg hc, h1]
    refine ⟨?_, ?_, rfl, rfl⟩
    · show Kernel.mk (upd (upd k.table n _) m none) _ _ = Kernel.mk (upd (upd k.table m none) n _) _ _
      rw [upd_comm _ hm.symm]
    · show upd k.table m none n = none
      rw [upd_ne _ _ hm.symm]; exact hn

theorem Holds.new {k : Kernel} {o : Obj} {p : SObj} (h : Holds k o p) {n : Nat} (hn : k.table n = none) :
    Holds { k with table := upd k.table n (some k.next), data := upd k.data k.next [], next := k.next + 1 } o p := by
  refine ⟨h.1, ?_⟩
  rcases h.2 with h | ⟨m, f, h1, h2, h3⟩
  · exact Or.inl h
  · have : m ≠ n := by rintro rfl; rw [hn] at h3; exact nomatch h3
    exact Or.inr ⟨m, f, h1, h2, by show upd k.table n _ m = _; rw [upd_ne _ _ this]; exact h3⟩

/-- One step. -/
theorem step_is {w w' : World} {s : Spec} (h : Rel w s) (t : Step) {ns : List Nat} (e : runAll w t.ops = some (ns, w')) :
    ∃ s', t.spec s = some (ns, s') ∧ Rel w' s' := by
  cases t with
  | make i =>
    obtain ⟨n, e0, rfl⟩ := runAll_one e
    clear e
    have e := e0
    clear e0
    unfold Op.run at e
    cases ei : w.objs i with
    | some o => simp only [ei] at e; exact nomatch e
    | none =>
      simp only [ei] at e; cases e
      refine ⟨_, rfl, ?_⟩
      exact rel_obj h (o := {}) (p := {}) ⟨rfl, Or.inl ⟨by decide, rfl⟩⟩ (fun h => absurd h (by decide))
  | «open» i a =>
    obtain ⟨n, e0, rfl⟩ := runAll_one e
    clear e
    have e := e0
    clear e0
    unfold Op.run at e
    cases ei : w.objs i with
    | none => simp only [ei] at e; exact nomatch e
    | some o =>
      obtain ⟨p, ep, hp⟩ := h.obj ei
      simp only [ei, Option.bind_eq_bind, Option.bind_some] at e
      cases a with
      | none =>
        obtain ⟨fd, hfd, hc⟩ := closeF_is hp 1
        have e1 : openF none o w.k = some ({ fd := -1, state := 1 }, drop w.k o.fd) := by
          show some (attachF (-1) o w.k) = _
          unfold attachF
          have : (closeF { fd := o.fd, state := 0 ||| 1 } w.k) = ({ fd := fd, state := 1 }, drop w.k o.fd) := hc
          simp only [if_pos (show (-1 : Int) < 0 by decide), this]
        simp only [e1, Option.bind_some] at e; cases e
        refine ⟨_, by simp only [Step.spec, ep]; rfl, ?_⟩
        have r1 := rel_shut h ei hp (some { fd := -1, state := 1 }) (some { file := none, state := 1 }) (Or.inr ⟨-1, 1, by decide, rfl, rfl⟩)
        have so : (s.shut p.file).objs = s.objs := by cases p.file <;> rfl
        rw [so]
        exact r1
      | some m =>
        cases hm : w.k.table m with
        | some f => simp only [openF, hm] at e; exact nomatch e
        | none =>
          obtain ⟨fd, hfd, hc⟩ := closeF_is (hp.new hm) 0
          obtain ⟨d1, d2, d3, d4⟩ := drop_new hp hm
          rw [d1] at hc
          have e1 : openF (some m) o w.k = some ({ fd := m, state := 0 },
              { drop w.k o.fd with table := upd (drop w.k o.fd).table m (some w.k.next), data := upd w.k.data w.k.next [], next := w.k.next + 1 }) := by
            simp only [openF, hm]
            unfold attachF
            simp only [if_neg (show ¬ (m : Int) < 0 by omega), hc]
          simp only [e1, Option.bind_some] at e; cases e
          refine ⟨_, by simp only [Step.spec, ep]; rfl, ?_⟩
          have r1 := rel_shut h ei hp (some { fd := -1, state := 0 }) (some { file := none, state := 0 }) (Or.inr ⟨-1, 0, by decide, rfl, rfl⟩)
          have r2 := rel_new r1 (i := i) (n := m) d2 (fun u hu => by
            replace hu : upd w.objs i _ i = some u := hu
            rw [upd_same] at hu; cases hu; decide)
          simp only [upd_upd] at r2
          have sd : (s.shut p.file).data = s.data ∧ (s.shut p.file).next = s.next ∧ (s.shut p.file).objs = s.objs := by
            cases p.file <;> exact ⟨rfl, rfl, rfl⟩
          rw [sd.1, sd.2.1, d3, d4] at r2
          rw [sd.1, sd.2.1, sd.2.2]
          exact r2
  | write i d =>
    obtain ⟨n, e0, rfl⟩ := runAll_one e
    clear e
    have e := e0
    clear e0
    unfold Op.run at e
    cases ei : w.objs i with
    | none => simp only [ei] at e; exact nomatch e
    | some o =>
      obtain ⟨p, ep, hp⟩ := h.obj ei
      simp only [ei, Option.bind_eq_bind, Option.bind_some] at e
      unfold Step.spec
      simp only [ep, Option.bind_eq_bind, Option.bind_some]
      by_cases hd : d = []
      · have e1 : writeF d o w.k = (0, o, w.k) := by unfold writeF; rw [if_pos hd]
        simp only [e1, upd_self ei] at e
        cases e
        exact ⟨s, by rw [if_pos hd], h⟩
      · rw [if_neg hd]
        rcases hp.2 with ⟨h1, h2⟩ | ⟨m, f, h1, h2, h3⟩
        · have ef : w.k.file o.fd = none := by unfold Kernel.file; rw [if_pos h1]
          have e1 : writeF d o w.k = (0, { o with state := o.state ||| 4 }, w.k) := by unfold writeF; rw [if_neg hd]; simp only [ef]
          simp only [e1] at e
          cases e
          simp only [h2]
          refine ⟨_, rfl, ?_⟩
          exact rel_obj h (o := { o with state := o.state ||| 4 }) (p := { file := none, state := p.state ||| 4 }) ⟨by show o.state ||| 4 = p.state ||| 4; rw [hp.1], Or.inl ⟨h1, rfl⟩⟩ (fun h0 => by replace h0 : 0 ≤ o.fd := h0; omega)
        · have ef : w.k.file o.fd = some f := by unfold Kernel.file; rw [if_neg (by omega), h1]; exact h3
          have e1 : writeF d o w.k = (d.length, o, { w.k with data := upd w.k.data f (w.k.data f ++ d) }) := by unfold writeF; rw [if_neg hd]; simp only [ef]
          simp only [e1, upd_self ei] at e
          cases e
          rw [h2]
          refine ⟨_, rfl, ?_⟩
          exact ⟨by show upd w.k.data f _ = upd s.data f _; rw [h.data], h.next, h.opn, h.inj, h.lt, h.objs, h.own, h.asserts⟩
  | close i =>
    obtain ⟨n, e0, rfl⟩ := runAll_one e
    clear e
    have e := e0
    clear e0
    unfold Op.run at e
    cases ei : w.objs i with
    | none => simp only [ei] at e; exact nomatch e
    | some o =>
      obtain ⟨p, ep, hp⟩ := h.obj ei
      obtain ⟨fd, hfd, hc⟩ := close_of hp
      simp only [ei] at e
      replace e : some (0, ({ w with objs := upd w.objs i (some (closeF o w.k).1), k := (closeF o w.k).2 } : World)) = some (n, w') := e
      rw [hc] at e; cases e
      refine ⟨_, by simp only [Step.spec, ep]; rfl, ?_⟩
      have sd : (s.shut p.file).objs = s.objs := by cases p.file <;> rfl
      rw [show ({ s.shut p.file with objs := upd s.objs i (some { p with file := none }) } : Spec) = _ from rfl]
      exact rel_shut h ei hp _ _ (Or.inr ⟨fd, p.state, hfd, rfl, rfl⟩)
  | detach i =>
    obtain ⟨n, e0, rfl⟩ := runAll_one e
    clear e
    have e := e0
    clear e0
    unfold Op.run at e
    cases ei : w.objs i with
    | none => simp only [ei] at e; exact nomatch e
    | some o =>
      obtain ⟨p, ep, hp⟩ := h.obj ei
      simp only [ei] at e
      cases e
      refine ⟨_, by simp only [Step.spec, ep]; rfl, ?_⟩
      exact rel_obj h (o := detachF o) (p := { p with file := none }) ⟨hp.1, Or.inl ⟨by show (-1 : Int) < 0; decide, rfl⟩⟩ (fun h0 => absurd h0 (by show ¬ (0 : Int) ≤ -1; decide))
  | handNew i j =>
    obtain ⟨ns1, w1, ns2, e1, e2, rfl⟩ := runAll_append [.copy i j] [.detach i] w ns w' e
    obtain ⟨n1, a1, rfl⟩ := runAll_one e1
    obtain ⟨n2, a2, rfl⟩ := runAll_one e2
    clear e1 e2
    have e1 := a1
    have e2 := a2
    clear a1 a2
    unfold Op.run at e1 e2
    cases ei : w.objs i with
    | none => simp only [ei] at e1; exact nomatch e1
    | some o =>
      obtain ⟨p, ep, hp⟩ := h.obj ei
      cases ej : w.objs j with
      | some q => simp only [ei, ej] at e1; exact nomatch e1
      | none =>
        have hij : i ≠ j := by rintro rfl; rw [ei] at ej; exact nomatch ej
        simp only [ei, ej] at e1
        cases e1
        have ei' : upd w.objs j (some o) i = some o := by rw [upd_ne _ _ hij]; exact ei
        simp only [ei'] at e2
        cases e2
        refine ⟨_, by simp only [Step.spec, ep]; rfl, ?_⟩
        exact rel_move h hij ei hp (fun u hu => by rw [ej] at hu; exact nomatch hu)
  | hand i j =>
    obtain ⟨ns1, w1, ns2, b1, b2, rfl⟩ := runAll_append [.close i] [.assign i j, .detach j] w ns w' e
    obtain ⟨n1, e1, rfl⟩ := runAll_one b1
    obtain ⟨ns3, w2, ns4, b3, b4, rfl⟩ := runAll_append [.assign i j] [.detach j] w1 ns2 w' b2
    obtain ⟨n2, e2, rfl⟩ := runAll_one b3
    obtain ⟨n3, e3, rfl⟩ := runAll_one b4
    clear e b1 b2 b3 b4
    unfold Op.run at e1 e2 e3
    cases ei : w.objs i with
    | none => simp only [ei] at e1; exact nomatch e1
    | some o =>
      obtain ⟨p, ep, hp⟩ := h.obj ei
      obtain ⟨fd, hfd, hc⟩ := close_of hp
      simp only [ei] at e1
      replace e1 : some (0, ({ w with objs := upd w.objs i (some (closeF o w.k).1), k := (closeF o w.k).2 } : World)) = some (n1, w1) := e1
      rw [hc] at e1; cases e1
      have r1 := rel_shut h ei hp (some { fd := fd, state := p.state }) (some { file := none, state := p.state }) (Or.inr ⟨fd, p.state, hfd, rfl, rfl⟩)
      have ei1 : upd w.objs i (some ({ fd := fd, state := p.state } : Obj)) i = some { fd := fd, state := p.state } := upd_same _ _ _
      simp only [ei1] at e2
      by_cases hij : i = j
      · subst hij
        simp only [ei1] at e2
        cases e2
        simp only [upd_upd, upd_same] at e3
        cases e3
        refine ⟨_, by simp only [Step.spec, ep]; rfl, ?_⟩
        have := rel_shut h ei hp (some { fd := -1, state := p.state }) (some { file := none, state := p.state }) (Or.inr ⟨-1, p.state, by decide, rfl, rfl⟩)
        rw [upd_upd]
        exact this
      · have hji : j ≠ i := fun c => hij c.symm
        cases ej : w.objs j with
        | none => simp only [upd_ne _ _ hji, ej] at e2; exact nomatch e2
        | some o2 =>
          simp only [upd_ne _ _ hji, ej] at e2
          cases e2
          have ej2 : upd (upd w.objs i (some ({ fd := fd, state := p.state } : Obj))) i (some o2) j = some o2 := by rw [upd_upd, upd_ne _ _ hji]; exact ej
          simp only [ej2, upd_upd] at e3
          cases e3
          have ej1 : upd w.objs i (some ({ fd := fd, state := p.state } : Obj)) j = some o2 := by rw [upd_ne _ _ hji]; exact ej
          obtain ⟨p2, ep2, hp2⟩ := r1.obj ej1
          have ep2' : s.objs j = some p2 := by
            replace ep2 : upd s.objs i _ j = some p2 := ep2
            rwa [upd_ne _ _ hji] at ep2
          refine ⟨_, by simp only [Step.spec, ep, ep2']; rfl, ?_⟩
          have r2 := rel_move r1 (i := j) (j := i) hji ej1 hp2 (fun u hu => by
            replace hu : upd w.objs i _ i = some u := hu
            rw [upd_same] at hu; cases hu; exact hfd)
          simp only [upd_upd] at r2
          exact r2
  | destroy i =>
    obtain ⟨n, e0, rfl⟩ := runAll_one e
    clear e
    have e := e0
    clear e0
    unfold Op.run at e
    cases ei : w.objs i with
    | none => simp only [ei] at e; exact nomatch e
    | some o =>
      obtain ⟨p, ep, hp⟩ := h.obj ei
      obtain ⟨fd, hfd, hc⟩ := closeF_is hp 0
      simp only [ei] at e
      have e1 : destroyF o w.k = (false, drop w.k o.fd) := by
        unfold destroyF
        simp only [hc]
        rfl
      replace e : some (0, ({ k := (destroyF o w.k).2, objs := upd w.objs i none, asserts := w.asserts + if (destroyF o w.k).1 then 1 else 0 } : World)) = some (n, w') := e
      rw [e1] at e; cases e
      refine ⟨_, by simp only [Step.spec, ep]; rfl, ?_⟩
      exact rel_shut h ei hp none none (Or.inl ⟨rfl, rfl⟩)

/-- The empty world. -/
theorem rel_init : Rel {} {} := by
  refine ⟨rfl, rfl, ?_, ?_, ?_, ?_, ?_, rfl⟩
  · intro f; exact ⟨(fun h => nomatch h), fun ⟨_, h⟩ => nomatch h⟩
  · intro _ _ _ h; exact nomatch h
  · intro _ _ h; exact nomatch h
  · intro _; exact trivial
  · intro _ _ _ _ h; exact nomatch h

theorem steps_is (ts : List Step) : ∀ {w w' : World} {s : Spec} {ns : List Nat}, Rel w s → runAll w (ts.flatMap Step.ops) = some (ns, w') →
    ∃ s', specAll s ts = some (ns, s') ∧ Rel w' s' := by
  induction ts with
  | nil => intro w w' s ns h e; cases e; exact ⟨s, rfl, h⟩
  | cons t ts ih =>
    intro w w' s ns h e
    rw [List.flatMap_cons] at e
    obtain ⟨ns1, w1, ns2, e1, e2, rfl⟩ := runAll_append _ _ _ _ _ e
    obtain ⟨s1, a1, r1⟩ := step_is h t e1
    obtain ⟨s2, a2, r2⟩ := ih r1 e2
    refine ⟨s2, ?_, r2⟩
    rw [specAll, a1]
    simp only [Option.bind_eq_bind, Option.bind_some, a2]

/-- **C103** (partial): in a program that makes, opens, writes, closes, detaches, destroys and hands over any number of file objects in any
order, whatever descriptors the system chooses, everything is as if each object had its file itself: what is written through an object is
added to the file that it opened (or that was handed to it) and to no other, closing or destroying an object closes its file and no other,
every file stays open until then, the results and the states are the same, and no assertion fails. What is missing: plain copies, see
`copy_violated`, `copy_writes_violated` and `assign_violated`. -/
theorem files_partial (ts : List Step) (ns : List Nat) (w : World) (h : runAll {} (ts.flatMap Step.ops) = some (ns, w)) :
    ∃ s, specAll {} ts = some (ns, s) ∧ w.k.data = s.data ∧ (∀ f, s.isOpen f = true ↔ ∃ n, w.k.table n = some f) ∧
      (∀ i, (w.objs i).map (fun o => (o.state, w.k.file o.fd)) = (s.objs i).map (fun p => (p.state, p.file))) ∧ w.asserts = 0 := by
  obtain ⟨s, a, r⟩ := steps_is ts rel_init h
  refine ⟨s, a, r.data, r.opn, ?_, r.asserts⟩
  intro i
  have := r.objs i
  cases eo : w.objs i with
  | none => rw [eo] at this; cases es : s.objs i with
    | none => rfl
    | some _ => rw [es] at this; exact this.elim
  | some o =>
    obtain ⟨p, ep, hp⟩ := r.obj eo
    rw [ep]
    show some (o.state, w.k.file o.fd) = some (p.state, p.file)
    rw [hp.1]
    rcases hp.2 with ⟨h1, h2⟩ | ⟨n, f, h1, h2, h3⟩
    · rw [h2]; unfold Kernel.file; rw [if_pos h1]
    · rw [h2]; unfold Kernel.file; rw [if_neg (by omega), h1]
      show some (p.state, w.k.table n) = _
      rw [h3]

/-- A program that opens three files with two descriptors, hands one over to a new object and one to an old one, and destroys them. -/
def demo : List Step :=
  [.make 0, .open 0 (some 3), .write 0 [1, 2], .handNew 0 1, .destroy 0, .make 2, .open 2 (some 4), .write 2 [7], .close 2, .open 2 (some 4),
   .write 2 [8, 9], .hand 1 2, .write 1 [5], .write 2 [6], .destroy 1, .destroy 2]

example : ∃ w, runAll {} (demo.flatMap Step.ops) = some ([0, 0, 2, 0, 0, 0, 0, 0, 1, 0, 0, 2, 0, 0, 0, 1, 0, 0, 0], w) ∧
    w.k.data 0 = [1, 2] ∧ w.k.data 1 = [7] ∧ w.k.data 2 = [8, 9, 5] ∧ w.k.table 3 = none ∧ w.k.table 4 = none := ⟨_, rfl, rfl, rfl, rfl, rfl, rfl⟩

/-- Every open file has an object. -/
def Owned (s : Spec) : Prop := ∀ f, s.isOpen f = true → ∃ i p, s.objs i = some p ∧ p.file = some f

theorem shut_open {s : Spec} {x : Option Nat} {f : Nat} (h : (s.shut x).isOpen f = true) : s.isOpen f = true ∧ x ≠ some f := by
  cases x with
  | none => exact ⟨h, fun h => nomatch h⟩
  | some g =>
    replace h : upd s.isOpen g false f = true := h
    by_cases c : f = g
    · subst c; rw [upd_same] at h; exact nomatch h
    · rw [upd_ne _ _ c] at h; exact ⟨h, fun e => c (by cases e; rfl)⟩

/-- Objects other than `i`, which held `x`, keep the files that are left. -/
theorem owned_but {s : Spec} (h : Owned s) {i : Nat} {p : SObj} (ep : s.objs i = some p) {f : Nat} (hf : (s.shut p.file).isOpen f = true) :
    ∃ j q, j ≠ i ∧ s.objs j = some q ∧ q.file = some f := by
  obtain ⟨h1, h2⟩ := shut_open hf
  obtain ⟨j, q, a, b⟩ := h f h1
  refine ⟨j, q, ?_, a, b⟩
  rintro rfl
  rw [ep] at a; cases a; exact h2 b

theorem step_owned {w w' : World} {s s' : Spec} (h : Rel w s) (ho : Owned s) (t : Step) (hd : ∀ i, t ≠ .detach i) {ns : List Nat}
    (e : runAll w t.ops = some (ns, w')) (es : t.spec s = some (ns, s')) : Owned s' := by
  have fresh : ∀ j, w.objs j = none → s.objs j = none := by
    intro j hj
    have := h.objs j
    rw [hj] at this
    cases hs : s.objs j with
    | none => rfl
    | some _ => rw [hs] at this; exact this.elim
  cases t with
  | make i =>
    have hi : w.objs i = none := by
      cases ei : w.objs i with
      | none => rfl
      | some o => replace e : runAll w [.make i] = _ := e; rw [runAll] at e; simp only [Op.run, ei] at e; exact nomatch e
    cases es
    intro f hf
    obtain ⟨j, q, a, b⟩ := ho f hf
    have : j ≠ i := by rintro rfl; rw [fresh j hi] at a; exact nomatch a
    exact ⟨j, q, by show upd s.objs i _ j = _; rw [upd_ne _ _ this]; exact a, b⟩
  | «open» i a =>
    cases ep : s.objs i with
    | none => simp only [Step.spec, ep] at es; exact nomatch es
    | some p =>
      have so : (s.shut p.file).objs = s.objs := by cases p.file <;> rfl
      simp only [Step.spec, ep, Option.bind_eq_bind, Option.bind_some] at es
      cases a with
      | none =>
        cases es
        intro f hf
        obtain ⟨j, q, c, a, b⟩ := owned_but ho ep hf
        exact ⟨j, q, by show upd (s.shut p.file).objs i _ j = _; rw [upd_ne _ _ c, so]; exact a, b⟩
      | some m =>
        cases es
        intro f hf
        replace hf : upd (s.shut p.file).isOpen (s.shut p.file).next true f = true := hf
        by_cases c : f = (s.shut p.file).next
        · exact ⟨i, _, upd_same _ _ _, by rw [c]⟩
        · rw [upd_ne _ _ c] at hf
          obtain ⟨j, q, c, a, b⟩ := owned_but ho ep hf
          exact ⟨j, q, by show upd (s.shut p.file).objs i _ j = _; rw [upd_ne _ _ c, so]; exact a, b⟩
  | write i d =>
    cases ep : s.objs i with
    | none => simp only [Step.spec, ep] at es; exact nomatch es
    | some p =>
      simp only [Step.spec, ep, Option.bind_eq_bind, Option.bind_some] at es
      by_cases hc : d = []
      · rw [if_pos hc] at es; cases es; exact ho
      · rw [if_neg hc] at es
        cases ef : p.file with
        | some g => simp only [ef] at es; cases es; exact ho
        | none =>
          simp only [ef] at es; cases es
          intro f hf
          obtain ⟨j, q, a, b⟩ := ho f hf
          have : j ≠ i := by rintro rfl; rw [ep] at a; cases a; rw [ef] at b; exact nomatch b
          exact ⟨j, q, by show upd s.objs i _ j = _; rw [upd_ne _ _ this]; exact a, b⟩
  | close i =>
    cases ep : s.objs i with
    | none => simp only [Step.spec, ep] at es; exact nomatch es
    | some p =>
      simp only [Step.spec, ep, Option.bind_eq_bind, Option.bind_some] at es
      cases es
      intro f hf
      obtain ⟨j, q, c, a, b⟩ := owned_but ho ep hf
      exact ⟨j, q, by show upd s.objs i _ j = _; rw [upd_ne _ _ c]; exact a, b⟩
  | detach i => exact absurd rfl (hd i)
  | handNew i j =>
    cases ep : s.objs i with
    | none => simp only [Step.spec, ep] at es; exact nomatch es
    | some p =>
      simp only [Step.spec, ep, Option.bind_eq_bind, Option.bind_some] at es
      cases es
      have hj : w.objs j = none := by
        cases ej : w.objs j with
        | none => rfl
        | some o =>
          replace e : runAll w [.copy i j, .detach i] = _ := e
          rw [runAll] at e
          cases ei : w.objs i with
          | none => simp only [Op.run, ei] at e; exact nomatch e
          | some u => simp only [Op.run, ei, ej, Option.bind_eq_bind, Option.bind_some] at e; exact nomatch e
      have hij : j ≠ i := by rintro rfl; rw [fresh j hj] at ep; exact nomatch ep
      intro f hf
      obtain ⟨l, q, a, b⟩ := ho f hf
      by_cases c : l = i
      · subst c
        rw [ep] at a; cases a
        exact ⟨j, p, by show upd (upd s.objs j _) l _ j = _; rw [upd_ne _ _ hij, upd_same], b⟩
      · have c' : l ≠ j := by rintro rfl; rw [fresh l hj] at a; exact nomatch a
        exact ⟨l, q, by show upd (upd s.objs j _) i _ l = _; rw [upd_ne _ _ c, upd_ne _ _ c']; exact a, b⟩
  | hand i j =>
    cases ep : s.objs i with
    | none => simp only [Step.spec, ep] at es; exact nomatch es
    | some p =>
      cases eq : s.objs j with
      | none => simp only [Step.spec, ep, eq] at es; exact nomatch es
      | some q =>
        simp only [Step.spec, ep, eq, Option.bind_eq_bind, Option.bind_some] at es
        cases es
        intro f hf
        obtain ⟨l, r, c, a, b⟩ := owned_but ho ep hf
        by_cases c' : l = j
        · subst c'
          rw [eq] at a; cases a
          exact ⟨i, q, by show upd (upd s.objs i _) l _ i = _; rw [upd_ne _ _ (fun e => c e.symm), upd_same], b⟩
        · exact ⟨l, r, by show upd (upd s.objs i _) j _ l = _; rw [upd_ne _ _ c', upd_ne _ _ c]; exact a, b⟩
  | destroy i =>
    cases ep : s.objs i with
    | none => simp only [Step.spec, ep] at es; exact nomatch es
    | some p =>
      simp only [Step.spec, ep, Option.bind_eq_bind, Option.bind_some] at es
      cases es
      intro f hf
      obtain ⟨j, q, c, a, b⟩ := owned_but ho ep hf
      exact ⟨j, q, by show upd s.objs i _ j = _; rw [upd_ne _ _ c]; exact a, b⟩

theorem steps_owned (ts : List Step) : ∀ {w w' : World} {s : Spec} {ns : List Nat}, Rel w s → Owned s → (∀ t ∈ ts, ∀ i, t ≠ .detach i) →
    runAll w (ts.flatMap Step.ops) = some (ns, w') → ∃ s', Rel w' s' ∧ Owned s' := by
  induction ts with
  | nil => intro w w' s ns h ho _ e; cases e; exact ⟨s, h, ho⟩
  | cons t ts ih =>
    intro w w' s ns h ho hd e
    rw [List.flatMap_cons] at e
    obtain ⟨ns1, w1, ns2, e1, e2, rfl⟩ := runAll_append _ _ _ _ _ e
    obtain ⟨s1, a1, r1⟩ := step_is h t e1
    exact ih r1 (step_owned h ho t (hd t (by simp)) e1 a1) (fun t ht => hd t (by simp [ht])) e2

/-- **C103** (partial): when all objects have been destroyed and none was detached, no descriptor is open any more. What is missing: plain
copies, see `assign_violated`. -/
theorem all_closed_partial (ts : List Step) (ns : List Nat) (w : World) (hd : ∀ t ∈ ts, ∀ i, t ≠ .detach i)
    (h : runAll {} (ts.flatMap Step.ops) = some (ns, w)) (he : ∀ i, w.objs i = none) (n : Nat) : w.k.table n = none := by
  obtain ⟨s, r, o⟩ := steps_owned ts rel_init (fun _ h => nomatch h) hd h
  cases e : w.k.table n with
  | none => rfl
  | some f =>
    obtain ⟨i, p, a, _⟩ := o f ((r.opn f).mpr ⟨n, e⟩)
    have := r.objs i
    rw [he i, a] at this
    exact this.elim

example : ∀ t ∈ demo, ∀ i, t ≠ .detach i := by
  intro t ht i e
  subst e
  simp [demo] at ht

example : ∃ ns w, runAll {} (demo.flatMap Step.ops) = some (ns, w) ∧ ∀ i, w.objs i = none := by
  refine ⟨_, _, rfl, fun i => ?_⟩
  show upd (upd (upd (upd _ _ _) _ _) 1 none) 2 none i = none
  by_cases h2 : i = 2
  · subst h2; rfl
  · by_cases h1 : i = 1
    · subst h1; rfl
    · by_cases h0 : i = 0
      · subst h0; rfl
      · simp only [upd, if_neg h2, if_neg h1, if_neg h0]

/-! ## Plain copies -/

/-- **C103** is false for copies: whatever else there is, when an object with an open file has been copied and both are destroyed, the
descriptor is closed twice; the second time it is not open, and the assertion in the destructor fails. -/
theorem copy_violated (w : World) (i j n f : Nat) (o : Obj) (hi : w.objs i = some o) (hj : w.objs j = none) (hn : o.fd = n) (hf : w.k.table n = some f) :
    ∃ w', runAll w [.copy i j, .destroy i, .destroy j] = some ([0, 0, 0], w') ∧ w'.asserts = w.asserts + 1 := by
  have hij : i ≠ j := by rintro rfl; rw [hi] at hj; exact nomatch hj
  have e1 : (Op.copy i j).run w = some (0, { w with objs := upd w.objs j (some o) }) := by simp only [Op.run, hi, hj]; rfl
  have hc : ∀ k : Kernel, k.table n = some f → destroyF o k = (false, { k with table := upd k.table n none }) := by
    intro k hk
    have ef : k.file o.fd = some f := by unfold Kernel.file; rw [if_neg (by omega), hn]; exact hk
    unfold destroyF closeF
    simp only [if_neg (show ¬ o.fd < 0 by omega), ef]
    rw [hn]; rfl
  have hc2 : ∀ k : Kernel, k.table n = none → destroyF o k = (true, k) := by
    intro k hk
    have ef : k.file o.fd = none := by unfold Kernel.file; rw [if_neg (by omega), hn]; exact hk
    unfold destroyF closeF
    simp only [if_neg (show ¬ o.fd < 0 by omega), ef]
    rfl
  have e2 : (Op.destroy i).run { w with objs := upd w.objs j (some o) } =
      some (0, { k := { w.k with table := upd w.k.table n none }, objs := upd (upd w.objs j (some o)) i none, asserts := w.asserts }) := by
    have : upd w.objs j (some o) i = some o := by rw [upd_ne _ _ hij]; exact hi
    simp only [Op.run, this, Option.bind_eq_bind, Option.bind_some, hc w.k hf]
    rfl
  have e3 : (Op.destroy j).run { k := { w.k with table := upd w.k.table n none }, objs := upd (upd w.objs j (some o)) i none, asserts := w.asserts } =
      some (0, { k := { w.k with table := upd w.k.table n none }, objs := upd (upd (upd w.objs j (some o)) i none) j none, asserts := w.asserts + 1 }) := by
    have : upd (upd w.objs j (some o)) i none j = some o := by rw [upd_ne _ _ (fun e => hij e.symm), upd_same]
    simp only [Op.run, this, Option.bind_eq_bind, Option.bind_some, hc2 { w.k with table := upd w.k.table n none } (upd_same _ _ _)]
    rfl
  refine ⟨{ k := { w.k with table := upd w.k.table n none }, objs := upd (upd (upd w.objs j (some o)) i none) j none, asserts := w.asserts + 1 }, ?_, rfl⟩
  rw [runAll_cons e1, runAll_cons e2, runAll_cons e3]
  rfl

example : ∃ w, runAll {} [.make 0, .open 0 (some 3), .copy 0 1, .destroy 0, .destroy 1] = some ([0, 0, 0, 0, 0], w) ∧ w.asserts = 1 := ⟨_, rfl, rfl⟩

/-- **C103** is false for copies: after the original is destroyed and another file was opened with the same number (the lowest that is free,
as POSIX has it), what is written through the copy goes to that other file, and destroying the copy closes it: the object that opened it
cannot write any more. -/
theorem copy_writes_violated : ∃ w, runAll {} [.make 0, .open 0 (some 3), .write 0 [1], .copy 0 1, .destroy 0, .make 2, .open 2 (some 3), .write 1 [65, 66],
      .destroy 1, .write 2 [7]] = some ([0, 0, 1, 0, 0, 0, 0, 2, 0, 0], w) ∧
    w.k.data 0 = [1] ∧ w.k.data 1 = [65, 66] ∧ w.objs 2 = some { fd := 3, state := 4 } := ⟨_, rfl, rfl, rfl, rfl⟩

/-- **C103** is false for assignment: the file that the object had is never closed. -/
theorem assign_violated : ∃ w, runAll {} [.make 0, .open 0 (some 3), .make 1, .open 1 (some 4), .assign 0 1, .destroy 0, .destroy 1] = some ([0, 0, 0, 0, 0, 0, 0], w) ∧
    w.k.table 3 = some 0 ∧ w.asserts = 1 := ⟨_, rfl, rfl, rfl⟩

/-- **C103** is false for assignment, after every program: if `i` has a file and `j` is another object, then after `i = j` the file that `i` had
is open and no object has it, so nothing can ever close it. -/
theorem assign_leaks_violated (ts : List Step) (ns : List Nat) (w : World) (h : runAll {} (ts.flatMap Step.ops) = some (ns, w)) (i j f : Nat) (hij : i ≠ j)
    (o p : Obj) (hi : w.objs i = some o) (hf : w.k.file o.fd = some f) (hj : w.objs j = some p) :
    ∃ w', runAll w [.assign i j] = some ([0], w') ∧ w'.k.file o.fd = some f ∧ ∀ l u, w'.objs l = some u → w'.k.file u.fd ≠ some f := by
  obtain ⟨s, _, r⟩ := steps_is ts rel_init h
  have tab : ∀ {x : Int}, w.k.file x = some f → 0 ≤ x ∧ w.k.table x.toNat = some f := by
    intro x hx
    unfold Kernel.file at hx
    split at hx
    · exact nomatch hx
    · exact ⟨by omega, hx⟩
  have only : ∀ l u, w.objs l = some u → w.k.file u.fd = some f → l = i := by
    intro l u hl hu
    obtain ⟨a1, a2⟩ := tab hu
    obtain ⟨b1, b2⟩ := tab hf
    have := r.inj _ _ _ a2 b2
    exact r.own l i u o hl hi a1 (by omega)
  refine ⟨{ w with objs := upd w.objs i (some p) }, by simp only [runAll, Op.run, hi, hj]; rfl, hf, ?_⟩
  intro l u hl hu
  replace hl : upd w.objs i (some p) l = some u := hl
  by_cases c : l = i
  · subst c
    rw [upd_same] at hl; cases hl
    exact hij (only j p hj hu).symm
  · rw [upd_ne _ _ c] at hl
    exact c (only l u hl hu)

example : ∃ w, runAll {} (([.make 0, .open 0 (some 3), .make 1] : List Step).flatMap Step.ops) = some ([0, 0, 0], w) ∧
    w.objs 0 = some { fd := 3 } ∧ w.k.file 3 = some 0 ∧ w.objs 1 = some {} := ⟨_, rfl, rfl, rfl, rfl⟩

/-- **C103** is false for copies, in every state: an object with an open file is copied and destroyed, and another one opens a file, for which
the system chooses the descriptor that is free again. What is then written through the copy is in that other file. -/
theorem copy_crosses_violated (w : World) (i j l n f : Nat) (o : Obj) (hi : w.objs i = some o) (hj : w.objs j = none) (hl : w.objs l = none) (hjl : j ≠ l)
    (hn : o.fd = n) (hf : w.k.table n = some f) (d : List Byte) (hd : d ≠ []) :
    ∃ w', runAll w [.copy i j, .destroy i, .make l, .open l (some n), .write j d] = some ([0, 0, 0, 0, d.length], w') ∧ w'.k.data w.k.next = d := by
  have hij : i ≠ j := by rintro rfl; rw [hi] at hj; exact nomatch hj
  have hil : i ≠ l := by rintro rfl; rw [hi] at hl; exact nomatch hl
  have h0 : ¬ o.fd < 0 := by omega
  have e1 : (Op.copy i j).run w = some (0, { w with objs := upd w.objs j (some o) }) := by simp only [Op.run, hi, hj]; rfl
  have ef : w.k.file o.fd = some f := by unfold Kernel.file; rw [if_neg h0, hn]; exact hf
  have hde : destroyF o w.k = (false, { w.k with table := upd w.k.table n none }) := by
    unfold destroyF closeF
    simp only [if_neg h0, ef]
    rw [hn]; rfl
  have e2 : (Op.destroy i).run { w with objs := upd w.objs j (some o) } =
      some (0, { k := { w.k with table := upd w.k.table n none }, objs := upd (upd w.objs j (some o)) i none, asserts := w.asserts }) := by
    have : upd w.objs j (some o) i = some o := by rw [upd_ne _ _ hij]; exact hi
    simp only [Op.run, this, Option.bind_eq_bind, Option.bind_some, hde]
    rfl
  have e3 : (Op.make l).run { k := { w.k with table := upd w.k.table n none }, objs := upd (upd w.objs j (some o)) i none, asserts := w.asserts } =
      some (0, { k := { w.k with table := upd w.k.table n none }, objs := upd (upd (upd w.objs j (some o)) i none) l (some {}), asserts := w.asserts }) := by
    have : upd (upd w.objs j (some o)) i none l = none := by rw [upd_ne _ _ (fun e => hil e.symm), upd_ne _ _ (fun e => hjl e.symm)]; exact hl
    simp only [Op.run, this]
  have e4 : (Op.open l (some n)).run { k := { w.k with table := upd w.k.table n none }, objs := upd (upd (upd w.objs j (some o)) i none) l (some {}), asserts := w.asserts } =
      some (0, { k := { table := upd (upd w.k.table n none) n (some w.k.next), data := upd w.k.data w.k.next [], next := w.k.next + 1 },
                 objs := upd (upd (upd (upd w.objs j (some o)) i none) l (some {})) l (some { fd := n, state := 0 }), asserts := w.asserts }) := by
    have : upd (upd (upd w.objs j (some o)) i none) l (some ({} : Obj)) l = some {} := upd_same _ _ _
    simp only [Op.run, this, Option.bind_eq_bind, Option.bind_some, openF, upd_same]
    unfold attachF closeF
    simp only [if_neg (show ¬ (n : Int) < 0 by omega), if_pos (show (-1 : Int) < 0 by decide)]
  have e5 : ∃ w', (Op.write j d).run { k := { table := upd (upd w.k.table n none) n (some w.k.next), data := upd w.k.data w.k.next [], next := w.k.next + 1 }, objs := upd (upd (upd (upd w.objs j (some o)) i none) l (some {})) l (some { fd := n, state := 0 }), asserts := w.asserts } = some (d.length, w') ∧
      w'.k.data w.k.next = d := by
    have e : upd (upd (upd (upd w.objs j (some o)) i none) l (some ({} : Obj))) l (some { fd := n, state := 0 }) j = some o := by
      rw [upd_ne _ _ hjl, upd_ne _ _ hjl, upd_ne _ _ (fun e => hij e.symm), upd_same]
    have ef : ∀ k : Kernel, k.table n = some w.k.next → k.file o.fd = some w.k.next := by
      intro k hk; unfold Kernel.file; rw [if_neg h0, hn]; exact hk
    simp only [Op.run, e, Option.bind_eq_bind, Option.bind_some, writeF, if_neg hd,
      ef { table := upd (upd w.k.table n none) n (some w.k.next), data := upd w.k.data w.k.next [], next := w.k.next + 1 } (upd_same _ _ _)]
    exact ⟨_, rfl, by simp only [upd_same, List.nil_append]⟩
  obtain ⟨w', e5, h5⟩ := e5
  refine ⟨w', ?_, h5⟩
  rw [runAll_cons e1, runAll_cons e2, runAll_cons e3, runAll_cons e4, runAll_cons e5]
  rfl

example : ∃ w, runAll {} [.make 0, .open 0 (some 3)] = some ([0, 0], w) ∧ w.objs 0 = some { fd := 3 } ∧ w.objs 1 = none ∧ w.objs 2 = none ∧
    w.k.table 3 = some 0 := ⟨_, rfl, rfl, rfl, rfl, rfl⟩

/-- **C103**: after `close ()` the object has no file, whatever state it and the system were in: also if it was a copy and the system refused. -/
theorem close_forgets (w : World) (i : Nat) (o : Obj) (hi : w.objs i = some o) :
    ∃ w' o', runAll w [.close i] = some ([0], w') ∧ w'.objs i = some o' ∧ o'.fd < 0 ∧ w'.k.data = w.k.data ∧
      (o.fd < 0 ∨ (o'.state = o.state ∧ (w.k.file o.fd).isSome) ∨ (o'.state &&& 5 = 5 ∧ w.k.file o.fd = none)) := by
  refine ⟨{ w with objs := upd w.objs i (some (closeF o w.k).1), k := (closeF o w.k).2 }, (closeF o w.k).1, by simp only [runAll, Op.run, hi]; rfl, upd_same _ _ _, ?_⟩
  unfold closeF
  by_cases h : o.fd < 0
  · rw [if_pos h]; exact ⟨h, rfl, Or.inl h⟩
  · rw [if_neg h]
    cases e : w.k.file o.fd with
    | some f => exact ⟨by show (-1 : Int) < 0; decide, rfl, Or.inr (Or.inl ⟨rfl, rfl⟩)⟩
    | none =>
      refine ⟨by show (-1 : Int) < 0; decide, rfl, Or.inr (Or.inr ⟨?_, rfl⟩)⟩
      show (o.state ||| 5) &&& 5 = 5
      apply Nat.eq_of_testBit_eq
      intro b
      rw [Nat.testBit_and, Nat.testBit_or]
      cases Nat.testBit o.state b <;> cases Nat.testBit 5 b <;> rfl

example : ∃ w, runAll {} [.make 0, .open 0 (some 3), .copy 0 1, .close 0, .close 1] = some ([0, 0, 0, 0, 0], w) ∧ w.objs 1 = some { fd := -1, state := 5 } :=
  ⟨_, rfl, rfl⟩

end Ustl.Fds
