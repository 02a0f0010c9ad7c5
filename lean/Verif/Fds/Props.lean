import Verif.Fds.Model
/-! # Several fstream objects in one process (C103) -/
namespace Ustl.Fds

theorem upd_same {α : Type} (f : Nat → α) (i : Nat) (v : α) : upd f i v i = v := if_pos rfl

theorem upd_ne {α : Type} (f : Nat → α) {i k : Nat} (v : α) (h : k ≠ i) : upd f i v k = f k := if_neg h

theorem upd_self {α : Type} {f : Nat → α} {i : Nat} {v : α} (h : f i = v) : upd f i v = f := by
  funext k; unfold upd; split
  · rename_i e; rw [e, h]
  · rfl

theorem upd_upd {α : Type} (f : Nat → α) (i : Nat) (u v : α) : upd (upd f i u) i v = upd f i v := by
  funext k; unfold upd; split <;> rfl

theorem upd_comm {α : Type} (f : Nat → α) {i j : Nat} (h : i ≠ j) (u v : α) : upd (upd f i u) j v = upd (upd f j v) i u := by
  funext k; unfold upd; split
  · rename_i e; rw [if_neg (by omega)]
  · rfl

/-- An object and what it means. -/
def Holds (k : Kernel) (o : Obj) (p : SObj) : Prop :=
  o.state = p.state ∧ ((o.fd < 0 ∧ p.file = none) ∨ ∃ n f : Nat, o.fd = n ∧ p.file = some f ∧ k.table n = some f)

/-- Objects that both are none, or mean the same. -/
def Same (k : Kernel) : Option Obj → Option SObj → Prop
  | none, none => True
  | some o, some p => Holds k o p
  | _, _ => False

/-- The world and what it means. -/
structure Rel (w : World) (s : Spec) : Prop where
  data : w.k.data = s.data
  next : w.k.next = s.next
  opn : ∀ f, s.isOpen f = true ↔ ∃ n, w.k.table n = some f
  inj : ∀ n m f, w.k.table n = some f → w.k.table m = some f → n = m
  lt : ∀ n f, w.k.table n = some f → f < w.k.next
  objs : ∀ i, Same w.k (w.objs i) (s.objs i)
  own : ∀ i j o o', w.objs i = some o → w.objs j = some o' → 0 ≤ o.fd → o.fd = o'.fd → i = j
  asserts : w.asserts = 0

theorem Rel.obj {w : World} {s : Spec} (h : Rel w s) {i : Nat} {o : Obj} (e : w.objs i = some o) : ∃ p, s.objs i = some p ∧ Holds w.k o p := by
  have := h.objs i
  rw [e] at this
  cases hp : s.objs i with
  | none => rw [hp] at this; exact this.elim
  | some p => rw [hp] at this; exact ⟨p, rfl, this⟩

/-- The kernel after an object's descriptor is closed. -/
def drop (k : Kernel) (fd : Int) : Kernel := if fd < 0 then k else { k with table := upd k.table fd.toNat none }

theorem closeF_is {k : Kernel} {o : Obj} {p : SObj} (h : Holds k o p) (x : Nat) :
    ∃ fd : Int, fd < 0 ∧ closeF { o with state := x } k = ({ fd := fd, state := x }, drop k o.fd) := by
  obtain ⟨_, ⟨h1, _⟩ | ⟨n, f, h1, _, h3⟩⟩ := h
  · exact ⟨o.fd, h1, by unfold closeF drop; rw [if_pos h1, if_pos h1]⟩
  · refine ⟨-1, by decide, ?_⟩
    have hn : ¬ o.fd < 0 := by omega
    have e : k.file o.fd = some f := by unfold Kernel.file; rw [if_neg hn, h1]; exact h3
    unfold closeF drop
    rw [if_neg hn, if_neg hn]
    simp only [e]

/-- The file of object `i` is closed, and the object replaced by one that has none, or by nothing. -/
theorem rel_shut {w : World} {s : Spec} (h : Rel w s) {i : Nat} {o : Obj} {p : SObj} (eo : w.objs i = some o) (ho : Holds w.k o p)
    (q : Option Obj) (r : Option SObj) (hq : (q = none ∧ r = none) ∨ ∃ (fd : Int) (x : Nat), fd < 0 ∧ q = some { fd := fd, state := x } ∧ r = some { file := none, state := x }) :
    Rel { w with k := drop w.k o.fd, objs := upd w.objs i q } { s.shut p.file with objs := upd s.objs i r } := by
  have hnew : ∀ k, Same k q r := by
    intro k
    rcases hq with ⟨rfl, rfl⟩ | ⟨fd, x, hx, rfl, rfl⟩
    · exact trivial
    · exact ⟨rfl, Or.inl ⟨hx, rfl⟩⟩
  have hown : ∀ a b u u', upd w.objs i q a = some u → upd w.objs i q b = some u' → 0 ≤ u.fd → u.fd = u'.fd → a = b := by
    intro a b u u' ha hb h0 he
    have neg : ∀ u, q = some u → u.fd < 0 := by
      intro u hu
      rcases hq with ⟨rfl, _⟩ | ⟨fd, x, hx, rfl, _⟩
      · exact nomatch hu
      · cases hu; exact hx
    by_cases c : a = i
    · subst c; rw [upd_same] at ha; have := neg u ha; omega
    · by_cases c' : b = i
      · subst c'; rw [upd_same] at hb; have := neg u' hb; omega
      · rw [upd_ne _ _ c] at ha; rw [upd_ne _ _ c'] at hb
        exact h.own a b u u' ha hb h0 he
  obtain ⟨_, ⟨h1, h2⟩ | ⟨n, f, h1, h2, h3⟩⟩ := ho
  · have ek : drop w.k o.fd = w.k := if_pos h1
    rw [ek, h2]
    refine ⟨h.data, h.next, h.opn, h.inj, h.lt, ?_, hown, h.asserts⟩
    intro j
    show Same w.k (upd w.objs i q j) (upd s.objs i r j)
    by_cases c : j = i
    · subst c; rw [upd_same, upd_same]; exact hnew _
    · rw [upd_ne _ _ c, upd_ne _ _ c]; exact h.objs j
  · have ek : drop w.k o.fd = { w.k with table := upd w.k.table n none } := by
      unfold drop; rw [if_neg (by omega), h1]; rfl
    rw [ek, h2]
    refine ⟨h.data, h.next, ?_, ?_, ?_, ?_, hown, h.asserts⟩
    · intro g
      show upd s.isOpen f false g = true ↔ ∃ m, upd w.k.table n none m = some g
      by_cases c : g = f
      · subst c
        rw [upd_same]
        refine ⟨(fun h => nomatch h), ?_⟩
        rintro ⟨m, hm⟩
        by_cases c : m = n
        · subst c; rw [upd_same] at hm; exact nomatch hm
        · rw [upd_ne _ _ c] at hm; exact absurd (h.inj m n g hm h3) c
      · rw [upd_ne _ _ c, h.opn g]
        constructor
        · rintro ⟨m, hm⟩
          have : m ≠ n := by rintro rfl; rw [h3] at hm; cases hm; exact c rfl
          exact ⟨m, by rw [upd_ne _ _ this]; exact hm⟩
        · rintro ⟨m, hm⟩
          by_cases c : m = n
          · subst c; rw [upd_same] at hm; exact nomatch hm
          · rw [upd_ne _ _ c] at hm; exact ⟨m, hm⟩
    · intro a b g ha hb
      have lift : ∀ a, upd w.k.table n none a = some g → w.k.table a = some g := by
        intro a ha
        by_cases c : a = n
        · subst c; rw [upd_same] at ha; exact nomatch ha
        · rwa [upd_ne _ _ c] at ha
      exact h.inj a b g (lift a ha) (lift b hb)
    · intro a g ha
      have : w.k.table a = some g := by
        by_cases c : a = n
        · subst c; replace ha : upd w.k.table a none a = some g := ha; rw [upd_same] at ha; exact nomatch ha
        · replace ha : upd w.k.table n none a = some g := ha
          rwa [upd_ne _ _ c] at ha
      exact h.lt a g this
    · intro j
      show Same { w.k with table := upd w.k.table n none } (upd w.objs i q j) (upd s.objs i r j)
      by_cases c : j = i
      · subst c; rw [upd_same, upd_same]; exact hnew _
      · rw [upd_ne _ _ c, upd_ne _ _ c]
        have := h.objs j
        cases eu : w.objs j with
        | none => rw [eu] at this; cases es : s.objs j with
          | none => exact trivial
          | some _ => rw [es] at this; exact this.elim
        | some u =>
          obtain ⟨v, ev, hv⟩ := h.obj eu
          rw [ev]
          refine ⟨hv.1, ?_⟩
          rcases hv.2 with hv | ⟨m, g, g1, g2, g3⟩
          · exact Or.inl hv
          · refine Or.inr ⟨m, g, g1, g2, ?_⟩
            have : m ≠ n := by
              rintro rfl
              exact c (h.own j i u o eu eo (by omega) (by omega))
            show upd w.k.table n none m = some g
            rw [upd_ne _ _ this]; exact g3

/-- A new file is opened by an object that has none. -/
theorem rel_new {w : World} {s : Spec} (h : Rel w s) {i n : Nat} (hn : w.k.table n = none) (hi : ∀ o, w.objs i = some o → o.fd < 0) :
    Rel { w with k := { w.k with table := upd w.k.table n (some w.k.next), data := upd w.k.data w.k.next [], next := w.k.next + 1 },
                 objs := upd w.objs i (some { fd := n, state := 0 }) }
      { data := upd s.data s.next [], next := s.next + 1, isOpen := upd s.isOpen s.next true, objs := upd s.objs i (some { file := some s.next, state := 0 }) } := by
  have tab : ∀ m g, upd w.k.table n (some w.k.next) m = some g → (m = n ∧ g = w.k.next) ∨ (m ≠ n ∧ w.k.table m = some g ∧ g < w.k.next) := by
    intro m g hm
    by_cases c : m = n
    · subst c; rw [upd_same] at hm; cases hm; exact Or.inl ⟨rfl, rfl⟩
    · rw [upd_ne _ _ c] at hm; exact Or.inr ⟨c, hm, h.lt m g hm⟩
  refine ⟨?_, ?_, ?_, ?_, ?_, ?_, ?_, h.asserts⟩
  · show upd w.k.data w.k.next [] = upd s.data s.next []
    rw [h.data, h.next]
  · show w.k.next + 1 = s.next + 1
    rw [h.next]
  · intro f
    show upd s.isOpen s.next true f = true ↔ ∃ m, upd w.k.table n (some w.k.next) m = some f
    rw [← h.next]
    by_cases c : f = w.k.next
    · subst c
      rw [upd_same]
      exact ⟨fun _ => ⟨n, upd_same _ _ _⟩, fun _ => rfl⟩
    · rw [upd_ne _ _ c, h.opn f]
      constructor
      · rintro ⟨m, hm⟩
        have : m ≠ n := by rintro rfl; rw [hn] at hm; exact nomatch hm
        exact ⟨m, by rw [upd_ne _ _ this]; exact hm⟩
      · rintro ⟨m, hm⟩
        rcases tab m f hm with ⟨_, e⟩ | ⟨_, e, _⟩
        · exact absurd e c
        · exact ⟨m, e⟩
  · intro a b g ha hb
    rcases tab a g ha with ⟨a1, a2⟩ | ⟨a1, a2, a3⟩ <;> rcases tab b g hb with ⟨b1, b2⟩ | ⟨b1, b2, b3⟩
    · omega
    · omega
    · omega
    · exact h.inj a b g a2 b2
  · intro a g ha
    show g < w.k.next + 1
    rcases tab a g ha with ⟨_, e⟩ | ⟨_, _, e⟩ <;> omega
  · intro j
    show Same _ (upd w.objs i _ j) (upd s.objs i _ j)
    by_cases c : j = i
    · subst c; rw [upd_same, upd_same]
      exact ⟨rfl, Or.inr ⟨n, s.next, rfl, rfl, by show upd w.k.table n _ n = _; rw [upd_same, h.next]⟩⟩
    · rw [upd_ne _ _ c, upd_ne _ _ c]
      have := h.objs j
      cases eu : w.objs j with
      | none => rw [eu] at this; cases es : s.objs j with
        | none => exact trivial
        | some _ => rw [es] at this; exact this.elim
      | some u =>
        obtain ⟨v, ev, hv⟩ := h.obj eu
        rw [ev]
        refine ⟨hv.1, ?_⟩
        rcases hv.2 with hv | ⟨m, g, g1, g2, g3⟩
        · exact Or.inl hv
        · have : m ≠ n := by rintro rfl; rw [hn] at g3; exact nomatch g3
          exact Or.inr ⟨m, g, g1, g2, by show upd w.k.table n _ m = _; rw [upd_ne _ _ this]; exact g3⟩
  · have fresh : ∀ j u, j ≠ i → w.objs j = some u → u.fd ≠ n := by
      intro j u _ eu e
      obtain ⟨v, _, hv⟩ := h.obj eu
      rcases hv.2 with hv | ⟨m, g, g1, _, g3⟩
      · omega
      · have : m = n := by omega
        subst this; rw [hn] at g3; exact nomatch g3
    intro a b u u' ha hb h0 he
    replace ha : upd w.objs i (some { fd := n, state := 0 }) a = some u := ha
    replace hb : upd w.objs i (some { fd := n, state := 0 }) b = some u' := hb
    by_cases c : a = i <;> by_cases c' : b = i
    · omega
    · subst c; rw [upd_same] at ha; cases ha; rw [upd_ne _ _ c'] at hb
      exact absurd he.symm (fresh b u' c' hb)
    · subst c'; rw [upd_same] at hb; cases hb; rw [upd_ne _ _ c] at ha
      exact absurd he (fresh a u c ha)
    · rw [upd_ne _ _ c] at ha; rw [upd_ne _ _ c'] at hb
      exact h.own a b u u' ha hb h0 he

/-- An object is replaced by one with the same file, or with none. -/
theorem rel_obj {w : World} {s : Spec} (h : Rel w s) {i : Nat} {o : Obj} {p : SObj} (ho : Holds w.k o p)
    (hi : 0 ≤ o.fd → ∃ u, w.objs i = some u ∧ u.fd = o.fd) :
    Rel { w with objs := upd w.objs i (some o) } { s with objs := upd s.objs i (some p) } := by
  refine ⟨h.data, h.next, h.opn, h.inj, h.lt, ?_, ?_, h.asserts⟩
  · intro j
    show Same w.k (upd w.objs i _ j) (upd s.objs i _ j)
    by_cases c : j = i
    · subst c; rw [upd_same, upd_same]; exact ho
    · rw [upd_ne _ _ c, upd_ne _ _ c]; exact h.objs j
  · intro a b u u' ha hb h0 he
    replace ha : upd w.objs i (some o) a = some u := ha
    replace hb : upd w.objs i (some o) b = some u' := hb
    by_cases c : a = i <;> by_cases c' : b = i
    · omega
    · subst c; rw [upd_same] at ha; cases ha; rw [upd_ne _ _ c'] at hb
      obtain ⟨v, ev, e⟩ := hi h0
      exact h.own a b v u' ev hb (by omega) (by omega)
    · subst c'; rw [upd_same] at hb; cases hb; rw [upd_ne _ _ c] at ha
      obtain ⟨v, ev, e⟩ := hi (by omega)
      exact h.own a b u v ha ev h0 (by omega)
    · rw [upd_ne _ _ c] at ha; rw [upd_ne _ _ c'] at hb
      exact h.own a b u u' ha hb h0 he

/-- The file of `i` goes to `j`, which has none. -/
theorem rel_move {w : World} {s : Spec} (h : Rel w s) {i j : Nat} (hij : i ≠ j) {o : Obj} {p : SObj} (eo : w.objs i = some o) (ho : Holds w.k o p)
    (hj : ∀ u, w.objs j = some u → u.fd < 0) :
    Rel { w with objs := upd (upd w.objs j (some o)) i (some (detachF o)) }
      { s with objs := upd (upd s.objs j (some p)) i (some { p with file := none }) } := by
  refine ⟨h.data, h.next, h.opn, h.inj, h.lt, ?_, ?_, h.asserts⟩
  · intro a
    show Same w.k (upd (upd w.objs j _) i _ a) (upd (upd s.objs j _) i _ a)
    by_cases c : a = i
    · subst c; rw [upd_same, upd_same]; exact ⟨ho.1, Or.inl ⟨by show (-1 : Int) < 0; decide, rfl⟩⟩
    · rw [upd_ne _ _ c, upd_ne _ _ c]
      by_cases c' : a = j
      · subst c'; rw [upd_same, upd_same]; exact ho
      · rw [upd_ne _ _ c', upd_ne _ _ c']; exact h.objs a
  · have key : ∀ a u, upd (upd w.objs j (some o)) i (some (detachF o)) a = some u → 0 ≤ u.fd →
        (a = j ∧ u = o) ∨ (a ≠ i ∧ a ≠ j ∧ w.objs a = some u) := by
      intro a u ha h0
      by_cases c : a = i
      · subst c; rw [upd_same] at ha; cases ha; exact absurd h0 (by show ¬ (0 : Int) ≤ -1; decide)
      · rw [upd_ne _ _ c] at ha
        by_cases c' : a = j
        · subst c'; rw [upd_same] at ha; cases ha; exact Or.inl ⟨rfl, rfl⟩
        · rw [upd_ne _ _ c'] at ha; exact Or.inr ⟨c, c', ha⟩
    intro a b u u' ha hb h0 he
    rcases key a u ha h0 with ⟨a1, a2⟩ | ⟨a1, a2, a3⟩ <;> rcases key b u' hb (by omega) with ⟨b1, b2⟩ | ⟨b1, b2, b3⟩
    · omega
    · subst a2; exact absurd (h.own i b u u' eo b3 h0 he).symm b1
    · subst b2; exact absurd (h.own a i u u' a3 eo h0 he) a1
    · exact h.own a b u u' a3 b3 h0 he

/-- `runAll` of one operation. -/
theorem runAll_cons {w w' : World} {op : Op} {n : Nat} (h : op.run w = some (n, w')) (ops : List Op) :
    runAll w (op :: ops) = (runAll w' ops).bind fun r => some (n :: r.1, r.2) := by
  rw [runAll, h]; rfl

theorem runAll_append (ops ops' : List Op) : ∀ (w : World) (ns : List Nat) (w2 : World), runAll w (ops ++ ops') = some (ns, w2) →
    ∃ ns1 w1 ns2, runAll w ops = some (ns1, w1) ∧ runAll w1 ops' = some (ns2, w2) ∧ ns = ns1 ++ ns2 := by
  induction ops with
  | nil => intro w ns w2 h; exact ⟨[], w, ns, rfl, h, rfl⟩
  | cons op ops ih =>
    intro w ns w2 h
    rw [List.cons_append] at h
    cases e : op.run w with
    | none => rw [runAll, e] at h; exact nomatch h
    | some r =>
      obtain ⟨n, w'⟩ := r
      rw [runAll_cons e] at h
      cases e2 : runAll w' (ops ++ ops') with
      | none => rw [e2] at h; exact nomatch h
      | some r =>
        rw [e2] at h; cases h
        obtain ⟨ns1, w1, ns2, h1, h2, h3⟩ := ih w' r.1 r.2 e2
        exact ⟨n :: ns1, w1, ns2, by rw [runAll_cons e, h1]; rfl, h2, by rw [h3]; rfl⟩

/-- A result of one operation. -/
theorem runAll_one {w : World} {op : Op} {ns : List Nat} {w' : World} (h : runAll w [op] = some (ns, w')) : ∃ n, op.run w = some (n, w') ∧ ns = [n] := by
  cases e : op.run w with
  | none => rw [runAll, e] at h; exact nomatch h
  | some r => obtain ⟨n, w1⟩ := r; rw [runAll_cons e] at h; cases h; exact ⟨n, rfl, rfl⟩

end Ustl.Fds
