import Verif.New.Model
/-! # operator new and operator delete (C104): theorems -/
namespace Ustl.New

/-- The program has the objects it thinks it has, each in a block of its own, and there are no other blocks. -/
structure Rel (s : St) (o : Objs) : Prop where
  len : s.ptrs.length = o.length
  null : ∀ k : Nat, o[k]? = some none → s.ptrs[k]? = some 0
  obj : ∀ (k : Nat) (bs : List (Option UInt8)), o[k]? = some (some bs) → ∃ p, s.ptrs[k]? = some p ∧ p ≠ 0 ∧ s.mem.live p = some bs.length ∧
    ∀ (i : Nat) b, bs[i]? = some (some b) → s.mem.byte (p + i) = b
  own : ∀ p n, s.mem.live p = some n → ∃ (k : Nat) (bs : List (Option UInt8)), o[k]? = some (some bs) ∧ s.ptrs[k]? = some p
  inj : ∀ (k k' : Nat) (bs bs' : List (Option UInt8)) p, o[k]? = some (some bs) → o[k']? = some (some bs') → s.ptrs[k]? = some p → s.ptrs[k']? = some p → k = k'
  apart : ∀ p n p' n', s.mem.live p = some n → s.mem.live p' = some n' → p ≠ p' → p + n ≤ p' ∨ p' + n' ≤ p

theorem Rel.start (b : Nat → UInt8) : Rel { mem := { byte := b, live := fun _ => none } } [] :=
  ⟨rfl, fun _ h => (by simp at h), fun _ _ h => (by simp at h), fun _ _ h => (by cases h), fun _ _ _ _ _ h => (by simp at h), fun _ _ _ _ h => (by cases h)⟩

theorem app_get {α : Type} {o : List α} {x : α} {k : Nat} {y : α} (h : (o ++ [x])[k]? = some y) : (k < o.length ∧ o[k]? = some y) ∨ (k = o.length ∧ y = x) := by
  rw [List.getElem?_append] at h
  split at h
  · exact Or.inl ⟨‹_›, h⟩
  · right
    have : k - o.length = 0 := by
      by_cases c : k - o.length = 0
      · exact c
      · rw [List.getElem?_eq_none (by simp; omega)] at h; cases h
    rw [this] at h
    simp at h
    exact ⟨by omega, h.symm⟩

theorem app_left {α : Type} {o : List α} {x : α} {k : Nat} (h : k < o.length) : (o ++ [x])[k]? = o[k]? := by
  rw [List.getElem?_append, if_pos h]

theorem app_last {α : Type} {o : List α} {x : α} {k : Nat} (h : k = o.length) : (o ++ [x])[k]? = some x := by
  subst h; simp

theorem set_get {α : Type} {o : List α} {x y : α} {k j : Nat} (h : (o.set k x)[j]? = some y) : (j = k ∧ y = x) ∨ (j ≠ k ∧ o[j]? = some y) := by
  rw [List.getElem?_set] at h
  split at h
  · split at h
    · injection h with h; exact Or.inl ⟨by omega, h.symm⟩
    · cases h
  · exact Or.inr ⟨by omega, h⟩

theorem set_ne {α : Type} {o : List α} {x : α} {k j : Nat} (h : j ≠ k) : (o.set k x)[j]? = o[j]? := by
  rw [List.getElem?_set, if_neg (by omega)]

theorem new_null {l : Lib} (hl : l.Std) {s : St} {o : Objs} (R : Rel s o) (n : Nat) (h : (l.malloc s.calls s.mem n).1 = 0) :
    step l (.new n) s = some (.threw n, { (cmalloc l n s).2 with ptrs := s.ptrs ++ [0] }) ∧ Rel { (cmalloc l n s).2 with ptrs := s.ptrs ++ [0] } (o ++ [none]) := by
  have hlen := R.len
  have hv : (fun a => if a = (l.malloc s.calls s.mem n).1 ∧ (l.malloc s.calls s.mem n).1 ≠ 0 then some n else s.mem.live a) = s.mem.live := by
    funext a; rw [if_neg (fun c => c.2 h)]
  refine ⟨by simp only [step, tmalloc, cmalloc, h]; rfl, ?_⟩
  simp only [cmalloc, hv]
  refine ⟨by simp [hlen], fun k hk => ?_, fun k bs hk => ?_, fun p m hp => ?_, fun k k' bs bs' p h1 h2 h3 h4 => ?_, R.apart⟩
  · rcases app_get hk with ⟨a, b⟩ | ⟨a, b⟩
    · show (s.ptrs ++ [0])[k]? = _
      rw [app_left (by omega)]; exact R.null k b
    · exact app_last (by omega)
  · rcases app_get hk with ⟨a, b⟩ | ⟨a, b⟩
    · obtain ⟨p, h1, h2, h3, h4⟩ := R.obj k bs b
      refine ⟨p, by show (s.ptrs ++ [0])[k]? = _; rw [app_left (by omega)]; exact h1, h2, h3, fun i c hc => ?_⟩
      have hi : i < bs.length := by
        rcases Nat.lt_or_ge i bs.length with q | q
        · exact q
        · rw [List.getElem?_eq_none q] at hc; cases hc
      rw [← h4 i c hc]
      exact hl.keeps _ _ _ _ ⟨p, _, h3, by omega, by omega⟩
    · cases b
  · obtain ⟨k, bs, h1, h2⟩ := R.own p m hp
    have : k < o.length := by
      rcases Nat.lt_or_ge k o.length with q | q
      · exact q
      · rw [List.getElem?_eq_none q] at h1; cases h1
    exact ⟨k, bs, by rw [app_left this]; exact h1, by show (s.ptrs ++ [0])[k]? = _; rw [app_left (by omega)]; exact h2⟩
  · rcases app_get h1 with ⟨a, b⟩ | ⟨a, b⟩
    · rcases app_get h2 with ⟨a', b'⟩ | ⟨a', b'⟩
      · replace h3 : (s.ptrs ++ [0])[k]? = _ := h3
        replace h4 : (s.ptrs ++ [0])[k']? = _ := h4
        rw [app_left (by omega)] at h3 h4
        exact R.inj k k' bs bs' p b b' h3 h4
      · cases b'
    · cases b

theorem new_made {l : Lib} (hl : l.Std) {s : St} {o : Objs} (R : Rel s o) (n : Nat) (h : (l.malloc s.calls s.mem n).1 ≠ 0) :
    step l (.new n) s = some (.made, { (cmalloc l n s).2 with ptrs := s.ptrs ++ [(l.malloc s.calls s.mem n).1] }) ∧
      Rel { (cmalloc l n s).2 with ptrs := s.ptrs ++ [(l.malloc s.calls s.mem n).1] } (o ++ [some (List.replicate n none)]) := by
  have hlen := R.len
  have hap := fun p k => hl.apart s.calls s.mem n p k h
  have hkeep := hl.keeps s.calls s.mem n
  generalize hq : (l.malloc s.calls s.mem n).1 = q at *
  have hfresh : s.mem.live q = none := by
    cases e : s.mem.live q with
    | none => rfl
    | some k => have := hap q k e; omega
  have hv : ∀ a, (cmalloc l n s).2.mem.live a = if a = q then some n else s.mem.live a := by
    intro a; simp only [cmalloc, hq]; by_cases c : a = q <;> simp [c, h]
  have hb : (cmalloc l n s).2.mem.byte = (l.malloc s.calls s.mem n).2 := rfl
  refine ⟨by simp only [step, tmalloc, cmalloc, hq, if_neg h], ?_⟩
  have old : ∀ k bs, o[k]? = some (some bs) → ∃ p, s.ptrs[k]? = some p ∧ p ≠ 0 ∧ p ≠ q ∧ s.mem.live p = some bs.length ∧ k < o.length := by
    intro k bs hk
    obtain ⟨p, h1, h2, h3, h4⟩ := R.obj k bs hk
    refine ⟨p, h1, h2, fun c => ?_, h3, ?_⟩
    · rw [c, hfresh] at h3; cases h3
    · rcases Nat.lt_or_ge k o.length with q | q
      · exact q
      · rw [List.getElem?_eq_none q] at hk; cases hk
  refine ⟨by simp [hlen], fun k hk => ?_, fun k bs hk => ?_, fun p m hp => ?_, fun k k' bs bs' p h1 h2 h3 h4 => ?_, fun p m p' m' h1 h2 h3 => ?_⟩
  · rcases app_get hk with ⟨a, b⟩ | ⟨a, b⟩
    · show (s.ptrs ++ [q])[k]? = _
      rw [app_left (by omega)]; exact R.null k b
    · cases b
  · rcases app_get hk with ⟨a, b⟩ | ⟨a, b⟩
    · obtain ⟨p, h1, h2, h3, h4⟩ := R.obj k bs b
      obtain ⟨p', g1, _, g2, _⟩ := old k bs b
      rw [h1] at g1; injection g1 with g1; subst g1
      refine ⟨p, by show (s.ptrs ++ [q])[k]? = _; rw [app_left (by omega)]; exact h1, h2, by rw [hv, if_neg g2]; exact h3, fun i c hc => ?_⟩
      have hi : i < bs.length := by
        rcases Nat.lt_or_ge i bs.length with q | q
        · exact q
        · rw [List.getElem?_eq_none q] at hc; cases hc
      rw [← h4 i c hc]
      exact hkeep _ ⟨p, _, h3, by omega, by omega⟩
    · injection b with b
      subst b
      refine ⟨q, app_last (by omega), h, by rw [hv, if_pos rfl, List.length_replicate], fun i c hc => ?_⟩
      rw [List.getElem?_replicate] at hc
      split at hc <;> cases hc
  · rw [hv] at hp
    split at hp
    · rename_i c
      exact ⟨o.length, _, app_last rfl, by rw [c]; exact app_last hlen.symm⟩
    · obtain ⟨k, bs, h1, h2⟩ := R.own p m hp
      obtain ⟨_, _, _, _, _, hk⟩ := old k bs h1
      exact ⟨k, bs, by rw [app_left hk]; exact h1, by show (s.ptrs ++ [q])[k]? = _; rw [app_left (by omega)]; exact h2⟩
  · replace h3 : (s.ptrs ++ [q])[k]? = _ := h3
    replace h4 : (s.ptrs ++ [q])[k']? = _ := h4
    rcases app_get h1 with ⟨a, b⟩ | ⟨a, b⟩
    · rw [app_left (by omega)] at h3
      obtain ⟨p1, g1, _, g2, _⟩ := old k bs b
      rw [h3] at g1; injection g1 with g1; subst g1
      rcases app_get h2 with ⟨a', b'⟩ | ⟨a', b'⟩
      · rw [app_left (by omega)] at h4
        exact R.inj k k' bs bs' p b b' h3 h4
      · rw [app_last (by omega)] at h4; injection h4 with h4; exact absurd h4.symm g2
    · rw [app_last (by omega)] at h3; injection h3 with h3; subst h3
      rcases app_get h2 with ⟨a', b'⟩ | ⟨a', b'⟩
      · obtain ⟨p1, g1, _, g2, _⟩ := old k' bs' b'
        rw [app_left (by omega), g1] at h4; injection h4 with h4; exact absurd h4 g2
      · omega
  · rw [hv] at h1 h2
    split at h1
    · rename_i c
      injection h1 with h1
      rw [if_neg (by omega)] at h2
      have := hap p' m' h2
      omega
    · split at h2
      · injection h2 with h2
        have := hap p m h1
        omega
      · exact R.apart p m p' m' h1 h2 h3

theorem del_ok {l : Lib} (hl : l.Std) {s : St} {o : Objs} (R : Rel s o) (k : Nat) (hk : k < o.length) :
    ∃ p s', s.ptrs[k]? = some p ∧ nfree l p s = .ret () s' ∧ Rel { s' with ptrs := s'.ptrs.set k 0 } (o.set k none) := by
  have hlen := R.len
  cases e : o[k] with
  | none =>
    have hn := R.null k (by rw [List.getElem?_eq_getElem hk, e])
    have ho : o.set k none = o := by rw [← e]; exact List.set_getElem_self hk
    have hp : s.ptrs.set k 0 = s.ptrs := by
      have : s.ptrs[k] = 0 := by rw [List.getElem?_eq_getElem (by omega)] at hn; injection hn
      rw [← this]; exact List.set_getElem_self _
    refine ⟨0, s, hn, by simp [nfree], ?_⟩
    rw [ho, hp]; exact R
  | some bs =>
    have hb : o[k]? = some (some bs) := by rw [List.getElem?_eq_getElem hk, e]
    obtain ⟨p, h1, h2, h3, h4⟩ := R.obj k bs hb
    refine ⟨p, { s with mem := { byte := l.free s.calls s.mem p, live := fun a => if a = p then none else s.mem.live a }, calls := s.calls + 1 }, h1,
      by simp only [nfree, if_pos h2, cfree, if_neg h2, h3], ?_⟩
    refine ⟨by simp [hlen], fun j hj => ?_, fun j cs hj => ?_, fun q m hq => ?_, fun j j' cs cs' q g1 g2 g3 g4 => ?_, fun q m q' m' g1 g2 g3 => ?_⟩
    · show (s.ptrs.set k 0)[j]? = _
      rcases set_get hj with ⟨a, _⟩ | ⟨a, b⟩
      · rw [a, List.getElem?_set, if_pos rfl, if_pos (by omega)]
      · rw [set_ne a]; exact R.null j b
    · rcases set_get hj with ⟨a, b⟩ | ⟨a, b⟩
      · cases b
      · obtain ⟨q, f1, f2, f3, f4⟩ := R.obj j cs b
        have hqp : q ≠ p := fun c => a (R.inj j k cs bs q b hb f1 (by rw [c]; exact h1))
        refine ⟨q, by show (s.ptrs.set k 0)[j]? = _; rw [set_ne a]; exact f1, f2, by show (if q = p then none else s.mem.live q) = _; rw [if_neg hqp]; exact f3, fun i c hc => ?_⟩
        have hi : i < cs.length := by
          rcases Nat.lt_or_ge i cs.length with q | q
          · exact q
          · rw [List.getElem?_eq_none q] at hc; cases hc
        rw [← f4 i c hc]
        exact hl.freeKeeps _ _ _ _ q cs.length f3 hqp (by omega) (by omega)
    · replace hq : (if q = p then none else s.mem.live q) = _ := hq
      split at hq
      · cases hq
      · rename_i c
        obtain ⟨j, cs, f1, f2⟩ := R.own q m hq
        have hj : j ≠ k := by
          intro d
          rw [d, h1] at f2; injection f2 with f2; exact c f2.symm
        exact ⟨j, cs, by rw [set_ne hj]; exact f1, by show (s.ptrs.set k 0)[j]? = _; rw [set_ne hj]; exact f2⟩
    · replace g3 : (s.ptrs.set k 0)[j]? = _ := g3
      replace g4 : (s.ptrs.set k 0)[j']? = _ := g4
      rcases set_get g1 with ⟨a, b⟩ | ⟨a, b⟩
      · cases b
      · rcases set_get g2 with ⟨a', b'⟩ | ⟨a', b'⟩
        · cases b'
        · rw [set_ne a] at g3; rw [set_ne a'] at g4
          exact R.inj j j' cs cs' q b b' g3 g4
    · replace g1 : (if q = p then none else s.mem.live q) = _ := g1
      replace g2 : (if q' = p then none else s.mem.live q') = _ := g2
      split at g1
      · cases g1
      · split at g2
        · cases g2
        · exact R.apart q m q' m' g1 g2 g3

theorem store_ok {s : St} {o : Objs} (R : Rel s o) (k i : Nat) (b : UInt8) (bs : List (Option UInt8)) (hk : o[k]? = some (some bs)) (hi : i < bs.length) (l : Lib) :
    ∃ s', step l (.store k i b) s = some (.done, s') ∧ Rel s' (o.set k (some (bs.set i (some b)))) := by
  have hlen := R.len
  obtain ⟨p, h1, h2, h3, h4⟩ := R.obj k bs hk
  have hkl : k < o.length := by
    rcases Nat.lt_or_ge k o.length with q | q
    · exact q
    · rw [List.getElem?_eq_none q] at hk; cases hk
  refine ⟨{ s with mem := { s.mem with byte := fun a => if a = p + i then b else s.mem.byte a } },
    by simp only [step, h1, h3, if_pos (And.intro h2 hi)], ?_⟩
  refine ⟨by simp [hlen], fun j hj => ?_, fun j cs hj => ?_, fun q m hq => ?_, fun j j' cs cs' q g1 g2 g3 g4 => ?_, R.apart⟩
  · rcases set_get hj with ⟨_, c⟩ | ⟨a, c⟩
    · cases c
    · exact R.null j c
  · rcases set_get hj with ⟨a, c⟩ | ⟨a, c⟩
    · injection c with c
      subst a c
      refine ⟨p, h1, h2, by rw [List.length_set]; exact h3, fun x d hx => ?_⟩
      show (if p + x = p + i then b else s.mem.byte (p + x)) = d
      rcases set_get hx with ⟨u, v⟩ | ⟨u, v⟩
      · rw [if_pos (by omega)]; injection v with v; exact v.symm
      · rw [if_neg (by omega)]; exact h4 x d v
    · obtain ⟨q, f1, f2, f3, f4⟩ := R.obj j cs c
      have hqp : q ≠ p := fun d => a (R.inj j k cs bs q c hk f1 (by rw [d]; exact h1))
      refine ⟨q, f1, f2, f3, fun x d hx => ?_⟩
      have hx' : x < cs.length := by
        rcases Nat.lt_or_ge x cs.length with q | q
        · exact q
        · rw [List.getElem?_eq_none q] at hx; cases hx
      have := R.apart q _ p _ f3 h3 hqp
      show (if q + x = p + i then b else s.mem.byte (q + x)) = d
      rw [if_neg (by omega)]
      exact f4 x d hx
  · obtain ⟨j, cs, f1, f2⟩ := R.own q m hq
    by_cases c : j = k
    · exact ⟨k, bs.set i (some b), by rw [List.getElem?_set, if_pos rfl, if_pos hkl], by rw [← c]; exact f2⟩
    · exact ⟨j, cs, by rw [set_ne c]; exact f1, f2⟩
  · have un : ∀ {x : Nat} {ds : List (Option UInt8)}, (o.set k (some (bs.set i (some b))))[x]? = some (some ds) → ∃ es : List (Option UInt8), o[x]? = some (some es) := by
      intro x ds hx
      rcases set_get hx with ⟨a, _⟩ | ⟨_, c⟩
      · exact ⟨bs, by rw [a]; exact hk⟩
      · exact ⟨ds, c⟩
    obtain ⟨es, e1⟩ := un g1
    obtain ⟨es', e2⟩ := un g2
    exact R.inj j j' es es' q e1 e2 g3 g4

/-- One operation that is allowed is defined and does what it may. -/
theorem step_ok {l : Lib} (hl : l.Std) {s : St} {o : Objs} (R : Rel s o) (op : Op) (v : Valid o op) :
    ∃ r s' o', step l op s = some (r, s') ∧ Does o op r o' ∧ Rel s' o' := by
  have hlen := R.len
  cases op with
  | new n =>
    by_cases h : (l.malloc s.calls s.mem n).1 = 0
    · have := new_null hl R n h
      exact ⟨_, _, _, this.1, .threw o n, this.2⟩
    · have := new_made hl R n h
      exact ⟨_, _, _, this.1, .made o n, this.2⟩
  | del k =>
    obtain ⟨p, s', h1, h2, h3⟩ := del_ok hl R k v
    exact ⟨_, _, _, by simp only [step, h1, h2], .del o k, h3⟩
  | delSized k n =>
    obtain ⟨p, s', h1, h2, h3⟩ := del_ok hl R k v.1
    exact ⟨_, _, _, by simp only [step, h1, nfreen, h2], .delSized o k n, h3⟩
  | store k i b =>
    obtain ⟨bs, hk, hi⟩ := v
    obtain ⟨s', h1, h2⟩ := store_ok R k i b bs hk hi l
    exact ⟨_, _, _, h1, .store o k i b bs hk, h2⟩
  | load k i =>
    obtain ⟨bs, hk, hi⟩ := v
    obtain ⟨p, h1, h2, h3, h4⟩ := R.obj k bs hk
    refine ⟨_, s, o, by simp only [step, h1, h3, if_pos (And.intro h2 hi)]; rfl, .load o k i _ bs bs[i] hk (List.getElem?_eq_getElem hi) ?_, R⟩
    cases e : bs[i] with
    | none => exact Or.inl rfl
    | some b => exact Or.inr (by rw [h4 i b (by rw [List.getElem?_eq_getElem hi, e])])

/-- **C104**: with the library's `new` and `delete`, over every C library, every program either does something it may not (as far as objects that have
nothing to do with each other are concerned), or is defined and sees what it would see of such objects: every object has its own storage, of the size
asked for, nothing but its own stores changes it, `delete` of one ends no other; `new` gives an object or throws `bad_alloc` with the size. At the
end the live blocks are those of the objects that have not been deleted. -/
theorem new_delete_partial {l : Lib} (hl : l.Std) (ops : List Op) (b : Nat → UInt8) :
    Wrong l { mem := { byte := b, live := fun _ => none } } [] ops ∨ ∃ rs s o, run l ops { mem := { byte := b, live := fun _ => none } } = some (rs, s) ∧ DoesAll [] ops rs o ∧
      ∀ p n, s.mem.live p = some n ↔ ∃ (k : Nat) (bs : List (Option UInt8)), o[k]? = some (some bs) ∧ s.ptrs[k]? = some p ∧ bs.length = n := by
  have go : ∀ (ops : List Op) {s : St} {o : Objs}, Rel s o → Wrong l s o ops ∨ ∃ rs s' o', run l ops s = some (rs, s') ∧ DoesAll o ops rs o' ∧ Rel s' o' := by
    intro ops
    induction ops with
    | nil => intro s o R; exact Or.inr ⟨[], s, o, rfl, .nil o, R⟩
    | cons op ops ih =>
      intro s o R
      by_cases v : Valid o op
      · obtain ⟨r, s', o', h1, h2, h3⟩ := step_ok hl R op v
        rcases ih h3 with ⟨pre, op', post, rs, s2, o2, e, g1, g2, g3⟩ | ⟨rs, s'', o'', g1, g2, g3⟩
        · exact Or.inl ⟨op :: pre, op', post, r :: rs, s2, o2, by rw [e]; rfl, by simp only [run, h1, g1], .cons h2 g2, g3⟩
        · exact Or.inr ⟨r :: rs, s'', o'', by simp only [run, h1, g1], .cons h2 g2, g3⟩
      · exact Or.inl ⟨[], op, ops, [], s, o, rfl, rfl, .nil o, v⟩
  rcases go ops (Rel.start b) with w | ⟨rs, s, o, h1, h2, R⟩
  · exact Or.inl w
  · refine Or.inr ⟨rs, s, o, h1, h2, fun p n => ⟨fun h => ?_, ?_⟩⟩
    · obtain ⟨k, bs, g1, g2⟩ := R.own p n h
      obtain ⟨q, f1, _, f2, _⟩ := R.obj k bs g1
      rw [g2] at f1; injection f1 with f1; subst f1
      rw [h] at f2; injection f2 with f2
      exact ⟨k, bs, g1, g2, f2.symm⟩
    · rintro ⟨k, bs, g1, g2, g3⟩
      obtain ⟨q, f1, _, f2, _⟩ := R.obj k bs g1
      rw [g2] at f1; injection f1 with f1; subst f1
      rw [f2, g3]

/-- No block is live. -/
def empty : St := { mem := { byte := fun _ => 205, live := fun _ => none } }

open Classical in
/-- A C library that gives the `t`-th call the address `2 ^ 20 * (t + 1)` if the block is not empty and meets no live one, and else a null pointer;
`free` fills the block with 221. An example; not code of the library. -/
noncomputable def bump : Lib where
  malloc t m n := (if n ≠ 0 ∧ ∀ p k, m.live p = some k → p + max k 1 ≤ 2 ^ 20 * (t + 1) ∨ 2 ^ 20 * (t + 1) + max n 1 ≤ p then 2 ^ 20 * (t + 1) else 0, m.byte)
  free _ m q a := if ∃ n, m.live q = some n ∧ q ≤ a ∧ a < q + n ∧ ∀ p k, m.live p = some k → p ≠ q → ¬ (p ≤ a ∧ a < p + k) then 221 else m.byte a

theorem bump_std : bump.Std := by
  refine ⟨fun t m n p k h hp => ?_, fun _ _ _ _ _ => rfl, fun t m q a p n hp hn h1 h2 => ?_⟩
  · simp only [bump] at h ⊢
    split at h
    · rename_i c
      rw [if_pos c]; exact c.2 p k hp
    · exact absurd rfl h
  · simp only [bump]
    rw [if_neg]
    rintro ⟨_, _, _, _, h⟩
    exact h p n hp hn ⟨h1, h2⟩

theorem bump_first (n : Nat) (h : n ≠ 0) : (bump.malloc 0 empty.mem n).1 = 2 ^ 20 := by
  simp only [bump]
  rw [if_pos ⟨h, fun p k hp => by simp [empty] at hp⟩]

example : (run bump [.new 2, .store 0 1 7, .load 0 1, .del 0, .delSized 0 9, .new 0] empty).map (fun x => (x.1, x.2.ptrs)) =
    some ([.made, .done, .byte 7, .done, .done, .threw 0], [0, 0]) := by
  have h : (bump.malloc empty.calls empty.mem 2).1 = 2 ^ 20 := bump_first 2 (by omega)
  have z : ∀ t m, (bump.malloc t m 0).1 = 0 := fun t m => by simp [bump]
  simp only [run, step, tmalloc, cmalloc, h]
  simp [nfree, nfreen, cfree, empty, z]

example : Wrong bump empty [] [.new 2, .del 0, .load 0 1] := by
  have h : (bump.malloc empty.calls empty.mem 2).1 = 2 ^ 20 := bump_first 2 (by omega)
  have e : (run bump [.new 2, .del 0] empty).map Prod.fst = some [.made, .done] := by
    simp only [run, step, tmalloc, cmalloc, h]
    simp [nfree, cfree, empty]
  obtain ⟨⟨rs, s'⟩, e, e'⟩ := Option.map_eq_some_iff.mp e
  replace e' : rs = _ := e'
  subst e'
  exact ⟨[.new 2, .del 0], .load 0 1, [], [.made, .done], s', [none], rfl, e, .cons (.made [] 2) (.cons (.del _ 0) (.nil _)), fun ⟨_, v, _⟩ => by cases v⟩

/-- **C104**: `new` throws only if `malloc` has nothing to give; what it returns is never null. -/
theorem new_throws_spec (l : Lib) (n : Nat) (s : St) : match tmalloc l n s with
    | .ret p _ => p ≠ 0 ∧ p = (l.malloc s.calls s.mem n).1
    | .thrown b s' => b = n ∧ (l.malloc s.calls s.mem n).1 = 0 ∧ s'.mem.live = s.mem.live ∧ s'.ptrs = s.ptrs
    | .ub => False := by
  by_cases h : (l.malloc s.calls s.mem n).1 = 0
  · have e : tmalloc l n s = .thrown n (cmalloc l n s).2 := if_pos h
    rw [e]
    exact ⟨rfl, h, by funext a; exact if_neg (fun c => c.2 h), rfl⟩
  · have e : tmalloc l n s = .ret (cmalloc l n s).1 (cmalloc l n s).2 := if_neg h
    rw [e]
    exact ⟨h, rfl⟩

example : (match tmalloc bump 0 empty with | .thrown b _ => b | _ => 9) = 0 := by
  simp [tmalloc, cmalloc, bump]

/-- **C104** is false where the C++ standard has `new` give a pointer for a size of 0 as for any other: C lets `malloc (0)` return a null pointer,
and `new` of nothing throws then, though memory is there. -/
theorem new_zero_violated : ∃ l : Lib, l.Std ∧ (∃ s p, tmalloc l 1 empty = .ret p s) ∧ ∃ s, tmalloc l 0 empty = .thrown 0 s := by
  refine ⟨bump, bump_std, ?_, ?_⟩
  · have h : (bump.malloc empty.calls empty.mem 1).1 = 2 ^ 20 := bump_first 1 (by omega)
    exact ⟨_, _, by simp only [tmalloc, cmalloc, h]; rfl⟩
  · have h : (bump.malloc empty.calls empty.mem 0).1 = 0 := by simp [bump]
    exact ⟨_, by simp only [tmalloc, cmalloc, h]; rfl⟩

end Ustl.New
