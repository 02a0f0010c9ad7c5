import Verif.Shared.Model
/-!
# shared_ptr: what holds under every schedule, and what does not

`Reach False` are the states the code can be in. The count is right, nothing is destroyed while an owner (or a copy in
progress) exists, and nothing leaks; but the decrement and the test for zero are two atomic operations, so that two
threads dropping the last two references can both see zero and both destroy the object (`shared_double_violated`). With
the resets of one object one after another (`Reach True`) each object is destroyed exactly once.
-/
namespace Ustl.Shared

theorem count_set {α : Type} [BEq α] [LawfulBEq α] [DecidableEq α] (l : List α) (i : Nat) (x a b : α) (h : l[i]? = some x) :
    (l.set i a).count b + (if x = b then 1 else 0) = l.count b + (if a = b then 1 else 0) := by
  induction l generalizing i with
  | nil => simp at h
  | cons y ys ih =>
    cases i with
    | zero =>
      have : y = x := by simpa using h
      subst this
      simp only [List.set_cons_zero, List.count_cons, beq_iff_eq]
      omega
    | succ i =>
      have h' : ys[i]? = some x := by simpa using h
      have := ih i h'
      simp only [List.set_cons_succ, List.count_cons, beq_iff_eq]
      omega

theorem count_pos_of {α : Type} [BEq α] [LawfulBEq α] {l : List α} {i : Nat} {x : α} (h : l[i]? = some x) : 0 < l.count x :=
  List.count_pos_iff.2 (List.mem_of_getElem? h)

/-- What holds in every state of every schedule. -/
structure Invar (s : St) : Prop where
  cnt : ∀ c, s.refs c = s.slots.count (some c) + s.thr.count (.dec c)
  fresh : ∀ c, s.made ≤ c → s.refs c = 0 ∧ s.freed c = 0 ∧ s.thr.count (.load c) = 0 ∧ s.thr.count (.del c) = 0
  copy : ∀ (t d i c : Nat), s.thr[t]? = some (.copyInc d i c) → s.slots[i]? = some (some c) ∧ s.slots[d]? = some none
  dest : ∀ (t t' d i c i' c' : Nat), t ≠ t' → s.thr[t]? = some (.copyInc d i c) → s.thr[t']? ≠ some (.copyInc d i' c')
  dead : ∀ c, 0 < s.freed c → s.refs c = 0
  del : ∀ c, 0 < s.thr.count (.del c) → s.refs c = 0
  leak : ∀ c, c < s.made → s.refs c = 0 → 0 < s.freed c ∨ 0 < s.thr.count (.load c) ∨ 0 < s.thr.count (.del c)

theorem inv_init (n m : Nat) : Invar (init n m) := by
  constructor <;> simp [init, List.count_replicate, List.getElem?_replicate]

theorem not_busy {s : St} {i : Nat} (h : ¬ busy s i) {t d src c : Nat} (ht : s.thr[t]? = some (.copyInc d src c)) :
    d ≠ i ∧ src ≠ i := by
  constructor <;> intro e <;> exact h ⟨d, src, c, List.mem_of_getElem? ht, by simp [e]⟩

theorem get_set {α : Type} (l : List α) (i j : Nat) (a : α) (h : j ≠ i) : (l.set i a)[j]? = l[j]? := by
  rw [List.getElem?_set_ne (by omega)]

theorem get_set_self {α : Type} (l : List α) (i : Nat) (a x : α) (h : l[i]? = some x) : (l.set i a)[i]? = some a := by
  have : i < l.length := by
    rcases Nat.lt_or_ge i l.length with h' | h'
    · exact h'
    · rw [List.getElem?_eq_none h'] at h; cases h
  simp [this]

/-- A thread that is not copying after a step was, if it is in a copy, in that copy before. -/
theorem copy_back {l : List PC} {t t' : Nat} {p : PC} {d i c : Nat} (hp : ∀ d i c, p ≠ .copyInc d i c)
    (h : (l.set t p)[t']? = some (.copyInc d i c)) : t' ≠ t ∧ l[t']? = some (.copyInc d i c) := by
  by_cases e : t' = t
  · subst e
    rw [List.getElem?_set_self'] at h
    cases h' : l[t']? with
    | none => simp [h'] at h
    | some x => simp [h'] at h; exact absurd h (hp d i c)
  · exact ⟨e, by rwa [get_set _ _ _ _ e] at h⟩

theorem inv_step {lock : Prop} {s s' : St} (h : Invar s) (st : Step lock s s') : Invar s' := by
  obtain ⟨cnt, fresh, copy, dest, dead, del, leak⟩ := h
  cases st with
  | create t i ht hi hb =>
    have hf := fresh s.made (Nat.le_refl _)
    refine ⟨?_, ?_, ?_, ?_, ?_, ?_, ?_⟩
    · intro c
      have h1 := cnt c
      have h2 := count_set s.slots i none (some s.made) (some c) hi
      have h3 := cnt s.made
      simp only [upd]
      by_cases e : c = s.made
      · subst e; simp at h2 ⊢; omega
      · have e' : s.made ≠ c := fun x => e x.symm
        simp [e, e'] at h2 ⊢; omega
    · intro c hc
      have := fresh c (by simp only at hc; omega)
      have e : c ≠ s.made := by simp only at hc; omega
      simpa [upd, e] using this
    · intro t' d j c hh
      obtain ⟨n1, n2⟩ := not_busy hb hh
      obtain ⟨h1, h2⟩ := copy t' d j c hh
      exact ⟨by simp only; rw [get_set _ _ _ _ n2]; exact h1, by simp only; rw [get_set _ _ _ _ n1]; exact h2⟩
    · exact dest
    · intro c hc
      have h1 := dead c hc
      by_cases e : c = s.made
      · subst e; simp only at hc; omega
      · simpa [upd, e] using h1
    · intro c hc
      have h1 := del c hc
      by_cases e : c = s.made
      · subst e; simp only at hc; omega
      · simpa [upd, e] using h1
    · intro c hc hr
      by_cases e : c = s.made
      · subst e; simp [upd] at hr
      · exact leak c (by simp only at hc; omega) (by simpa [upd, e] using hr)
  | copyBegin t d i c ht hd hi hb =>
    have cs : ∀ p : PC, p ≠ .idle → (∀ d i c, p ≠ .copyInc d i c) → (s.thr.set t (.copyInc d i c)).count p = s.thr.count p := by
      intro p h1 h2
      have := count_set s.thr t .idle (.copyInc d i c) p ht
      rw [if_neg (fun e => h1 e.symm), if_neg (fun e => h2 d i c e.symm)] at this
      omega
    refine ⟨?_, ?_, ?_, ?_, dead, ?_, ?_⟩
    · intro c'; simp only; rw [cs _ (by simp) (by simp)]; exact cnt c'
    · intro c' hc'; simp only; rw [cs _ (by simp) (by simp), cs _ (by simp) (by simp)]; exact fresh c' hc'
    · intro t' d' i' c' hh
      by_cases e : t' = t
      · subst e
        simp only at hh
        rw [get_set_self _ _ _ _ ht] at hh
        obtain ⟨rfl, rfl, rfl⟩ : d = d' ∧ i = i' ∧ c = c' := by simpa using hh
        exact ⟨hi, hd⟩
      · simp only at hh; rw [get_set _ _ _ _ e] at hh; exact copy t' d' i' c' hh
    · intro t1 t2 d' i1 c1 i2 c2 ne h1 h2
      simp only at h1 h2
      by_cases e1 : t1 = t
      · subst e1
        rw [get_set_self _ _ _ _ ht] at h1
        rw [get_set _ _ _ _ (Ne.symm ne)] at h2
        obtain ⟨rfl, rfl, rfl⟩ : d = d' ∧ i = i1 ∧ c = c1 := by simpa using h1
        exact (not_busy hb h2).1 rfl
      · rw [get_set _ _ _ _ e1] at h1
        by_cases e2 : t2 = t
        · subst e2
          rw [get_set_self _ _ _ _ ht] at h2
          obtain ⟨rfl, rfl, rfl⟩ : d = d' ∧ i = i2 ∧ c = c2 := by simpa using h2
          exact (not_busy hb h1).1 rfl
        · rw [get_set _ _ _ _ e2] at h2
          exact dest t1 t2 d' i1 c1 i2 c2 ne h1 h2
    · intro c' hc'; simp only at hc' ⊢; rw [cs _ (by simp) (by simp)] at hc'; exact del c' hc'
    · intro c' hc' hr; simp only at hc' hr ⊢; rw [cs _ (by simp) (by simp), cs _ (by simp) (by simp)]; exact leak c' hc' hr
  | copyEnd t d i c ht =>
    obtain ⟨hi, hd⟩ := copy t d i c ht
    have cs : ∀ p : PC, p ≠ .idle → (∀ d i c, p ≠ .copyInc d i c) → (s.thr.set t .idle).count p = s.thr.count p := by
      intro p h1 h2
      have := count_set s.thr t _ .idle p ht
      rw [if_neg (fun e => h2 d i c e.symm), if_neg (fun e => h1 e.symm)] at this
      omega
    have hpos : 0 < s.refs c := by have := cnt c; have := count_pos_of hi; omega
    refine ⟨?_, ?_, ?_, ?_, ?_, ?_, ?_⟩
    · intro c'
      simp only; rw [cs _ (by simp) (by simp)]
      have h1 := cnt c'
      have h2 := count_set s.slots d none (some c) (some c') hd
      by_cases e : c' = c
      · subst e; simp [upd] at h2 ⊢; omega
      · have e' : c ≠ c' := fun x => e x.symm
        simp [upd, e, e'] at h2 ⊢; omega
    · intro c' hc'
      simp only; rw [cs _ (by simp) (by simp), cs _ (by simp) (by simp)]
      have := fresh c' hc'
      have e : c' ≠ c := by intro e; subst e; omega
      simpa [upd, e] using this
    · intro t' d' i' c' hh
      obtain ⟨ne, hh'⟩ := copy_back (by simp) hh
      obtain ⟨h1, h2⟩ := copy t' d' i' c' hh'
      have n1 : d' ≠ d := by
        intro e; subst e; exact dest t' t d' i' c' i c ne hh' ht
      have n2 : i' ≠ d := by intro e; subst e; rw [hd] at h1; cases h1
      simp only
      rw [get_set _ _ _ _ n1, get_set _ _ _ _ n2]
      exact ⟨h1, h2⟩
    · intro t1 t2 d' i1 c1 i2 c2 ne h1 h2
      obtain ⟨_, h1⟩ := copy_back (by simp) h1
      obtain ⟨_, h2⟩ := copy_back (by simp) h2
      exact dest t1 t2 d' i1 c1 i2 c2 ne h1 h2
    · intro c' hc'
      have h1 := dead c' hc'
      have e : c' ≠ c := by intro e; subst e; omega
      simpa [upd, e] using h1
    · intro c' hc'
      simp only at hc'; rw [cs _ (by simp) (by simp)] at hc'
      have h1 := del c' hc'
      have e : c' ≠ c := by intro e; subst e; omega
      simpa [upd, e] using h1
    · intro c' hc' hr
      simp only at hc' hr ⊢; rw [cs _ (by simp) (by simp), cs _ (by simp) (by simp)]
      have e : c' ≠ c := by intro e; subst e; simp [upd] at hr
      exact leak c' hc' (by simpa [upd, e] using hr)
  | move t d i c ht hd hi hb hb' =>
    have ne : d ≠ i := by intro e; subst e; rw [hd] at hi; cases hi
    have hd' : (s.slots.set i none)[d]? = some none := by rw [get_set _ _ _ _ ne]; exact hd
    refine ⟨?_, fresh, ?_, dest, dead, del, leak⟩
    · intro c'
      have h1 := cnt c'
      have h2 := count_set s.slots i (some c) none (some c') hi
      have h3 := count_set _ d none (some c) (some c') hd'
      simp only
      by_cases e : c = c'
      · subst e; simp at h2 h3 ⊢; omega
      · simp [e] at h2 h3 ⊢; omega
    · intro t' d' i' c' hh
      obtain ⟨n1, n2⟩ := not_busy hb hh
      obtain ⟨n3, n4⟩ := not_busy hb' hh
      simp only
      rw [get_set _ _ _ _ n1, get_set _ _ _ _ n3, get_set _ _ _ _ n2, get_set _ _ _ _ n4]
      exact copy t' d' i' c' hh
  | swap t i j p q ht hi hj hb hb' =>
    refine ⟨?_, fresh, ?_, dest, dead, del, leak⟩
    · intro c'
      have h1 := cnt c'
      have h2 := count_set s.slots i p q (some c') hi
      have h3 : ((s.slots.set i q).set j p).count (some c') + (if q = some c' then 1 else 0)
          = (s.slots.set i q).count (some c') + (if p = some c' then 1 else 0) := by
        by_cases e : j = i
        · subst e
          exact count_set _ j q p (some c') (get_set_self _ _ _ _ hi)
        · exact count_set _ j q p (some c') (by rw [get_set _ _ _ _ e]; exact hj)
      simp only
      omega
    · intro t' d' i' c' hh
      obtain ⟨n1, n2⟩ := not_busy hb hh
      obtain ⟨n3, n4⟩ := not_busy hb' hh
      simp only
      rw [get_set _ _ _ _ n3, get_set _ _ _ _ n1, get_set _ _ _ _ n4, get_set _ _ _ _ n2]
      exact copy t' d' i' c' hh
  | reset t i c ht hi hb =>
    have cs : ∀ p : PC, p ≠ .idle → (∀ c, p ≠ .dec c) → (s.thr.set t (.dec c)).count p = s.thr.count p := by
      intro p h1 h2
      have := count_set s.thr t .idle (.dec c) p ht
      rw [if_neg (fun e => h1 e.symm), if_neg (fun e => h2 c e.symm)] at this
      omega
    refine ⟨?_, ?_, ?_, ?_, dead, ?_, ?_⟩
    · intro c'
      have h1 := cnt c'
      have h2 := count_set s.slots i (some c) none (some c') hi
      have h3 := count_set s.thr t .idle (.dec c) (.dec c') ht
      simp only
      by_cases e : c = c'
      · subst e; simp at h2 h3 ⊢; omega
      · simp [e] at h2 h3 ⊢; omega
    · intro c' hc'; simp only; rw [cs _ (by simp) (by simp), cs _ (by simp) (by simp)]; exact fresh c' hc'
    · intro t' d' i' c' hh
      obtain ⟨_, hh⟩ := copy_back (by simp) hh
      obtain ⟨n1, n2⟩ := not_busy hb hh
      simp only
      rw [get_set _ _ _ _ n1, get_set _ _ _ _ n2]
      exact copy t' d' i' c' hh
    · intro t1 t2 d' i1 c1 i2 c2 ne h1 h2
      obtain ⟨_, h1⟩ := copy_back (by simp) h1
      obtain ⟨_, h2⟩ := copy_back (by simp) h2
      exact dest t1 t2 d' i1 c1 i2 c2 ne h1 h2
    · intro c' hc'; simp only at hc' ⊢; rw [cs _ (by simp) (by simp)] at hc'; exact del c' hc'
    · intro c' hc' hr; simp only at hc' hr ⊢; rw [cs _ (by simp) (by simp), cs _ (by simp) (by simp)]; exact leak c' hc' hr
  | resetTo t i c ht hi hb =>
    have hf := fresh s.made (Nat.le_refl _)
    have cs : ∀ p : PC, p ≠ .idle → (∀ c, p ≠ .dec c) → (s.thr.set t (.dec c)).count p = s.thr.count p := by
      intro p h1 h2
      have := count_set s.thr t .idle (.dec c) p ht
      rw [if_neg (fun e => h1 e.symm), if_neg (fun e => h2 c e.symm)] at this
      omega
    have nc : c ≠ s.made := by
      intro e
      have h1 := cnt c
      have h2 := count_pos_of hi
      subst e; omega
    refine ⟨?_, ?_, ?_, ?_, ?_, ?_, ?_⟩
    · intro c'
      have h1 := cnt c'
      have h2 := count_set s.slots i (some c) (some s.made) (some c') hi
      have h3 := count_set s.thr t .idle (.dec c) (.dec c') ht
      simp only [upd]
      by_cases e : c' = s.made
      · subst e; simp [nc] at h2 h3 ⊢; omega
      · have e' : s.made ≠ c' := fun x => e x.symm
        by_cases e2 : c = c'
        · subst e2; simp [e, e'] at h2 h3 ⊢; omega
        · simp [e, e', e2] at h2 h3 ⊢; omega
    · intro c' hc'; simp only at hc' ⊢; rw [cs _ (by simp) (by simp), cs _ (by simp) (by simp)]
      have e : c' ≠ s.made := by omega
      simpa [upd, e] using fresh c' (by omega)
    · intro t' d' i' c' hh
      obtain ⟨_, hh⟩ := copy_back (by simp) hh
      obtain ⟨n1, n2⟩ := not_busy hb hh
      simp only
      rw [get_set _ _ _ _ n1, get_set _ _ _ _ n2]
      exact copy t' d' i' c' hh
    · intro t1 t2 d' i1 c1 i2 c2 ne h1 h2
      obtain ⟨_, h1⟩ := copy_back (by simp) h1
      obtain ⟨_, h2⟩ := copy_back (by simp) h2
      exact dest t1 t2 d' i1 c1 i2 c2 ne h1 h2
    · intro c' hc'
      have h1 := dead c' hc'
      by_cases e : c' = s.made
      · subst e; simp only at hc'; omega
      · simpa [upd, e] using h1
    · intro c' hc'; simp only at hc' ⊢; rw [cs _ (by simp) (by simp)] at hc'
      have h1 := del c' hc'
      by_cases e : c' = s.made
      · subst e; omega
      · simpa [upd, e] using h1
    · intro c' hc' hr; simp only at hc' hr ⊢; rw [cs _ (by simp) (by simp), cs _ (by simp) (by simp)]
      by_cases e : c' = s.made
      · subst e; simp [upd] at hr
      · exact leak c' (by omega) (by simpa [upd, e] using hr)
  | dec t c ht hl =>
    have hpos : 0 < s.refs c := by have := cnt c; have := count_pos_of ht; omega
    have cd : ∀ c', (s.thr.set t (.load c)).count (.del c') = s.thr.count (.del c') := by
      intro c'; simpa using count_set s.thr t _ (.load c) (.del c') ht
    refine ⟨?_, ?_, ?_, ?_, ?_, ?_, ?_⟩
    · intro c'
      have h1 := cnt c'
      have h3 := count_set s.thr t _ (.load c) (.dec c') ht
      simp only [upd]
      by_cases e : c' = c
      · subst e; simp at h3 ⊢; omega
      · have e' : c ≠ c' := fun x => e x.symm
        simp [e, e'] at h3 ⊢; omega
    · intro c' hc'
      have := fresh c' hc'
      have h3 := count_set s.thr t _ (.load c) (.load c') ht
      simp only; rw [cd]
      have e : c' ≠ c := by intro e; subst e; omega
      have e' : c ≠ c' := fun x => e x.symm
      simp [e'] at h3
      rw [h3]
      simpa [upd, e] using this
    · intro t' d' i' c' hh
      obtain ⟨_, hh⟩ := copy_back (by simp) hh
      exact copy t' d' i' c' hh
    · intro t1 t2 d' i1 c1 i2 c2 ne h1 h2
      obtain ⟨_, h1⟩ := copy_back (by simp) h1
      obtain ⟨_, h2⟩ := copy_back (by simp) h2
      exact dest t1 t2 d' i1 c1 i2 c2 ne h1 h2
    · intro c' hc'
      have h1 := dead c' hc'
      have e : c' ≠ c := by intro e; subst e; omega
      simpa [upd, e] using h1
    · intro c' hc'
      simp only at hc'; rw [cd] at hc'
      have h1 := del c' hc'
      have e : c' ≠ c := by intro e; subst e; omega
      simpa [upd, e] using h1
    · intro c' hc' hr
      have h3 := count_set s.thr t _ (.load c) (.load c') ht
      simp only at hc' hr ⊢; rw [cd]
      by_cases e : c' = c
      · subst e; simp at h3; omega
      · have e' : c ≠ c' := fun x => e x.symm
        simp [e'] at h3
        rw [h3]
        exact leak c' hc' (by simpa [upd, e] using hr)
  | load t c ht =>
    have hnp : ∀ d i c', (if s.refs c = 0 then PC.del c else .idle) ≠ .copyInc d i c' := by
      intro d i c'; split <;> simp
    have hl : s.made ≤ c → False := by
      intro h; have := fresh c h; have := count_pos_of ht; omega
    have ne : ∀ p : PC, p ≠ .idle → p ≠ .load c → p ≠ .del c →
        (s.thr.set t (if s.refs c = 0 then PC.del c else .idle)).count p = s.thr.count p := by
      intro p h1 h2 h3
      have h4 := count_set s.thr t _ (if s.refs c = 0 then PC.del c else .idle) p ht
      have h5 : (if s.refs c = 0 then PC.del c else .idle) ≠ p := by
        split
        · exact fun e => h3 e.symm
        · exact fun e => h1 e.symm
      rw [if_neg (c := PC.load c = p) (fun e => h2 e.symm), if_neg h5] at h4
      omega
    have sd := count_set s.thr t _ (if s.refs c = 0 then PC.del c else .idle) (.del c) ht
    rw [if_neg (c := PC.load c = PC.del c) (by simp)] at sd
    refine ⟨?_, ?_, ?_, ?_, dead, ?_, ?_⟩
    · intro c'
      simp only; rw [ne _ (by simp) (by simp) (by simp)]; exact cnt c'
    · intro c' hc'
      have e : c' ≠ c := by intro e; subst e; exact hl hc'
      simp only; rw [ne _ (by simp) (by simpa using e) (by simp), ne _ (by simp) (by simp) (by simpa using e)]
      exact fresh c' hc'
    · intro t' d' i' c' hh
      obtain ⟨_, hh⟩ := copy_back hnp hh
      exact copy t' d' i' c' hh
    · intro t1 t2 d' i1 c1 i2 c2 ne h1 h2
      obtain ⟨_, h1⟩ := copy_back hnp h1
      obtain ⟨_, h2⟩ := copy_back hnp h2
      exact dest t1 t2 d' i1 c1 i2 c2 ne h1 h2
    · intro c' hc'
      simp only at hc' ⊢
      by_cases e : c' = c
      · subst e
        by_cases z : s.refs c' = 0
        · exact z
        · rw [if_neg z, if_neg (by simp)] at sd
          rw [if_neg z] at hc'
          exact del c' (by omega)
      · rw [ne _ (by simp) (by simp) (by simpa using e)] at hc'
        exact del c' hc'
    · intro c' hc' hr
      simp only at hc' hr ⊢
      have := leak c' hc' hr
      by_cases e : c' = c
      · subst e
        rw [if_pos hr, if_pos rfl] at sd
        rw [if_pos hr]
        omega
      · rw [ne _ (by simp) (by simpa using e) (by simp), ne _ (by simp) (by simp) (by simpa using e)]
        exact this
  | del t c ht =>
    have hz := del c (count_pos_of ht)
    refine ⟨?_, ?_, ?_, ?_, ?_, ?_, ?_⟩
    · intro c'
      have h1 := cnt c'
      have h3 := count_set s.thr t _ .idle (.dec c') ht
      simp at h3; simp only; omega
    · intro c' hc'
      have := fresh c' hc'
      have e : c ≠ c' := by intro e; subst e; have := count_pos_of ht; omega
      have e' : c' ≠ c := fun x => e x.symm
      have h3 := count_set s.thr t _ .idle (.load c') ht
      have h4 := count_set s.thr t _ .idle (.del c') ht
      simp [e] at h3 h4
      simp only [upd, if_neg e']
      rw [h3, h4]; exact this
    · intro t' d' i' c' hh
      obtain ⟨_, hh⟩ := copy_back (by simp) hh
      exact copy t' d' i' c' hh
    · intro t1 t2 d' i1 c1 i2 c2 ne h1 h2
      obtain ⟨_, h1⟩ := copy_back (by simp) h1
      obtain ⟨_, h2⟩ := copy_back (by simp) h2
      exact dest t1 t2 d' i1 c1 i2 c2 ne h1 h2
    · intro c' hc'
      by_cases e : c' = c
      · subst e; exact hz
      · simp only [upd, if_neg e] at hc'; exact dead c' hc'
    · intro c' hc'
      have h4 := count_set s.thr t _ .idle (.del c') ht
      simp only at hc'
      rw [if_neg (c := PC.idle = PC.del c') (by simp)] at h4
      exact del c' (by omega)
    · intro c' hc' hr
      have h3 := count_set s.thr t _ .idle (.load c') ht
      have h4 := count_set s.thr t _ .idle (.del c') ht
      simp only at hc' hr
      by_cases e : c' = c
      · subst e; simp [upd]
      · have e' : c ≠ c' := fun x => e x.symm
        simp [e'] at h3 h4
        simp only [upd, if_neg e]; rw [h3, h4]
        exact leak c' hc' hr
  | use t i c ht hi => exact ⟨cnt, fresh, copy, dest, dead, del, leak⟩

theorem inv_reach {lock : Prop} {s : St} (h : Reach lock s) : Invar s := by
  induction h with
  | init n m => exact inv_init n m
  | step _ st ih => exact inv_step ih st

/-- **C50** (all schedules): the count of an object is the number of its owners and of the threads that have dropped a
reference but not yet decremented the count; an owned object is alive; an object somebody is copying is owned; and a step
destroys an object only when nobody owns it or is copying it. -/
theorem shared_never_early {lock : Prop} {s : St} (h : Reach lock s) :
    (∀ c, s.refs c = s.slots.count (some c) + s.thr.count (.dec c)) ∧
    (∀ (i c : Nat), s.slots[i]? = some (some c) → s.freed c = 0) ∧
    (∀ d i c, PC.copyInc d i c ∈ s.thr → s.slots[i]? = some (some c)) ∧
    (∀ s' c, Step lock s s' → s'.freed c ≠ s.freed c →
      some c ∉ s.slots ∧ (∀ d i, PC.copyInc d i c ∉ s.thr) ∧ some c ∉ s'.slots) := by
  have I := inv_reach h
  have hcopy : ∀ d i c, PC.copyInc d i c ∈ s.thr → s.slots[i]? = some (some c) := by
    intro d i c hm
    obtain ⟨t, ht⟩ := List.mem_iff_getElem?.1 hm
    exact (I.copy t d i c ht).1
  refine ⟨I.cnt, ?_, hcopy, ?_⟩
  · intro i c hi
    have h1 := I.cnt c
    have h2 := count_pos_of hi
    have h3 := I.dead c
    omega
  · intro s' c st hne
    cases st with
    | del t c' ht =>
      have e : c = c' := by
        by_cases e : c = c'
        · exact e
        · simp [upd, e] at hne
      subst e
      have hz := I.del c (count_pos_of ht)
      have h1 := I.cnt c
      have hn : some c ∉ s.slots := List.count_eq_zero.1 (by omega)
      refine ⟨hn, ?_, hn⟩
      intro d i hm
      exact hn (List.mem_of_getElem? (hcopy d i c hm))
    | _ => exact absurd rfl hne

/-- **C50** (all schedules): nothing leaks. When all threads are done and nobody owns an object, it has been destroyed. -/
theorem shared_no_leak {lock : Prop} {s : St} (h : Reach lock s) (hidle : ∀ p ∈ s.thr, p = .idle) (c : Nat)
    (hc : c < s.made) (hown : some c ∉ s.slots) : 0 < s.freed c := by
  have I := inv_reach h
  have hz : ∀ p, p ≠ .idle → s.thr.count p = 0 := by
    intro p hp
    rw [List.count_eq_zero]
    intro hm; exact hp (hidle p hm)
  have h1 := I.cnt c
  have h2 := List.count_eq_zero.2 hown
  have h3 := I.leak c hc (by rw [hz _ (by simp)] at h1; omega)
  rw [hz _ (by simp), hz _ (by simp)] at h3
  omega

/-- What additionally holds when the resets of one object follow one another. -/
structure Serial (s : St) : Prop where
  one : ∀ c, s.thr.count (.load c) + s.thr.count (.del c) + s.freed c ≤ 1
  good : s.bad = false

theorem serial_step {s s' : St} (I : Invar s) (h : Serial s) (st : Step True s s') : Serial s' := by
  obtain ⟨one, good⟩ := h
  have owned : ∀ (i c : Nat), s.slots[i]? = some (some c) → touch s c = false := by
    intro i c hi
    have h1 := I.cnt c
    have h2 := count_pos_of hi
    have h3 := I.dead c
    simp [touch, good]; omega
  cases st with
  | create t i ht hi hb => exact ⟨one, good⟩
  | copyBegin t d i c ht hd hi hb =>
    refine ⟨?_, good⟩
    intro c'
    have h3 := count_set s.thr t _ (.copyInc d i c) (.load c') ht
    have h4 := count_set s.thr t _ (.copyInc d i c) (.del c') ht
    have := one c'
    simp at h3 h4; simp only; omega
  | copyEnd t d i c ht =>
    refine ⟨?_, owned i c (I.copy t d i c ht).1⟩
    intro c'
    have h3 := count_set s.thr t _ .idle (.load c') ht
    have h4 := count_set s.thr t _ .idle (.del c') ht
    have := one c'
    simp at h3 h4; simp only; omega
  | move t d i c ht hd hi hb hb' => exact ⟨one, good⟩
  | swap t i j p q ht hi hj hb hb' => exact ⟨one, good⟩
  | reset t i c ht hi hb =>
    refine ⟨?_, good⟩
    intro c'
    have h3 := count_set s.thr t _ (.dec c) (.load c') ht
    have h4 := count_set s.thr t _ (.dec c) (.del c') ht
    have := one c'
    simp at h3 h4; simp only; omega
  | resetTo t i c ht hi hb =>
    refine ⟨?_, good⟩
    intro c'
    have h3 := count_set s.thr t _ (.dec c) (.load c') ht
    have h4 := count_set s.thr t _ (.dec c) (.del c') ht
    have := one c'
    simp at h3 h4; simp only; omega
  | dec t c ht hl =>
    have hpos : 0 < s.refs c := by have := I.cnt c; have := count_pos_of ht; omega
    have hd := I.dead c
    obtain ⟨l1, l2⟩ := hl trivial
    have l1 := List.count_eq_zero.2 l1
    have l2 := List.count_eq_zero.2 l2
    refine ⟨?_, by simp [touch, good]; omega⟩
    intro c'
    have h3 := count_set s.thr t _ (.load c) (.load c') ht
    have h4 := count_set s.thr t _ (.load c) (.del c') ht
    have := one c'
    simp at h4; simp only
    by_cases e : c = c'
    · subst e; simp at h3; omega
    · simp [e] at h3; omega
  | load t c ht =>
    have h1 := one c
    have h2 := count_pos_of ht
    refine ⟨?_, by simp [touch, good]; omega⟩
    intro c'
    have h3 := count_set s.thr t _ (if s.refs c = 0 then PC.del c else .idle) (.load c') ht
    have h4 := count_set s.thr t _ (if s.refs c = 0 then PC.del c else .idle) (.del c') ht
    have := one c'
    simp only
    by_cases e : c = c'
    · subst e
      by_cases z : s.refs c = 0
      · simp [z] at h3 h4 ⊢; omega
      · simp [z] at h3 h4 ⊢; omega
    · by_cases z : s.refs c = 0
      · simp [z, e] at h3 h4 ⊢; omega
      · simp [z, e] at h3 h4 ⊢; omega
  | del t c ht =>
    have h1 := one c
    have h2 := count_pos_of ht
    refine ⟨?_, by simp [touch, good]; omega⟩
    intro c'
    have h3 := count_set s.thr t _ .idle (.load c') ht
    have h4 := count_set s.thr t _ .idle (.del c') ht
    have := one c'
    simp only [upd]
    by_cases e : c = c'
    · subst e; simp at h3 h4 ⊢; omega
    · have e' : c' ≠ c := fun x => e x.symm
      simp [e, e'] at h3 h4 ⊢; omega
  | use t i c ht hi => exact ⟨one, owned i c hi⟩

/-- **C50** (partial): when the resets of one object do not overlap, no deleted object is ever accessed, no object is
destroyed twice, and once all threads are done an object has been destroyed exactly once if nobody owns it and not at
all if somebody does. What is missing: the code does not make them not overlap, see `shared_double_violated`. -/
theorem shared_serial_partial {s : St} (h : Reach True s) :
    s.bad = false ∧ (∀ c, s.freed c ≤ 1) ∧
    ((∀ p ∈ s.thr, p = .idle) → ∀ c, c < s.made → s.freed c = if some c ∈ s.slots then 0 else 1) := by
  have S : Serial s := by
    have key : ∀ {s}, Reach True s → Serial s := by
      intro s h
      induction h with
      | init n m => constructor <;> simp [init, List.count_replicate]
      | step hr st ih => exact serial_step (inv_reach hr) ih st
    exact key h
  refine ⟨S.good, fun c => by have := S.one c; omega, ?_⟩
  intro hidle c hc
  split
  · rename_i hm
    obtain ⟨i, hi⟩ := List.mem_iff_getElem?.1 hm
    exact (shared_never_early h).2.1 i c hi
  · rename_i hm
    have := shared_no_leak h hidle c hc hm
    have := S.one c
    omega

/-- A use of a single owner by one thread in turn: made, copied, both dropped. It is a schedule of both kinds. -/
theorem serial_example (lock : Prop) : ∃ s, Reach lock s ∧ s.freed 0 = 1 ∧ s.made = 1 ∧ (∀ p ∈ s.thr, p = .idle) := by
  have r0 : Reach lock (init 2 1) := .init 2 1
  have r1 := r0.step (.create 0 0 rfl rfl (by rintro ⟨d, e, c, h, _⟩; simp [init] at h))
  have r2 := r1.step (.copyBegin 0 1 0 0 rfl rfl rfl (by rintro ⟨d, e, c, h, _⟩; simp [init] at h))
  have r3 := r2.step (.copyEnd 0 1 0 0 rfl)
  have r4 := r3.step (.reset 0 0 0 rfl rfl (by rintro ⟨d, e, c, h, _⟩; simp [init] at h))
  have r5 := r4.step (.dec 0 0 rfl (by simp [init]))
  have r6 := r5.step (.load 0 0 rfl)
  have r7 := r6.step (.reset 0 1 0 rfl rfl (by rintro ⟨d, e, c, h, _⟩; simp [init, upd] at h))
  have r8 := r7.step (.dec 0 0 rfl (by simp [init, upd]))
  have r9 := r8.step (.load 0 0 rfl)
  have r10 := r9.step (.del 0 0 rfl)
  exact ⟨_, r10, rfl, rfl, by simp [init, upd]⟩

/-- **C50** is false: two threads that drop the last two references can both decrement before either tests, both see
zero, and both destroy the object, the second after it has been freed. -/
theorem shared_double_violated : ∃ s, Reach False s ∧ s.made = 1 ∧ s.freed 0 = 2 ∧ s.bad = true := by
  have r0 : Reach False (init 2 2) := .init 2 2
  have r1 := r0.step (.create 0 0 rfl rfl (by rintro ⟨d, e, c, h, _⟩; simp [init] at h))
  have r2 := r1.step (.copyBegin 0 1 0 0 rfl rfl rfl (by rintro ⟨d, e, c, h, _⟩; simp [init] at h))
  have r3 := r2.step (.copyEnd 0 1 0 0 rfl)
  have r4 := r3.step (.reset 0 0 0 rfl rfl (by rintro ⟨d, e, c, h, _⟩; simp [init] at h))
  have r5 := r4.step (.reset 1 1 0 rfl rfl (by rintro ⟨d, e, c, h, _⟩; simp [init] at h))
  have r6 := r5.step (.dec 0 0 rfl (by simp))
  have r7 := r6.step (.dec 1 0 rfl (by simp))
  have r8 := r7.step (.load 0 0 rfl)
  have r9 := r8.step (.load 1 0 rfl)
  have r10 := r9.step (.del 0 0 rfl)
  have r11 := r10.step (.del 1 0 rfl)
  exact ⟨_, r11, rfl, rfl, rfl⟩

/-- The hypotheses of `shared_no_leak` are met by a history with a copy and two drops. -/
example : ∃ s c, Reach False s ∧ (∀ p ∈ s.thr, p = .idle) ∧ c < s.made ∧ 0 < s.freed c := by
  obtain ⟨s, h, h1, h2, h3⟩ := serial_example False
  exact ⟨s, 0, h, h3, by omega, by omega⟩

end Ustl.Shared
