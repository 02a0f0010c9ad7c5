import Verif.Link.Spec
import Verif.Memblock.Props
/-! # Links: theorems for C65 -/
namespace Ustl.Link
open Memblock (RotateOK)

variable {α : Type _}

theorem setB_same (m : Mem α) (b : Nat) (l : List α) : setB m b l b = l := by simp [setB]

theorem setB_other (m : Mem α) {b k : Nat} (l : List α) (h : k ≠ b) : setB m b l k = m k := by simp [setB, h]

theorem setB_setB (m : Mem α) (b : Nat) (l l' : List α) : setB (setB m b l) b l' = setB m b l' := by
  funext k; by_cases h : k = b <;> simp [setB, h]

theorem setB_self (m : Mem α) (b : Nat) : setB m b (m b) = m := by
  funext k; by_cases h : k = b <;> simp [setB, h]

/-! ## Copying and filling -/

theorem set_split (l : List α) (d : Nat) (x : α) (h : d < l.length) : l.set d x = l.take d ++ x :: l.drop (d + 1) := by
  rw [List.set_eq_take_append_cons_drop, if_pos h]

theorem splice_step (l : List α) (d : Nat) (x : α) (r : List α) (h : d + (r.length + 1) ≤ l.length) :
    (l.set d x).take (d + 1) ++ r ++ (l.set d x).drop (d + 1 + r.length) = l.take d ++ (x :: r) ++ l.drop (d + (r.length + 1)) := by
  have h1 : (l.set d x).take (d + 1) = l.take d ++ [x] := by
    rw [set_split l d x (by omega), List.take_append, List.length_take, Nat.min_eq_left (by omega),
      show d + 1 - d = 1 by omega, List.take_of_length_le (by simp; omega)]
    simp
  have h2 : (l.set d x).drop (d + 1 + r.length) = l.drop (d + (r.length + 1)) := by
    rw [List.drop_set_of_lt (by omega)]
    congr 1; omega
  rw [h1, h2]; simp

/-- Copying a pattern to a place apart from it. -/
theorem copyN_spec (pat : List α) : ∀ (m : Mem α) (sb s db d : Nat), ((m sb).drop s).take pat.length = pat →
    s + pat.length ≤ (m sb).length → d + pat.length ≤ (m db).length → Apart sb s pat.length db d pat.length →
    copyN m sb s db d pat.length = some (setB m db ((m db).take d ++ pat ++ (m db).drop (d + pat.length))) := by
  induction pat with
  | nil =>
    intro m sb s db d _ _ _ _
    simp [copyN, setB_self]
  | cons x r ih =>
    intro m sb s db d hp hs hd ha
    simp only [List.length_cons] at hs hd ha
    have hx : (m sb)[s]? = some x := by
      have := congrArg (fun l => l[0]?) hp
      simpa [List.getElem?_take, List.getElem?_drop] using this
    have hr : ((m sb).drop (s + 1)).take r.length = r := by
      have := congrArg (List.drop 1) hp
      rw [List.drop_take, List.drop_drop] at this
      simpa using this
    simp only [List.length_cons, copyN, copy1]
    rw [hx]
    simp only
    rw [if_pos (by omega)]
    simp only
    have hsl : (setB m db ((m db).set d x) sb).length = (m sb).length := by
      by_cases e : sb = db
      · rw [e, setB_same, List.length_set]
      · rw [setB_other _ _ e]
    have hdl : (setB m db ((m db).set d x) db).length = (m db).length := by rw [setB_same, List.length_set]
    have key := ih (setB m db ((m db).set d x)) sb (s + 1) db (d + 1) (by
      by_cases e : sb = db
      · subst e
        rw [setB_same]
        rcases ha with ha | ha | ha
        · exact absurd rfl ha
        · rw [List.drop_set, if_neg (by omega), List.take_set_of_le (by omega)]
          exact hr
        · rw [List.drop_set_of_lt (by omega)]
          exact hr
      · rw [setB_other _ _ e]; exact hr) (by rw [hsl]; omega) (by rw [hdl]; omega) (by
      rcases ha with ha | ha | ha
      · exact Or.inl ha
      · exact Or.inr (Or.inl (by omega))
      · exact Or.inr (Or.inr (by omega)))
    rw [key, setB_same, setB_setB, splice_step _ _ _ _ (by omega)]

theorem times_succ (pat : List α) (c : Nat) : times pat (c + 1) = pat ++ times pat c := by
  simp [times, List.replicate_succ]

theorem times_one (x : α) (c : Nat) : times [x] c = List.replicate c x := by
  induction c with
  | zero => rfl
  | succ c ih => rw [times_succ, ih, List.replicate_succ]; rfl

theorem times_length (pat : List α) (c : Nat) : (times pat c).length = pat.length * c := by
  induction c with
  | zero => simp [times]
  | succ c ih => rw [times_succ, List.length_append, ih, Nat.mul_succ, Nat.add_comm]

/-- Splicing twice, one piece after the other. -/
theorem splice_splice (l p q : List α) (d : Nat) (h : d + (p.length + q.length) ≤ l.length) :
    (l.take d ++ p ++ l.drop (d + p.length)).take (d + p.length) ++ q ++
      (l.take d ++ p ++ l.drop (d + p.length)).drop (d + p.length + q.length) =
    l.take d ++ (p ++ q) ++ l.drop (d + (p.length + q.length)) := by
  have hl : (l.take d ++ p).length = d + p.length := by simp; omega
  rw [← hl, List.take_left, ← List.drop_drop, List.drop_left, hl, List.drop_drop]
  simp [Nat.add_assoc]

theorem fillLoop_spec (pat : List α) : ∀ (c : Nat) (m : Mem α) (sb s db d : Nat), ((m sb).drop s).take pat.length = pat →
    s + pat.length ≤ (m sb).length → d + pat.length * c ≤ (m db).length → Apart sb s pat.length db d (pat.length * c) →
    fillLoop m sb s db d pat.length c = some (setB m db ((m db).take d ++ times pat c ++ (m db).drop (d + pat.length * c))) := by
  intro c
  induction c with
  | zero => intro m sb s db d _ _ _ _; simp [fillLoop, times, setB_self]
  | succ c ih =>
    intro m sb s db d hp hs hd ha
    rw [Nat.mul_succ] at hd ha
    have h1 := copyN_spec pat m sb s db d hp hs (by omega) (by
      rcases ha with ha | ha | ha
      · exact Or.inl ha
      · exact Or.inr (Or.inl ha)
      · exact Or.inr (Or.inr (by omega)))
    rw [fillLoop, h1]
    simp only
    generalize hm : setB m db ((m db).take d ++ pat ++ (m db).drop (d + pat.length)) = m1
    have hdb : m1 db = (m db).take d ++ pat ++ (m db).drop (d + pat.length) := by rw [← hm, setB_same]
    have hdl : (m1 db).length = (m db).length := by rw [hdb]; simp; omega
    have hsrc : ((m1 sb).drop s).take pat.length = pat ∧ (m1 sb).length = (m sb).length := by
      by_cases e : sb = db
      · subst e
        refine ⟨?_, hdl⟩
        rw [hdb]
        rcases ha with ha | ha | ha
        · exact absurd rfl ha
        · rw [List.append_assoc, List.drop_append_of_le_length (by simp; omega), List.take_append_of_le_length (by simp; omega),
            List.drop_take, List.take_take, Nat.min_eq_left (by omega)]
          exact hp
        · have hl : ((m sb).take d ++ pat).length = d + pat.length := by simp; omega
          rw [show s = (d + pat.length) + (s - (d + pat.length)) by omega, ← List.drop_drop, ← hl, List.drop_left, hl, List.drop_drop,
            show d + pat.length + (s - (d + pat.length)) = s by omega]
          exact hp
      · rw [← hm, setB_other _ _ e]; exact ⟨hp, rfl⟩
    rw [ih m1 sb s db (d + pat.length) hsrc.1 (by rw [hsrc.2]; exact hs) (by rw [hdl]; omega) (by
      rcases ha with ha | ha | ha
      · exact Or.inl ha
      · exact Or.inr (Or.inl (by omega))
      · exact Or.inr (Or.inr (by omega)))]
    rw [hdb, ← hm, setB_setB, times_succ]
    have := splice_splice (m db) pat (times pat c) d (by rw [times_length]; omega)
    rw [times_length] at this
    rw [this, Nat.mul_succ, Nat.add_comm (pat.length * c) pat.length]

theorem fillN_spec (x : α) : ∀ (c : Nat) (m : Mem α) (db d : Nat), d + c ≤ (m db).length →
    fillN m x db d c = some (setB m db ((m db).take d ++ List.replicate c x ++ (m db).drop (d + c))) := by
  intro c
  induction c with
  | zero => intro m db d _; simp [fillN, setB_self]
  | succ c ih =>
    intro m db d hd
    rw [fillN, if_pos (by omega), ih _ _ _ (by rw [setB_same, List.length_set]; omega), setB_same, setB_setB]
    have := splice_step (m db) d x (List.replicate c x) (by simp; omega)
    simp only [List.length_replicate] at this
    rw [this, List.replicate_succ]

/-! ## One link's bytes replaced -/

/-- Replacing the bytes of a link and nothing else. -/
theorem replaced {w : World α} {i b o : Nat} (hp : (w.obj i).ptr = some (b, o)) (hf : o + (w.obj i).size ≤ (w.mem b).length)
    {v : List α} (hv : v.length = (w.obj i).size) {l : List α} (hl : l = (w.mem b).take o ++ v ++ (w.mem b).drop (o + v.length)) :
    Within w { w with mem := setB w.mem b l } i ∧ view { w with mem := setB w.mem b l } i = v ∧ l.length = (w.mem b).length := by
  have hll : l.length = (w.mem b).length := by rw [hl]; simp; omega
  refine ⟨⟨fun k => ?_, fun k j hc => ?_⟩, ?_, hll⟩
  · by_cases e : k = b
    · subst e; rw [show ({ w with mem := setB w.mem k l } : World α).mem k = l from setB_same _ _ _, hll]
    · rw [show ({ w with mem := setB w.mem b l } : World α).mem k = w.mem k from setB_other _ _ e]
  · by_cases e : k = b
    · subst e
      rw [show ({ w with mem := setB w.mem k l } : World α).mem k = l from setB_same _ _ _, hl]
      have hc' : j < o ∨ o + v.length ≤ j := by
        refine Classical.byContradiction fun hn => hc ⟨o, hp, ?_, ?_⟩ <;> omega
      rcases hc' with hc' | hc'
      · rw [List.append_assoc, List.getElem?_append_left (by simp; omega), List.getElem?_take, if_pos hc']
      · rw [List.getElem?_append_right (by simp; omega), List.getElem?_drop]
        congr 1
        simp; omega
    · rw [show ({ w with mem := setB w.mem b l } : World α).mem k = w.mem k from setB_other _ _ e]
  · unfold view
    show (match (w.obj i).ptr with | none => [] | some (b', o) => ((setB w.mem b l b').drop o).take (w.obj i).size) = v
    rw [hp]
    simp only
    rw [setB_same, hl]
    have h1 : ((w.mem b).take o).length = o := by simp; omega
    rw [List.append_assoc, List.drop_append_of_le_length (by omega), List.drop_of_length_le (by omega)]
    rw [List.nil_append, List.take_append_of_le_length (by omega), List.take_of_length_le (by omega)]

theorem fine_mem {w : World α} (hf : Fine w) {m : Mem α} (h : ∀ b, (m b).length = (w.mem b).length) : Fine { w with mem := m } := by
  intro i
  have := hf i
  show match (w.obj i).ptr with | none => (w.obj i).size = 0 | some (b, o) => o + (w.obj i).size ≤ (m b).length
  cases hp : (w.obj i).ptr with
  | none => rw [hp] at this; exact this
  | some p =>
    obtain ⟨b, o⟩ := p
    rw [hp] at this
    simp only at this ⊢
    rw [h]; exact this

theorem view_some {w : World α} {i b o : Nat} (hp : (w.obj i).ptr = some (b, o)) :
    view w i = ((w.mem b).drop o).take (w.obj i).size := by
  unfold view; rw [hp]

theorem view_length {w : World α} (hf : Fine w) (i : Nat) : (view w i).length = (w.obj i).size := by
  have := hf i
  unfold view
  cases hp : (w.obj i).ptr with
  | none => rw [hp] at this; simp only at this ⊢; simp [this]
  | some p =>
    obtain ⟨b, o⟩ := p
    rw [hp] at this
    simp only at this ⊢
    simp; omega

/-- The block around a link. -/
theorem around {w : World α} {i b o : Nat} (hp : (w.obj i).ptr = some (b, o)) :
    w.mem b = (w.mem b).take o ++ view w i ++ (w.mem b).drop (o + (w.obj i).size) := by
  rw [view_some hp, List.append_assoc, ← List.drop_drop, List.take_append_drop, List.take_append_drop]

theorem fine_some {w : World α} (hf : Fine w) {i b o : Nat} (hp : (w.obj i).ptr = some (b, o)) :
    o + (w.obj i).size ≤ (w.mem b).length := by
  have := hf i
  rw [hp] at this
  exact this

/-- A rotation inside a link. -/
theorem rotateIn_spec {rot : List α → Nat → Nat → Nat → Option (List α)} (hr : RotateOK rot) {w : World α} (hf : Fine w) {i f k : Nat}
    (hfk : f ≤ k) (hk : k ≤ (w.obj i).size) :
    ∃ w', rotateIn rot w i f k = some w' ∧ w'.obj = w.obj ∧ Within w w' i ∧ Fine w' ∧
      view w' i = (view w i).take f ++ (view w i).drop k ++ ((view w i).take k).drop f := by
  unfold rotateIn
  have hvl := view_length hf i
  split
  · rename_i h
    refine ⟨w, rfl, rfl, ⟨fun _ => rfl, fun _ _ _ => rfl⟩, hf, ?_⟩
    rcases h with rfl | h
    · simp
    · subst h
      rw [← hvl, List.take_length, List.drop_length, List.append_nil, List.take_append_drop]
  · rename_i h
    cases hp : (w.obj i).ptr with
    | none =>
      have := hf i
      rw [hp] at this
      simp only at this
      omega
    | some p =>
      obtain ⟨b, o⟩ := p
      have hb := fine_some hf hp
      have ha := around hp
      simp only
      have e1 : view w i = (view w i).take f ++ ((view w i).take k).drop f ++ (view w i).drop k := by
        have h1 : (view w i).take f ++ ((view w i).take k).drop f = (view w i).take k := by
          have := List.take_append_drop f ((view w i).take k)
          rw [List.take_take, Nat.min_eq_left hfk] at this
          exact this
        rw [h1, List.take_append_drop]
      have e := hr ((w.mem b).take o ++ (view w i).take f) (((view w i).take k).drop f) ((view w i).drop k)
        ((w.mem b).drop (o + (w.obj i).size))
      have e2 : (w.mem b).take o ++ (view w i).take f ++ ((view w i).take k).drop f ++ (view w i).drop k ++
          (w.mem b).drop (o + (w.obj i).size) = w.mem b := by
        rw [List.append_assoc ((w.mem b).take o), List.append_assoc ((w.mem b).take o), ← e1]
        exact ha.symm
      rw [e2] at e
      have l1 : ((w.mem b).take o ++ (view w i).take f).length = o + f := by simp; omega
      have l2 : (((view w i).take k).drop f).length = k - f := by simp; omega
      have l3 : ((view w i).drop k).length = (w.obj i).size - k := by simp; omega
      rw [l1, l2, l3, show o + f + (k - f) = o + k by omega, show o + k + ((w.obj i).size - k) = o + (w.obj i).size by omega] at e
      rw [e]
      have hv : ((view w i).take f ++ (view w i).drop k ++ ((view w i).take k).drop f).length = (w.obj i).size := by
        simp; omega
      obtain ⟨q1, q2, q3⟩ := replaced (w := w) (i := i) hp hb hv rfl
      rw [hv] at q1 q2 q3
      have eq : (w.mem b).take o ++ (view w i).take f ++ (view w i).drop k ++ ((view w i).take k).drop f ++ (w.mem b).drop (o + (w.obj i).size) =
          (w.mem b).take o ++ ((view w i).take f ++ (view w i).drop k ++ ((view w i).take k).drop f) ++ (w.mem b).drop (o + (w.obj i).size) := by
        simp
      rw [eq]
      refine ⟨_, rfl, rfl, q1, fine_mem hf q1.1, q2⟩

theorem setObj_fine {w : World α} (hf : Fine w) {i : Nat} {o : Lnk}
    (h : match o.ptr with | none => o.size = 0 | some (b, k) => k + o.size ≤ (w.mem b).length) : Fine (w.setObj i o) := by
  intro j
  unfold World.setObj
  by_cases e : j = i
  · simp only [e, if_true]; exact h
  · simp only [e, if_false]; exact hf j

/-- Replacing part of what a link shows. -/
theorem part {w : World α} (hf : Fine w) {i b o : Nat} (hp : (w.obj i).ptr = some (b, o)) {start : Nat} {p : List α}
    (h : start + p.length ≤ (w.obj i).size) {l : List α}
    (hl : l = (w.mem b).take (o + start) ++ p ++ (w.mem b).drop (o + start + p.length)) :
    Within w { w with mem := setB w.mem b l } i ∧ Fine { w with mem := setB w.mem b l } ∧
    view { w with mem := setB w.mem b l } i = (view w i).take start ++ p ++ (view w i).drop (start + p.length) := by
  have hvl := view_length hf i
  have hb := fine_some hf hp
  have hv : ((view w i).take start ++ p ++ (view w i).drop (start + p.length)).length = (w.obj i).size := by simp; omega
  obtain ⟨q1, q2, q3⟩ := replaced (w := w) (i := i) hp hb hv (l := l) (by
    rw [hv, hl]
    have h1 : (w.mem b).take (o + start) = (w.mem b).take o ++ (view w i).take start := by
      rw [List.take_add, view_some hp, List.take_take, Nat.min_eq_left (by omega)]
    have h2 : (w.mem b).drop (o + start + p.length) = (view w i).drop (start + p.length) ++ (w.mem b).drop (o + (w.obj i).size) := by
      have : (w.mem b).drop o = view w i ++ (w.mem b).drop (o + (w.obj i).size) := by
        rw [view_some hp, ← List.drop_drop, List.take_append_drop]
      rw [show o + start + p.length = o + (start + p.length) by omega, ← List.drop_drop, this,
        List.drop_append_of_le_length (by omega)]
    rw [h1, h2]; simp)
  exact ⟨q1, fine_mem hf q1.1, q2⟩

/-- **C65** every operation, used as documented, stays inside the linked memory, leaves every link inside its block, and does
exactly what `Eff` says: links move and share, `fill`, `insert`, `erase` and stores change the bytes of the one link they are
called on and nothing else, `link (nullptr, n)` throws and changes nothing. -/
theorem link_step {rot : List α → Nat → Nat → Nat → Option (List α)} (hr : RotateOK rot) {w : World α} (hf : Fine w)
    (op : Op α) (hp : Pre w op) : ∃ ok w', step rot w op = some (ok, w') ∧ Fine w' ∧ Eff w ok w' op := by
  cases op with
  | link i p n =>
    simp only [step, link, Eff]
    split
    · exact ⟨_, _, rfl, hf, rfl, rfl⟩
    · rename_i h
      refine ⟨_, _, rfl, setObj_fine hf ?_, rfl, rfl, by simp [World.setObj], fun j hj => by simp [World.setObj, hj]⟩
      cases p with
      | none => simp at h; exact h
      | some q => exact hp q.1 q.2 rfl
  | unlink i =>
    refine ⟨true, _, rfl, setObj_fine hf rfl, rfl, rfl, ?_, by simp [World.setObj, Lnk.empty], fun j hj => by simp [World.setObj, hj]⟩
    unfold view
    simp [World.setObj, Lnk.empty]
  | assign i j =>
    simp only [step, assign, link, Eff]
    have hj := hf j
    split
    · rename_i h
      rw [h.1] at hj
      exact absurd hj h.2
    · exact ⟨_, _, rfl, setObj_fine hf hj, rfl, rfl, by simp [World.setObj], fun k hk => by simp [World.setObj, hk]⟩
  | swap i j =>
    have hi : (swap w i j).obj i = w.obj j := by
      by_cases e : i = j
      · subst e; simp [swap, World.setObj]
      · have e' : j ≠ i := fun h => e h.symm
        simp [swap, World.setObj, e, e']
    have hj : (swap w i j).obj j = w.obj i := by
      by_cases e : i = j
      · subst e; simp [swap, World.setObj]
      · have e' : j ≠ i := fun h => e h.symm
        simp [swap, World.setObj, e, e']
    have hk : ∀ k, k ≠ i → k ≠ j → (swap w i j).obj k = w.obj k := by
      intro k h1 h2
      simp [swap, World.setObj, h1, h2]
    refine ⟨true, _, rfl, fun k => ?_, rfl, rfl, hi, hj, hk⟩
    have hm : (swap w i j).mem = w.mem := rfl
    rw [hm]
    by_cases e1 : k = i
    · rw [e1, hi]; exact hf j
    · by_cases e2 : k = j
      · rw [e2, hj]; exact hf i
      · rw [hk k e1 e2]; exact hf k
  | resize i n =>
    have hn : n ≤ (w.obj i).size := hp
    refine ⟨true, _, rfl, setObj_fine hf ?_, rfl, rfl, ?_, fun j hj => by simp [World.setObj, resize, hj]⟩
    · have := hf i
      cases h : (w.obj i).ptr with
      | none => rw [h] at this; simp only at this ⊢; omega
      | some p => obtain ⟨b, o⟩ := p; rw [h] at this; simp only at this ⊢; omega
    · unfold view
      cases h : (w.obj i).ptr with
      | none => simp [resize, World.setObj, h]
      | some p =>
        obtain ⟨b, o⟩ := p
        simp only [resize, World.setObj, h, if_true]
        rw [List.take_take, Nat.min_eq_left hn]
  | fill i start sb s z c =>
    obtain ⟨h1, h2, h3⟩ := hp
    simp only [step, fill, Eff]
    cases hq : (w.obj i).ptr with
    | none =>
      have := hf i
      rw [hq] at this
      simp only at this ⊢
      have hz : z * c = 0 := by omega
      have hs : start = 0 := by omega
      rw [if_pos hz]
      refine ⟨true, w, rfl, hf, rfl, rfl, ⟨fun _ => rfl, fun _ _ _ => rfl⟩, ?_⟩
      have hv : view w i = [] := by unfold view; rw [hq]
      have ht : times (((w.mem sb).drop s).take z) c = [] := by
        apply List.eq_nil_of_length_eq_zero
        rw [times_length, List.length_take, List.length_drop, Nat.min_eq_left (by omega), hz]
      rw [hv, ht]; simp
    | some q =>
      obtain ⟨b, o⟩ := q
      have hb := fine_some hf hq
      have ha := h3 b o hq
      have hpl : (((w.mem sb).drop s).take z).length = z := by simp; omega
      generalize hpat : ((w.mem sb).drop s).take z = pat at hpl ⊢
      have hlen : (times pat c).length = z * c := by rw [times_length, hpl]
      obtain ⟨q1, q2, q3⟩ := part hf hq (start := start) (p := times pat c) (by rw [hlen]; exact h1) rfl
      rw [hlen] at q1 q2 q3
      simp only
      split
      · rename_i hz
        subst hz
        obtain ⟨x, rfl⟩ : ∃ x, pat = [x] := List.length_eq_one_iff.1 hpl
        have hx : (w.mem sb)[s]? = some x := by
          have := congrArg (fun l => l[0]?) hpat
          simpa [List.getElem?_take, List.getElem?_drop] using this
        rw [hx]
        simp only
        rw [fillN_spec x c w.mem b (o + start) (by omega)]
        have ht : times [x] c = List.replicate c x := by
          exact times_one x c
        rw [ht] at q1 q2 q3
        rw [Nat.one_mul] at q1 q2 q3
        refine ⟨true, _, rfl, q2, rfl, rfl, q1, ?_⟩
        rw [ht, Nat.one_mul]; exact q3
      · have := fillLoop_spec pat c w.mem sb s b (o + start) (by rw [hpl]; exact hpat) (by omega) (by rw [hpl]; omega) (by rw [hpl]; exact ha)
        rw [hpl] at this
        rw [this]
        exact ⟨true, _, rfl, q2, rfl, rfl, q1, q3⟩
  | insert i start n =>
    have h : start + n ≤ (w.obj i).size := hp
    obtain ⟨w', e, h1, h2, h3, h4⟩ := rotateIn_spec hr hf (i := i) (f := start) (k := (w.obj i).size - n) (by omega) (by omega)
    refine ⟨true, w', by simp [step, insert, e], h3, rfl, h1, h2, (view w i).drop ((w.obj i).size - n), ?_, h4⟩
    have := view_length hf i
    simp; omega
  | erase i start n =>
    have h : start + n ≤ (w.obj i).size := hp
    obtain ⟨w', e, h1, h2, h3, h4⟩ := rotateIn_spec hr hf (i := i) (f := start) (k := start + n) (by omega) (by omega)
    refine ⟨true, w', by simp [step, erase, e], h3, rfl, h1, h2, ((view w i).take (start + n)).drop start, ?_, h4⟩
    have := view_length hf i
    simp; omega
  | poke i k x =>
    have h : k < (w.obj i).size := hp
    simp only [step, poke, Eff]
    cases hq : (w.obj i).ptr with
    | none =>
      have := hf i
      rw [hq] at this
      simp only at this
      omega
    | some q =>
      obtain ⟨b, o⟩ := q
      have hb := fine_some hf hq
      simp only
      rw [if_pos (by omega)]
      obtain ⟨q1, q2, q3⟩ := part hf hq (start := k) (p := [x]) (by simp; omega) (l := (w.mem b).set (o + k) x) (by
        rw [set_split _ _ _ (by omega)]; simp)
      refine ⟨true, _, rfl, q2, rfl, rfl, q1, ?_⟩
      rw [q3, set_split _ _ _ (by rw [view_length hf]; exact h)]
      simp

/-- A history that is documented use all along. -/
def Documented (rot : List α → Nat → Nat → Nat → Option (List α)) (w : World α) : List (Op α) → Prop
  | [] => True
  | op :: ops => Pre w op ∧ ∀ ok w', step rot w op = some (ok, w') → Documented rot w' ops

/-- **C65** `link (first, last)` shows the bytes from `first` up to, not including, `last`. -/
theorem link_range (w : World α) (i b first last : Nat) :
    (linkRange w i b first last).1 = true ∧
    view (linkRange w i b first last).2 i = ((w.mem b).take last).drop first := by
  unfold linkRange link view World.setObj
  simp [List.drop_take]

example : view (linkRange (⟨fun _ => [1, 2, 3, 4, 5], fun _ => .empty⟩ : World Nat) 0 7 1 4).2 0 = [2, 3, 4] := by decide

/-- **C65** for every history of documented use, of any number of links to any memory, shared in any way: no access leaves a
block, every link stays inside its block, no block is freed, allocated or resized, and bytes that no link covered at any time
never change. -/
theorem link_history {rot : List α → Nat → Nat → Nat → Option (List α)} (hr : RotateOK rot) (ops : List (Op α)) :
    ∀ {w : World α}, Fine w → Documented rot w ops → ∃ w', run rot w ops = some w' ∧ Fine w' ∧
      (∀ b, (w'.mem b).length = (w.mem b).length) ∧
      ∀ b k, (∀ pre suf w1 i, ops = pre ++ suf → run rot w pre = some w1 → ¬ Covers w1 i b k) →
        (w'.mem b)[k]? = (w.mem b)[k]? := by
  induction ops with
  | nil => intro w hf _; exact ⟨w, rfl, hf, fun _ => rfl, fun _ _ _ => rfl⟩
  | cons op ops ih =>
    intro w hf hd
    obtain ⟨ok, w1, e, hf1, he⟩ := link_step hr hf op hd.1
    obtain ⟨w', e', hf', hl, hc⟩ := ih hf1 (hd.2 ok w1 e)
    have hm : w1.mem = w.mem ∨ ∃ i, Within w w1 i := by
      cases op with
      | link i p n =>
        left
        simp only [Eff] at he
        split at he
        · rw [he.2]
        · exact he.2.1
      | unlink i => exact Or.inl he.2.1
      | assign i j => exact Or.inl he.2.1
      | swap i j => exact Or.inl he.2.1
      | resize i n => exact Or.inl he.2.1
      | fill i start sb s z c => exact Or.inr ⟨i, he.2.2.1⟩
      | insert i start n => exact Or.inr ⟨i, he.2.2.1⟩
      | erase i start n => exact Or.inr ⟨i, he.2.2.1⟩
      | poke i k x => exact Or.inr ⟨i, he.2.2.1⟩
    refine ⟨w', by rw [run, e]; exact e', hf', fun b => ?_, fun b k h => ?_⟩
    · rw [hl b]
      rcases hm with hm | ⟨i, hm⟩
      · rw [hm]
      · exact hm.1 b
    · rw [hc b k (fun pre suf w2 i hs hrun => h (op :: pre) suf w2 i (by rw [hs]; rfl) (by rw [run, e]; exact hrun))]
      rcases hm with hm | ⟨i, hm⟩
      · rw [hm]
      · exact hm.2 b k (h [] (op :: ops) w i rfl rfl)

/-- Two blocks, no links. -/
def ex0 : World Nat := ⟨fun b => if b = 0 then [1, 2, 3, 4, 5, 6] else [7, 8], fun _ => .empty⟩

/-- The generic `rotate`. -/
def grot (l : List Nat) (f m t : Nat) : Option (List Nat) := (Permute.rotate l f m t).map (·.1)

example : Fine ex0 := fun _ => rfl

example : Documented grot ex0 [.link 0 (some (0, 1)) 4, .assign 1 0, .fill 1 0 1 0 2 2, .erase 0 1 2] := by
  refine ⟨?_, fun ok w' e => ?_⟩
  · intro b o h
    cases h
    decide
  · injection e with e
    injection e with _ e
    subst e
    refine ⟨trivial, fun ok w' e => ?_⟩
    injection e with e
    injection e with _ e
    subst e
    refine ⟨⟨by decide, by decide, fun b o h => ?_⟩, fun ok w' e => ?_⟩
    · cases h
      exact Or.inl (by decide)
    · obtain ⟨w1, e1, e2⟩ : ∃ w1 : World Nat, w1.obj 0 = ⟨some (0, 1), 4⟩ ∧ w' = w1 := by
        refine ⟨w', ?_, rfl⟩
        injection e with e
        injection e with _ e
        subst e
        rfl
      subst e2
      exact ⟨by show 1 + 2 ≤ (w'.obj 0).size; rw [e1]; decide, fun _ _ _ => trivial⟩

example : (run grot ex0 [.link 0 (some (0, 1)) 4, .assign 1 0, .fill 1 0 1 0 2 2, .erase 0 1 2]).map (fun w => (w.mem 0, view w 1)) =
    some ([1, 7, 8, 8, 7, 6], [7, 8, 8, 7]) := by decide +kernel

/-! ## Comparing -/

theorem load_view {w : World α} (hf : Fine w) (i : Nat) : load w.mem (w.obj i).ptr (w.obj i).size = some (view w i) := by
  have := hf i
  unfold load view
  cases hp : (w.obj i).ptr with
  | none => rw [hp] at this; simp only at this ⊢; rw [if_pos this]
  | some p => obtain ⟨b, o⟩ := p; rw [hp] at this; simp only at this ⊢; rw [if_pos this]

/-- **C65** `==` compares the bytes shown: it holds exactly if both links show the same bytes, wherever they are, and never
reads outside them. -/
theorem link_eq [DecidableEq α] {w : World α} (hf : Fine w) (i j : Nat) : eq w i j = some (decide (view w i = view w j)) := by
  unfold eq
  have h1 := view_length hf i
  have h2 := view_length hf j
  simp only
  split
  · rename_i hs
    split
    · rename_i hp
      have : view w i = view w j := by
        unfold view
        rw [hp, hs]
      simp [this]
    · have e1 := load_view hf i
      have e2 := load_view hf j
      rw [hs] at e2
      rw [e1, e2]
      simp only
      congr 1
      apply decide_eq_decide.2
      exact eq_comm
  · rename_i hs
    have : view w i ≠ view w j := fun h => hs (by rw [← h1, ← h2, h])
    simp [this]

example : eq (ex0.setObj 0 ⟨some (0, 1), 2⟩) 0 1 = some false := by decide

/-! ## Misuse -/

/-- **C65** a pattern taken from inside the range that is filled is overwritten before it is used up: `fill (begin() + 4,
begin() + 5, 2, 2)` on the bytes 0 1 2 3 4 5 6 7 gives 5 6 6 6, not 5 6 5 6. -/
theorem fill_alias_violated :
    (fill ⟨fun _ => [0, 1, 2, 3, 4, 5, 6, 7], fun _ => ⟨some (0, 0), 8⟩⟩ 0 4 0 5 2 2).map (fun w => view w 0) =
      some [0, 1, 2, 3, 5, 6, 6, 6] := by decide

/-- **C65** `resize` is not checked: a link may be made longer than its memory, and then `==` reads outside. -/
theorem resize_violated : ∃ w : World Nat, Fine w ∧ eq (resize w 0 3) 0 1 = none :=
  ⟨⟨fun b => if b = 0 then [1, 2] else [1, 2, 3], fun i => if i = 0 then ⟨some (0, 0), 2⟩ else ⟨some (1, 0), 3⟩⟩, by
    intro i
    by_cases h : i = 0 <;> simp [h], by decide⟩

end Ustl.Link
