import Verif.Stream.ReadLemmas
/-! # Binary streams: lemmas about sizes -/
namespace Ustl.Stream

theorem Grain.dvd {a b : Nat} (ha : Grain a) (hb : Grain b) (h : a ≤ b) : a ∣ b := by
  rcases ha with rfl | rfl | rfl | rfl <;> rcases hb with rfl | rfl | rfl | rfl <;> first | omega | decide

theorem Grain.max {a b : Nat} (ha : Grain a) (hb : Grain b) : Grain (max a b) := by
  rcases Nat.le_total a b with h | h
  · rw [Nat.max_eq_right h]; exact hb
  · rw [Nat.max_eq_left h]; exact ha

theorem Grain.min {a b : Nat} (ha : Grain a) (hb : Grain b) : Grain (min a b) := by
  rcases Nat.le_total a b with h | h
  · rw [Nat.min_eq_left h]; exact ha
  · rw [Nat.min_eq_right h]; exact hb

theorem grain4 : Grain 4 := by simp [Grain]
theorem grain8 : Grain 8 := by simp [Grain]
theorem grain1 : Grain 1 := by simp [Grain]

theorem need_grain : ∀ {t : Ty}, WfTy t → Grain (need t)
  | .int _, _ => grain1
  | .bool, _ => grain1
  | .raw _ _, _ => grain1
  | .str, _ => grain1
  | .blk, _ => grain4
  | .pair _ _, h => ((need_grain h.1).max (need_grain h.2)).max ((al_grain h.1).max (al_grain h.2))
  | .arr _ t, h => need_grain (t := t) h
  | .vec t, h => grain4.max ((need_grain (t := t) h).max (al_grain (t := t) h))

theorem mult_grain : ∀ {t : Ty}, WfTy t → Grain (mult t)
  | .int _, h => h
  | .bool, _ => grain1
  | .raw _ _, _ => grain1
  | .str, _ => grain1
  | .blk, _ => grain4
  | .pair _ _, h => ((mult_grain h.1).max (al_grain h.2)).min ((mult_grain h.2).max (al_grain h.1))
  | .arr _ t, h => mult_grain (t := t) h
  | .vec _, _ => grain4

theorem pad_shift {p n g : Nat} (h : g ∣ p) : pad (p + n) g = pad n g := by
  obtain ⟨k, rfl⟩ := h
  unfold pad
  rw [Nat.mul_add_mod]

theorem pad_dvd {n g : Nat} (hg : Grain g) : g ∣ n + pad n g := by
  apply Nat.dvd_of_mod_eq_zero
  unfold pad
  rcases hg with rfl | rfl | rfl | rfl <;> omega

theorem pad_zero {n g : Nat} (h : g ∣ n) : pad n g = 0 := by
  unfold pad; rw [Nat.mod_eq_zero_of_dvd h, Nat.sub_zero, Nat.mod_self]

/-- Padding to `g` something that is a multiple of `m` gives a multiple of the larger. -/
theorem max_dvd_pad {n m g : Nat} (hm : Grain m) (hg : Grain g) (h : m ∣ n) : max m g ∣ n + pad n g := by
  rcases Nat.le_total m g with h1 | h1
  · rw [Nat.max_eq_right h1]; exact pad_dvd hg
  · rw [Nat.max_eq_left h1, pad_zero (Nat.dvd_trans (hg.dvd hm h1) h)]; exact h

theorem pad_mono {a b g : Nat} (hg : Grain g) (h : a ≤ b) : a + pad a g ≤ b + pad b g := by
  unfold pad
  rcases hg with rfl | rfl | rfl | rfl <;> omega

/-- The sum of a list. -/
def sum (l : List Nat) : Nat := l.foldr (· + ·) 0

theorem foldl_sum : ∀ (l : List Nat) (a : Nat), l.foldl (· + ·) a = a + sum l
  | [], a => rfl
  | x :: xs, a => by rw [List.foldl_cons, foldl_sum xs]; simp [sum]; omega

theorem sum_cons (x : Nat) (xs : List Nat) : sum (x :: xs) = x + sum xs := rfl

theorem sum_const {k : Nat} : ∀ (l : List Nat), (∀ x ∈ l, x = k) → sum l = k * l.length
  | [], _ => rfl
  | x :: xs, h => by
    rw [sum_cons, h x (List.mem_cons_self ..), sum_const xs (fun y hy => h y (List.mem_cons_of_mem _ hy)),
      List.length_cons, Nat.mul_succ, Nat.add_comm]

theorem nrSize_sum {cp : Bool} {l : List Nat} (h : cp = true → ∀ x ∈ l, ∀ y ∈ l, x = y) : nrSize cp l = sum l := by
  cases l with
  | nil => rfl
  | cons x xs =>
    cases cp with
    | false => show List.foldl _ 0 _ = _; rw [foldl_sum]; omega
    | true =>
      show x * _ = _
      rw [sum_const (k := x)]
      intro y hy
      exact h rfl y hy x (List.mem_cons_self ..)

theorem constSize_eq {t : Ty} (h : constSize t = true) (v w : Val t) : ss t v = ss t w := by
  cases t <;> first | rfl | (simp [constSize] at h)

theorem nrSize_map (t : Ty) (l : List (Val t)) : nrSize (constSize t) (l.map (ss t)) = sum (l.map (ss t)) := by
  apply nrSize_sum
  intro hc x hx y hy
  obtain ⟨a, _, rfl⟩ := List.mem_map.1 hx
  obtain ⟨b, _, rfl⟩ := List.mem_map.1 hy
  exact constSize_eq hc a b

/-- What is proved of every value of a type without padding trouble. -/
structure Fine (t : Ty) (v : Val t) (p : Nat) : Prop where
  size : (enc t v p).length = ss t v
  dvd : mult t ∣ ss t v
  least : ss t (dflt t) ≤ ss t v
  check : ∀ r, chk t v p r

theorem sum_ge {k : Nat} : ∀ (l : List Nat), (∀ x ∈ l, k ≤ x) → l.length * k ≤ sum l
  | [], _ => by simp [sum]
  | x :: xs, h => by
    have := sum_ge xs (fun y hy => h y (List.mem_cons_of_mem _ hy))
    have := h x (List.mem_cons_self ..)
    rw [sum_cons, List.length_cons, Nat.succ_mul]; omega

/-- The elements of a container. -/
theorem fine_all {t : Ty} (hw : WfTy t) (hn : need t ≤ mult t) : ∀ (l : List (Val t)) (p : Nat), need t ∣ p →
    (encAll (enc t) l p).length + 8 ≤ W →
    (∀ x ∈ l, ∀ p, need t ∣ p → (enc t x p).length + 8 ≤ W → Fine t x p) →
    (encAll (enc t) l p).length = sum (l.map (ss t)) ∧ mult t ∣ sum (l.map (ss t)) ∧
      l.length * ss t (dflt t) ≤ sum (l.map (ss t)) ∧ ∀ r, chkAll (chk t) (enc t) l p r
  | [], p, _, _, _ => ⟨rfl, ⟨0, rfl⟩, by simp [sum], fun _ => trivial⟩
  | x :: xs, p, hp, hl, h => by
    rw [encAll_length_cons] at hl
    have f := h x (List.mem_cons_self ..) p hp (by omega)
    have hp' : need t ∣ p + (enc t x p).length := by
      rw [f.size]
      exact Nat.dvd_add hp (Nat.dvd_trans ((need_grain hw).dvd (mult_grain hw) hn) f.dvd)
    obtain ⟨a, b, c, d⟩ := fine_all hw hn xs _ hp' (by omega) (fun y hy => h y (List.mem_cons_of_mem _ hy))
    refine ⟨?_, ?_, ?_, fun r => ⟨f.check _, d r⟩⟩
    · rw [encAll_length_cons, a, f.size]; rfl
    · exact Nat.dvd_add f.dvd b
    · have := f.least
      rw [List.map_cons, sum_cons, List.length_cons, Nat.succ_mul]; omega

theorem utf8Bytes_pos (n : Nat) : 1 ≤ Utf8.utf8Bytes n := by
  unfold Utf8.utf8Bytes
  split
  · omega
  · unfold Utf8.bounds Utf8.boundLoop
    split
    · have : ∀ (l : List Nat) (k : Nat), k ≤ Utf8.boundLoop n l k := by
        intro l
        induction l with
        | nil => intro k; exact Nat.le_refl _
        | cons a l ih => intro k; unfold Utf8.boundLoop; split
                         · have := ih (k + 1); omega
                         · omega
      exact this _ _
    · omega

theorem ss_pair (a b : Ty) (v : Val (.pair a b)) :
    ss (.pair a b) v = ssPair (al a) (al b) (ss a v.1) (ss b v.2) := rfl
theorem ss_arr (n : Nat) (t : Ty) (v : Val (.arr n t)) :
    ss (.arr n t) v = nrSize (constSize t) (List.map (α := Val t) (ss t) v) := rfl
theorem ss_vec (t : Ty) (v : Val (.vec t)) :
    ss (.vec t) v = ssVec (al t) (nrSize (constSize t) (List.map (α := Val t) (ss t) v)) := rfl
theorem ss_str (v : Val .str) : ss .str v = Utf8.utf8Bytes (List.length (α := Byte) v) + List.length (α := Byte) v := rfl

theorem fine_pair {a b : Ty} {v : Val (.pair a b)} {p : Nat} (ht : WfTy (.pair a b)) (hg : Good (.pair a b))
    (hp : need (.pair a b) ∣ p) (hl : (enc (.pair a b) v p).length + 8 ≤ W)
    (ha : ∀ p, need a ∣ p → (enc a v.1 p).length + 8 ≤ W → Fine a v.1 p)
    (hb : ∀ p, need b ∣ p → (enc b v.2 p).length + 8 ≤ W → Fine b v.2 p) : Fine (.pair a b) v p := by
  have gna := need_grain ht.1
  have gnb := need_grain ht.2
  have ga := al_grain ht.1
  have gb := al_grain ht.2
  have gma := mult_grain ht.1
  have gmb := mult_grain ht.2
  have gN := need_grain ht
  obtain ⟨_, _, hg1, hg2⟩ := hg
  have elen : (enc (.pair a b) v p).length = (encPair (al a) (al b) (enc a) (enc b) v p).length := rfl
  have hna : need a ∣ p := Nat.dvd_trans (gna.dvd gN (by show _ ≤ max _ _; omega)) hp
  have hnb : need b ∣ p := Nat.dvd_trans (gnb.dvd gN (by show _ ≤ max _ _; omega)) hp
  have haa : al a ∣ p := Nat.dvd_trans (ga.dvd gN (by show _ ≤ max _ _; omega)) hp
  have hab : al b ∣ p := Nat.dvd_trans (gb.dvd gN (by show _ ≤ max _ _; omega)) hp
  rw [elen] at hl
  unfold encPair at hl
  simp only [List.length_append, List.length_replicate] at hl
  have fa := ha p hna (by omega)
  have e1 := fa.size
  rw [e1, pad_shift hab] at hl
  have hA : max (mult a) (al b) ∣ ss a v.1 + pad (ss a v.1) (al b) := max_dvd_pad gma gb fa.dvd
  have ep2 : p + ss a v.1 + pad (ss a v.1) (al b) = p + (ss a v.1 + pad (ss a v.1) (al b)) := by omega
  rw [ep2] at hl
  have gmax := gma.max gb
  have hnb2 : need b ∣ p + (ss a v.1 + pad (ss a v.1) (al b)) :=
    Nat.dvd_add hnb (Nat.dvd_trans (gnb.dvd gmax hg1) hA)
  have haa2 : al a ∣ p + (ss a v.1 + pad (ss a v.1) (al b)) :=
    Nat.dvd_add haa (Nat.dvd_trans (ga.dvd gmax hg2) hA)
  have fb := hb _ hnb2 (by omega)
  have e2 := fb.size
  rw [e2, pad_shift haa2] at hl
  have w1 : align (ss a v.1) (al b) = ss a v.1 + pad (ss a v.1) (al b) := align_eq gb (by omega)
  have w2 : align (ss b v.2) (al a) = ss b v.2 + pad (ss b v.2) (al a) := align_eq ga (by omega)
  have hS : ss (.pair a b) v = (ss a v.1 + pad (ss a v.1) (al b)) + (ss b v.2 + pad (ss b v.2) (al a)) := by
    rw [ss_pair]; unfold ssPair; rw [w1, w2]
  refine ⟨?_, ?_, ?_, ?_⟩
  · rw [elen]
    unfold encPair
    simp only [List.length_append, List.length_replicate]
    rw [e1, pad_shift hab, ep2, e2, pad_shift haa2, hS]; omega
  · rw [hS]
    have hB : max (mult b) (al a) ∣ ss b v.2 + pad (ss b v.2) (al a) := max_dvd_pad gmb ga fb.dvd
    have gm := mult_grain ht
    exact Nat.dvd_add (Nat.dvd_trans (gm.dvd gmax (Nat.min_le_left _ _)) hA)
      (Nat.dvd_trans (gm.dvd (gmb.max ga) (Nat.min_le_right _ _)) hB)
  · have l1 := fa.least
    have l2 := fb.least
    have d1 : align (ss a (dflt a)) (al b) = ss a (dflt a) + pad (ss a (dflt a)) (al b) := align_eq gb (by omega)
    have d2 : align (ss b (dflt b)) (al a) = ss b (dflt b) + pad (ss b (dflt b)) (al a) := align_eq ga (by omega)
    have hD : ss (.pair a b) (dflt (.pair a b)) = (ss a (dflt a) + pad (ss a (dflt a)) (al b)) +
        (ss b (dflt b) + pad (ss b (dflt b)) (al a)) := by
      show ssPair (al a) (al b) (ss a (dflt a)) (ss b (dflt b)) = _
      unfold ssPair; rw [d1, d2]
    rw [hD, hS]
    have := pad_mono gb l1
    have := pad_mono ga l2
    omega
  · intro r
    show chkPair _ _ _ _ _ _ _ _ _
    unfold chkPair
    simp only
    rw [e1, pad_shift hab, ep2]
    exact ⟨fa.check _, fb.check _⟩

theorem fine_vec {t : Ty} {v : Val (.vec t)} {p : Nat} (ht : WfTy t) (hg : Good (.vec t))
    (hp : need (.vec t) ∣ p) (hl : (enc (.vec t) v p).length + 8 ≤ W)
    (h : ∀ x, List.Mem (α := Val t) x v → ∀ p, need t ∣ p → (enc t x p).length + 8 ≤ W → Fine t x p) :
    Fine (.vec t) v p := by
  obtain ⟨_, hg1, hg2⟩ := hg
  have gn := need_grain ht
  have ga := al_grain ht
  have gN := need_grain (t := .vec t) ht
  have h4 : 4 ∣ p := Nat.dvd_trans (grain4.dvd gN (by show _ ≤ max _ _; omega)) hp
  have hn : need t ∣ p := Nat.dvd_trans (gn.dvd gN (by show _ ≤ max _ _; omega)) hp
  have ha : al t ∣ p := Nat.dvd_trans (ga.dvd gN (by show _ ≤ max _ _; omega)) hp
  have elen : (enc (.vec t) v p).length = (encVec (α := Val t) (al t) (enc t) v p).length := rfl
  rw [elen] at hl
  -- the number of bytes before the elements
  have hq : ∃ q, (if al t > 4 then pad (p + 4) (al t) else 0) = q ∧ (q = 0 ∨ q = 4) ∧
      (if al t > 4 then align 4 (al t) else 4) = 4 + q ∧ need t ∣ p + 4 + q := by
    by_cases hb : al t > 4
    · have e8 : al t = 8 := by rcases ga with h | h | h | h <;> omega
      simp only [if_pos hb]
      refine ⟨4, ?_, Or.inr rfl, ?_, ?_⟩
      · rw [pad_shift ha, e8]; rfl
      · rw [e8, align_eq grain8 (by decide)]; rfl
      · rw [if_pos hb] at hg2
        rw [Nat.add_assoc]; exact Nat.dvd_add hn (gn.dvd grain8 hg2)
    · simp only [if_neg hb]
      refine ⟨0, rfl, Or.inl rfl, rfl, ?_⟩
      rw [if_neg hb] at hg2
      rw [Nat.add_zero]; exact Nat.dvd_add hn (gn.dvd grain4 hg2)
  obtain ⟨q, hq1, hq2, hq3, hq4⟩ := hq
  unfold encVec at hl
  simp only [List.length_append, List.length_replicate, leBytes_length, hq1] at hl
  obtain ⟨A, B, C, D⟩ := fine_all (t := t) ht hg1 v (p + 4 + q) hq4 (by omega) h
  have hpad : pad (p + 4 + q + (encAll (α := Val t) (enc t) v (p + 4 + q)).length) 4 =
      pad (4 + q + sum (List.map (α := Val t) (ss t) v)) 4 := by
    rw [A]
    have : p + 4 + q + sum (List.map (α := Val t) (ss t) v) = p + (4 + q + sum (List.map (α := Val t) (ss t) v)) := by
      omega
    rw [this, pad_shift h4]
  rw [hpad, A] at hl
  have hS : ss (.vec t) v = 4 + q + sum (List.map (α := Val t) (ss t) v) +
      pad (4 + q + sum (List.map (α := Val t) (ss t) v)) 4 := by
    refine (ss_vec t v).trans ((congrArg (ssVec (al t)) (nrSize_map t v)).trans ?_)
    unfold ssVec
    rw [hq3, align_eq grain4 (by omega)]
  refine ⟨?_, ?_, ?_, ?_⟩
  · rw [elen]
    unfold encVec
    simp only [List.length_append, List.length_replicate, leBytes_length, hq1]
    rw [hpad, A, hS]; omega
  · rw [hS]; exact pad_dvd grain4
  · have hD : ss (.vec t) (dflt (.vec t)) = 4 + q := by
      show ssVec (al t) 0 = _
      unfold ssVec
      rw [hq3, Nat.add_zero, align_eq grain4 (by rcases hq2 with rfl | rfl <;> decide), pad_zero, Nat.add_zero]
      rcases hq2 with rfl | rfl <;> decide
    rw [hD, hS]; omega
  · intro r
    show chkVec (α := Val t) _ _ _ _ _ _ _
    unfold chkVec
    simp only [hq1]
    refine ⟨?_, D _⟩
    rw [A]; omega

theorem encStr_length {v : List Byte} (h : v.length < 2 ^ 31) :
    (encStr v).length = Utf8.utf8Bytes v.length + v.length := by
  unfold encStr
  rw [List.length_append, Utf8.out_size _ h _ (Utf8.out_is_table _ h)]

theorem encBlk_length {v : List Byte} {p : Nat} (hp : 4 ∣ p) :
    (encBlk v p).length = 4 + v.length + pad (4 + v.length) 4 := by
  unfold encBlk
  simp only [List.length_append, leBytes_length, List.length_replicate]
  rw [Nat.add_assoc p, pad_shift hp]; omega

theorem ssBlk_eq {v : List Byte} (h : v.length < 2 ^ 32) : ssBlk v = 4 + v.length + pad (4 + v.length) 4 := by
  unfold ssBlk
  have : 4 + v.length + 7 < W := Nat.lt_trans (Nat.add_lt_add_right (Nat.add_lt_add_left h 4) 7) (by decide)
  rw [Nat.mod_eq_of_lt h, align_eq grain4 this]

theorem fine : ∀ (t : Ty) (v : Val t) (p : Nat), WfTy t → Good t → Okv t v → need t ∣ p →
    (enc t v p).length + 8 ≤ W → Fine t v p
  | .int n, v, _, _, _, _, _, _ => ⟨leBytes_length n v, Nat.dvd_refl _, Nat.le_refl _, fun _ => trivial⟩
  | .bool, _, _, _, _, _, _, _ => ⟨rfl, Nat.dvd_refl _, Nat.le_refl _, fun _ => trivial⟩
  | .raw _ _, _, _, _, _, hv, _, _ => ⟨hv, ⟨_, (Nat.one_mul _).symm⟩, Nat.le_refl _, fun _ => trivial⟩
  | .str, v, p, _, _, hv, _, _ => by
    refine ⟨encStr_length (okv_str hv), Nat.one_dvd _, ?_, fun _ => trivial⟩
    rw [ss_str, ss_str]
    have := utf8Bytes_pos (List.length (α := Byte) v)
    show Utf8.utf8Bytes 0 + 0 ≤ _
    have : Utf8.utf8Bytes 0 = 1 := rfl
    omega
  | .blk, v, p, _, _, hv, hp, hl => by
    have e := encBlk_length (v := v) hp
    have es := ssBlk_eq (v := v) (okv_blk hv)
    have ed : ssBlk [] = 4 := ssBlk_eq (v := []) (by decide)
    refine ⟨e.trans es.symm, ?_, ?_, fun _ => trivial⟩
    · show 4 ∣ ssBlk v
      rw [es]; exact pad_dvd grain4
    · show ssBlk [] ≤ ssBlk v
      rw [ed, es]; omega
  | .pair a b, v, p, ht, hg, hv, hp, hl =>
    fine_pair ht hg hp hl (fun p => fine a _ p ht.1 hg.1 (okv_pair hv).1)
      (fun p => fine b _ p ht.2 hg.2.1 (okv_pair hv).2)
  | .arr n t, v, p, ht, hg, hv, hp, hl => by
    obtain ⟨A, B, C, D⟩ := fine_all (t := t) ht hg.2 v p hp hl
      (fun x hx p => fine t x p ht hg.1 ((okv_arr hv).2 x hx))
    have eS : ss (.arr n t) v = sum (List.map (α := Val t) (ss t) v) := (ss_arr n t v).trans (nrSize_map t v)
    refine ⟨by rw [eS]; exact A, by rw [eS]; exact B, ?_, D⟩
    have eD : ss (.arr n t) (dflt (.arr n t)) = n * ss t (dflt t) := by
      refine (ss_arr n t (dflt (.arr n t))).trans ((nrSize_map t (List.replicate n (dflt t))).trans ?_)
      show sum (List.map (ss t) (List.replicate n (dflt t))) = _
      rw [List.map_replicate, sum_const (k := ss t (dflt t)), List.length_replicate, Nat.mul_comm]
      intro x hx; exact List.eq_of_mem_replicate hx
    rw [eD, eS, ← (okv_arr hv).1]; exact C
  | .vec t, v, p, ht, hg, hv, hp, hl =>
    fine_vec ht hg hp hl (fun x hx p => fine t x p ht hg.1 ((okv_vec hv).2 x hx))

/-! ## Any type, with room behind -/

theorem chkAll_slack {t : Ty} (h : ∀ x p r, slack t x ≤ r → chk t x p r) : ∀ (l : List (Val t)) (p r : Nat),
    (l.map (slack t)).foldr (· + ·) 0 ≤ r → chkAll (chk t) (enc t) l p r
  | [], _, _, _ => trivial
  | x :: xs, p, r, hr => by
    rw [List.map_cons, List.foldr_cons] at hr
    exact ⟨h x _ _ (by omega), chkAll_slack h xs _ _ (by omega)⟩

theorem slack_chk : ∀ (t : Ty) (v : Val t) (p r : Nat), slack t v ≤ r → chk t v p r
  | .int _, _, _, _, _ => trivial
  | .bool, _, _, _, _ => trivial
  | .raw _ _, _, _, _, _ => trivial
  | .str, _, _, _, _ => trivial
  | .blk, _, _, _, _ => trivial
  | .pair a b, v, p, r, h => by
    have h' : slack a v.1 + slack b v.2 ≤ r := h
    exact ⟨slack_chk a _ _ _ (by omega), slack_chk b _ _ _ (by omega)⟩
  | .arr _ t, v, p, r, h => chkAll_slack (slack_chk t) v p r h
  | .vec t, v, p, r, h => by
    have h' : List.length (α := Val t) v * ss t (dflt t) + (List.map (α := Val t) (slack t) v).foldr (· + ·) 0 ≤ r := h
    exact ⟨by omega, chkAll_slack (slack_chk t) v _ _ (by omega)⟩

end Ustl.Stream
