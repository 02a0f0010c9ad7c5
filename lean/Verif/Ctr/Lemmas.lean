import Verif.Ctr.Model
import Verif.Forward.Props
import Verif.Permute.Props
import Verif.Search.Props
import Verif.Seq.Props
/-! Loop lemmas for `Verif.Ctr.Props`. -/
namespace Ustl.Ctr
open Ustl (rd wr)
variable {α : Type _}

theorem transformIn_at (op : α → α) (m : List α) : ∀ (pre : List α) (f t : Nat), f = pre.length → t = f + m.length →
    transformIn op (pre ++ m) f t = some (pre ++ m.map op) := by
  induction m with
  | nil =>
    intro pre f t hf ht
    unfold transformIn
    simp at ht; subst ht; simp
  | cons x m ih =>
    intro pre f t hf ht
    unfold transformIn
    simp at ht
    rw [if_pos (by omega), rd_at' _ _ _ _ hf]
    simp only
    rw [wr_at' _ _ _ _ _ hf]
    simp only
    have := ih (pre ++ [op x]) (f + 1) t (by simp [hf]) (by omega)
    simpa using this

theorem push_gap (kept gap rest : List α) (x : α) : ∃ gap', gap'.length = gap.length ∧
    wr (kept ++ gap ++ x :: rest) kept.length x = some ((kept ++ [x]) ++ gap' ++ rest) := by
  cases gap with
  | nil => exact ⟨[], rfl, by simp⟩
  | cons g gs =>
    refine ⟨gs ++ [x], by simp, ?_⟩
    rw [List.append_assoc, List.cons_append, Ustl.wr_at]
    simp

theorem removeItersLoop_at (rest : List α) : ∀ (kept gap : List α) (rs : List Nat) (f t r : Nat),
    r = kept.length → f = r + gap.length → t = f + rest.length → rs.Pairwise (· ≤ ·) →
    ∃ gap', removeItersLoop rs (kept ++ gap ++ rest) f t r =
      some (kept ++ ((rest.zipIdx f).filter (fun x => decide (x.2 ∉ rs))).map Prod.fst ++ gap',
        r + ((rest.zipIdx f).filter (fun x => decide (x.2 ∉ rs))).length) := by
  induction rest with
  | nil =>
    intro kept gap rs f t r hr hf ht _
    unfold removeItersLoop
    simp at ht; subst ht
    exact ⟨gap, by simp⟩
  | cons x rest ih =>
    intro kept gap rs f t r hr hf ht hs
    obtain ⟨s1, s2, s3⟩ := Forward.skipBelow_spec f rs hs
    have hfil : ∀ q : List α, (q.zipIdx (f + 1)).filter (fun x => decide (x.2 ∉ Forward.skipBelow f rs)) =
        (q.zipIdx (f + 1)).filter (fun x => decide (x.2 ∉ rs)) := by
      intro q
      apply List.filter_congr
      intro y hy
      have : f + 1 ≤ y.2 := List.le_snd_of_mem_zipIdx hy
      simp [s3 y.2 (by omega)]
    simp at ht
    unfold removeItersLoop
    rw [if_pos (by omega), rd_at' _ _ _ _ (by simp; omega)]
    simp only
    rw [List.zipIdx_cons, List.filter_cons]
    have keep : ∀ rs', Forward.skipBelow f rs = rs' → f ∉ rs → ∃ gap', (match wr (kept ++ gap ++ x :: rest) r x with
        | none => none
        | some l' => removeItersLoop rs' l' (f + 1) t (r + 1)) = some (kept ++ (((x, f) :: (rest.zipIdx (f + 1)).filter
          (fun x => decide (x.2 ∉ rs))).map Prod.fst) ++ gap', r + ((x, f) :: (rest.zipIdx (f + 1)).filter
          (fun x => decide (x.2 ∉ rs))).length) := by
      intro rs' hrs _
      obtain ⟨g, hg, e⟩ := push_gap kept gap rest x
      rw [hr, e]
      simp only
      obtain ⟨g', e'⟩ := ih (kept ++ [x]) g rs' (f + 1) t (kept.length + 1) (by simp) (by omega) (by omega) (hrs ▸ s1)
      rw [e', ← hrs, hfil]
      exact ⟨g', by simp; omega⟩
    match hsk : Forward.skipBelow f rs with
    | [] =>
      have hx : f ∉ rs := by rw [← s3 f (Nat.le_refl _), hsk]; simp
      simp only [hx, not_false_eq_true, decide_true, if_true]
      exact keep _ hsk hx
    | r' :: rs' =>
      simp only
      rw [hsk] at s1 s2 s3 hfil
      by_cases hr' : f = r'
      · have hx : f ∈ rs := by rw [← s3 f (Nat.le_refl _)]; simp [hr']
        rw [if_neg (by simpa using hr')]
        simp only [hx, not_true_eq_false, decide_false, Bool.false_eq_true, if_false]
        have e0 : kept ++ gap ++ x :: rest = kept ++ (gap ++ [x]) ++ rest := by simp
        rw [e0]
        obtain ⟨g', e'⟩ := ih kept (gap ++ [x]) (r' :: rs') (f + 1) t r hr (by simp; omega) (by omega) s1
        rw [e', hfil]
        exact ⟨g', rfl⟩
      · have hx : f ∉ rs := by
          rw [← s3 f (Nat.le_refl _)]
          intro hmem
          have hp := List.pairwise_cons.mp s1
          rcases List.mem_cons.mp hmem with e | e
          · exact hr' e
          · have a1 := s2 r' (by simp)
            have a2 := hp.1 f e
            omega
        rw [if_pos (by simpa using hr')]
        simp only [hx, not_false_eq_true, decide_true, if_true]
        exact keep _ hsk hx

/-- As long as the write position stays at or below the element referred to, removing by reference is removing by
value. -/
theorem removeRefLoop_eq (eq : α → α → Bool) (k : Nat) (v : α) (n : Nat) : ∀ (l : List α) (f t r : Nat), t - f = n →
    f ≤ t → t ≤ l.length → r ≤ f → rd l k = some v →
    r + (((l.take t).drop f).filter (fun x => !eq x v)).length ≤ k →
    Seq.removeRefLoop eq k l f t r = Forward.removeIfLoop (fun x => eq x v) l f t r := by
  induction n with
  | zero =>
    intro l f t r hn hft _ _ _ _
    have : f = t := by omega
    subst this
    unfold Seq.removeRefLoop Forward.removeIfLoop
    simp
  | succ n ih =>
    intro l f t r hn hft htl hrf hk hc
    unfold Seq.removeRefLoop Forward.removeIfLoop
    have hlt : f < t := by omega
    rw [if_pos hlt, if_pos hlt, rd_eq_some _ _ (by omega : f < l.length), hk]
    simp only
    have hd : (l.take t).drop f = l[f] :: (l.take t).drop (f + 1) := by
      rw [List.drop_eq_getElem_cons (by simp; omega)]
      simp
    rw [hd] at hc
    cases he : eq l[f] v with
    | true =>
      simp only [if_true]
      refine ih l (f + 1) t r (by omega) (by omega) htl (by omega) hk ?_
      simpa [List.filter_cons, he] using hc
    | false =>
      simp only [Bool.false_eq_true, if_false]
      rw [wr_eq_some _ _ _ (by omega : r < l.length)]
      simp only
      simp only [List.filter_cons, he, Bool.not_false, if_true, List.length_cons] at hc
      refine ih _ (f + 1) t (r + 1) (by omega) (by omega) (by simpa using htl) (by omega) ?_ ?_
      · unfold rd at hk ⊢
        rw [List.getElem?_set_ne (by omega)]
        exact hk
      · have : ((l.set r l[f]).take t).drop (f + 1) = (l.take t).drop (f + 1) := by
          rw [List.take_set, List.drop_set_of_lt (by omega)]
        rw [this]
        omega

variable [DecidableEq α]

/-- The loop of `replace`, `old` a reference to element `k` (or none: `k` beyond everything), stated by what each
element becomes. -/
theorem replaceLoop_eq (old new : Ref α) (c : List α) (o n : α) (ho : old.get c = some o) (hn : new.get c = some n)
    (k : Nat) (hk : old = .elem k ∨ (old = .out o ∧ k = c.length)) (d : Nat) : ∀ (l : List α) (f t : Nat), t - f = d → f ≤ t →
    t = c.length → (l = c.mapIdx fun i x => if i < f ∧ i ≤ k ∧ x = o then n else x) →
    replaceLoop (fun a b => decide (a = b)) old new l f t =
      some (c.mapIdx fun i x => if i ≤ k ∧ x = o then n else x) := by
  induction d with
  | zero =>
    intro l f t hd hft ht hl
    have : f = t := by omega
    subst this
    unfold replaceLoop
    simp only [Nat.lt_irrefl, if_false, if_true, Option.some.injEq]
    rw [hl]
    apply List.ext_getElem (by simp)
    intro i h1 h2
    simp only [List.getElem_mapIdx]
    simp only [List.length_mapIdx] at h1
    have : i < f := by omega
    simp [this]
  | succ d ih =>
    intro l f t hd hft ht hl
    have hlen : l.length = c.length := by rw [hl]; simp
    have hlt : f < t := by omega
    unfold replaceLoop
    rw [if_pos hlt, rd_eq_some _ _ (by omega : f < l.length)]
    have hlf : l[f]'(by omega) = c[f]'(by omega) := by
      simp only [hl, List.getElem_mapIdx]; simp
    -- the value of `new` never changes
    have hnew : new.get l = some n := by
      cases new with
      | out x => simpa [Ref.get] using hn
      | elem j =>
        simp only [Ref.get, rd] at hn ⊢
        rw [hl, List.getElem?_mapIdx, hn]
        simp
    -- the value of `old` changes once, to that of `new`
    have hold : old.get l = some (if k < f then n else o) ∨ (old.get l = some o ∧ (k < f → False)) := by
      rcases hk with hk | ⟨hk, hk'⟩
      · left
        subst hk
        simp only [Ref.get, rd] at ho ⊢
        rw [hl, List.getElem?_mapIdx, ho]
        simp
      · right
        subst hk
        exact ⟨rfl, by omega⟩
    have hold' : old.get l = some (if k < f then n else o) := by
      rcases hold with h | ⟨h, h'⟩
      · exact h
      · rw [h, if_neg h']
    rw [hold', hnew, hlf]
    simp only [decide_eq_true_eq]
    have step : ∀ l', (l' = c.mapIdx fun i x => if i < f + 1 ∧ i ≤ k ∧ x = o then n else x) →
        replaceLoop (fun a b => decide (a = b)) old new l' (f + 1) t =
          some (c.mapIdx fun i x => if i ≤ k ∧ x = o then n else x) := fun l' h =>
      ih l' (f + 1) t (by omega) (by omega) ht h
    by_cases hm : c[f]'(by omega) = (if k < f then n else o)
    · rw [if_pos hm, wr_eq_some _ _ _ (by omega : f < l.length)]
      simp only
      refine step _ ?_
      apply List.ext_getElem (by simp [hlen])
      intro i h1 h2
      simp only [List.length_mapIdx] at h2
      simp only [List.getElem_set, hl, List.getElem_mapIdx]
      by_cases hi : f = i
      · subst hi
        simp only [if_true]
        by_cases hkf : k < f
        · rw [if_pos hkf] at hm
          rw [if_neg (by omega), hm]
        · rw [if_neg hkf] at hm
          rw [if_pos ⟨by omega, by omega, hm⟩]
      · rw [if_neg hi]
        by_cases h : i < f ∧ i ≤ k ∧ c[i] = o
        · rw [if_pos h, if_pos ⟨by omega, h.2⟩]
        · rw [if_neg h, if_neg (fun h' => h ⟨by omega, h'.2⟩)]
    · rw [if_neg hm]
      refine step _ ?_
      rw [hl]
      apply List.ext_getElem (by simp)
      intro i h1 h2
      simp only [List.length_mapIdx] at h1
      simp only [List.getElem_mapIdx]
      by_cases h : i < f ∧ i ≤ k ∧ c[i] = o
      · rw [if_pos h, if_pos ⟨by omega, h.2⟩]
      · rw [if_neg h, if_neg ?_]
        intro h'
        by_cases hi : i = f
        · subst hi
          rw [if_neg (by omega)] at hm
          exact hm h'.2.2
        · exact h ⟨by omega, h'.2⟩

omit [DecidableEq α] in
theorem fillLoop_eq (v : Ref α) (x : α) (m : List α) : ∀ (n f t : Nat), v.get (List.replicate n x ++ m) = some x → f = n →
    t = f + m.length → fillLoop v (List.replicate n x ++ m) f t = some (List.replicate (n + m.length) x) := by
  induction m with
  | nil =>
    intro n f t _ hf ht
    unfold fillLoop
    simp at ht; subst ht; simp
  | cons y m ih =>
    intro n f t hv hf ht
    unfold fillLoop
    simp at ht
    rw [if_pos (by omega), hv]
    simp only
    rw [wr_at' _ _ _ _ _ (by simp [hf])]
    simp only
    have e : List.replicate n x ++ x :: m = List.replicate (n + 1) x ++ m := by
      rw [List.replicate_succ']; simp
    rw [e]
    have hv' : v.get (List.replicate (n + 1) x ++ m) = some x := by
      cases v with
      | out z => simpa [Ref.get] using hv
      | elem k =>
        simp only [Ref.get, rd] at hv ⊢
        rw [List.getElem?_append] at hv ⊢
        simp only [List.length_replicate] at hv ⊢
        by_cases h : k < n + 1
        · rw [if_pos h]; simp [h]
        · rw [if_neg h]
          rw [if_neg (by omega)] at hv
          obtain ⟨j, hj⟩ : ∃ j, k = n + 1 + j := ⟨k - (n + 1), by omega⟩
          subst hj
          have e1 : n + 1 + j - n = j + 1 := by omega
          have e2 : n + 1 + j - (n + 1) = j := by omega
          rw [e1] at hv
          rw [e2]
          simpa using hv
    have := ih (n + 1) (f + 1) t hv' (by omega) (by omega)
    rw [this]
    simp; omega

end Ustl.Ctr
