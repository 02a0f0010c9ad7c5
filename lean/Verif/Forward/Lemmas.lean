import Verif.Forward.Spec
namespace Ustl.Forward
variable {α β γ : Type _}

theorem seg_cons (pre m post : List α) (x : α) : pre ++ (x :: m) ++ post = pre ++ [x] ++ m ++ post := by simp

theorem rd_seg (pre m post : List α) (x : α) (i : Nat) (h : i = pre.length) :
    rd (pre ++ [x] ++ m ++ post) i = some x := by subst h; simp [rd]

theorem wr_seg (pre m post : List α) (x y : α) (i : Nat) (h : i = pre.length) :
    wr (pre ++ [x] ++ m ++ post) i y = some (pre ++ [y] ++ m ++ post) := by
  subst h
  have : pre ++ [x] ++ m ++ post = pre ++ x :: (m ++ post) := by simp
  rw [this, wr_at]; simp

/-- Facts common to the step of every loop. -/
theorem step_facts {pre m : List α} {x : α} {f t : Nat} (hf : f = pre.length) (ht : t = f + (x :: m).length) :
    f < t ∧ f + 1 = (pre ++ [x]).length ∧ t = (f + 1) + m.length := by
  simp at ht ⊢; omega

theorem findIf_at (pred : α → Bool) (m : List α) : ∀ (pre post : List α) (f t : Nat), f = pre.length →
    t = f + m.length →
    findIf pred (pre ++ m ++ post) f t = some (f + (m.takeWhile (fun x => !pred x)).length) := by
  induction m with
  | nil =>
    intro pre post f t hf ht
    simp at ht; subst ht
    unfold findIf; simp
  | cons x m ih =>
    intro pre post f t hf ht
    obtain ⟨h1, h2, h3⟩ := step_facts hf ht
    rw [seg_cons]
    unfold findIf
    rw [if_pos h1, rd_seg _ _ _ _ _ hf]
    simp only
    cases hp : pred x with
    | true => simp [hp]
    | false => simp only [Bool.false_eq_true, if_false]; rw [ih _ post _ _ h2 h3]; simp [hp]; omega

theorem adjLoop_at (p : α → α → Bool) (m : List α) : ∀ (x : α) (pre post : List α) (f t : Nat), f = pre.length →
    t = f + 1 + m.length →
    ∃ i, adjLoop p (pre ++ (x :: m) ++ post) f t = some (f + i) ∧ i ≤ m.length + 1 ∧
      (∀ j a b, j < i → (x :: m)[j]? = some a → (x :: m)[j + 1]? = some b → p a b = false) ∧
      (i = m.length + 1 ∨ ∃ a b, (x :: m)[i]? = some a ∧ (x :: m)[i + 1]? = some b ∧ p a b = true) := by
  induction m with
  | nil =>
    intro x pre post f t hf ht
    simp at ht; subst ht
    unfold adjLoop
    refine ⟨1, by simp, by simp, ?_, Or.inl rfl⟩
    intro j a b hj _ h
    simp at h
  | cons y m ih =>
    intro x pre post f t hf ht
    unfold adjLoop
    rw [if_pos (by simp at ht; omega)]
    have r1 : rd (pre ++ (x :: y :: m) ++ post) f = some x := by subst hf; simp [rd]
    have r2 : rd (pre ++ (x :: y :: m) ++ post) (f + 1) = some y := by
      subst hf; simp [rd]
    rw [r1, r2]
    simp only
    cases hp : p x y with
    | true => exact ⟨0, by simp, by simp, by simp, Or.inr ⟨x, y, by simp, by simp, hp⟩⟩
    | false =>
      obtain ⟨i, e1, e2, e3, e4⟩ := ih y (pre ++ [x]) post (f + 1) t (by simp [hf]) (by simp at ht ⊢; omega)
      refine ⟨i + 1, ?_, by simp; omega, ?_, ?_⟩
      · rw [seg_cons]; simp only [Bool.false_eq_true, if_false]; rw [e1]; congr 1; omega
      · intro j a b hj h1 h2
        cases j with
        | zero => simp at h1 h2; subst h1; subst h2; exact hp
        | succ j => exact e3 j a b (by omega) (by simpa using h1) (by simpa using h2)
      · rcases e4 with e4 | ⟨a, b, g1, g2, g3⟩
        · left; simp; omega
        · right; exact ⟨a, b, by simpa using g1, by simpa using g2, g3⟩

/-- The length of the longest common prefix (w.r.t. `eq`). -/
def commonPrefix (eq : α → β → Bool) : List α → List β → Nat
  | a :: as, b :: bs => if eq a b then commonPrefix eq as bs + 1 else 0
  | _, _ => 0

theorem mismatch_at (eq : α → β → Bool) (m : List α) : ∀ (pre post : List α) (f t : Nat) (w pre2 post2 : List β)
    (f2 : Nat), f = pre.length → t = f + m.length → f2 = pre2.length → m.length ≤ w.length →
    mismatch eq (pre ++ m ++ post) f t (pre2 ++ w ++ post2) f2 =
      some (f + commonPrefix eq m w, f2 + commonPrefix eq m w) := by
  induction m with
  | nil =>
    intro pre post f t w pre2 post2 f2 hf ht _ _
    simp at ht; subst ht
    unfold mismatch; simp [commonPrefix]
  | cons x m ih =>
    intro pre post f t w pre2 post2 f2 hf ht hf2 hw
    obtain ⟨h1, h2, h3⟩ := step_facts hf ht
    match w, hw with
    | y :: w, hw =>
      rw [seg_cons pre, seg_cons pre2]
      unfold mismatch
      rw [if_pos h1, rd_seg _ _ _ _ _ hf, rd_seg _ _ _ _ _ hf2]
      simp only
      cases hp : eq x y with
      | true =>
        have := ih _ post _ _ w (pre2 ++ [y]) post2 (f2 + 1) h2 h3 (by simp [hf2]) (by simpa using hw)
        simp only [commonPrefix, hp, if_true]; rw [this]; congr 2 <;> omega
      | false => simp [commonPrefix, hp]

theorem countIf_at (pred : α → Bool) (m : List α) : ∀ (pre post : List α) (f t n : Nat), f = pre.length →
    t = f + m.length →
    countIf pred (pre ++ m ++ post) f t n = some (n + m.countP pred) := by
  induction m with
  | nil =>
    intro pre post f t n hf ht
    simp at ht; subst ht
    unfold countIf; simp
  | cons x m ih =>
    intro pre post f t n hf ht
    obtain ⟨h1, h2, h3⟩ := step_facts hf ht
    rw [seg_cons]
    unfold countIf
    rw [if_pos h1, rd_seg _ _ _ _ _ hf]
    simp only
    rw [ih _ post _ _ _ h2 h3, List.countP_cons]
    cases pred x <;> simp <;> omega

theorem forEach_at {σ : Type _} (g : σ → α → σ) (m : List α) : ∀ (pre post : List α) (f t : Nat) (s : σ),
    f = pre.length → t = f + m.length → forEach g (pre ++ m ++ post) f t s = some (m.foldl g s) := by
  induction m with
  | nil =>
    intro pre post f t s hf ht
    simp at ht; subst ht
    unfold forEach; simp
  | cons x m ih =>
    intro pre post f t s hf ht
    obtain ⟨h1, h2, h3⟩ := step_facts hf ht
    rw [seg_cons]
    unfold forEach
    rw [if_pos h1, rd_seg _ _ _ _ _ hf]
    simp only
    rw [ih _ post _ _ _ h2 h3]; rfl

theorem copy_at (m : List α) : ∀ (pre post : List α) (f t : Nat), f = pre.length →
    t = f + m.length → copy (pre ++ m ++ post) f t = some m := by
  induction m with
  | nil =>
    intro pre post f t hf ht
    simp at ht; subst ht
    unfold copy; simp
  | cons x m ih =>
    intro pre post f t hf ht
    obtain ⟨h1, h2, h3⟩ := step_facts hf ht
    rw [seg_cons]
    unfold copy
    rw [if_pos h1, rd_seg _ _ _ _ _ hf]
    simp only
    rw [ih _ post _ _ h2 h3]; rfl

theorem copyIf_at (pred : α → Bool) (m : List α) : ∀ (pre post : List α) (f t : Nat), f = pre.length →
    t = f + m.length → copyIf pred (pre ++ m ++ post) f t = some (m.filter pred) := by
  induction m with
  | nil =>
    intro pre post f t hf ht
    simp at ht; subst ht
    unfold copyIf; simp
  | cons x m ih =>
    intro pre post f t hf ht
    obtain ⟨h1, h2, h3⟩ := step_facts hf ht
    rw [seg_cons]
    unfold copyIf
    rw [if_pos h1, rd_seg _ _ _ _ _ hf]
    simp only
    rw [ih _ post _ _ h2 h3]
    cases hp : pred x <;> simp [hp]

theorem removeCopyIf_at (pred : α → Bool) (m : List α) : ∀ (pre post : List α) (f t : Nat), f = pre.length →
    t = f + m.length → removeCopyIf pred (pre ++ m ++ post) f t = some (m.filter (fun x => !pred x)) := by
  induction m with
  | nil =>
    intro pre post f t hf ht
    simp at ht; subst ht
    unfold removeCopyIf; simp
  | cons x m ih =>
    intro pre post f t hf ht
    obtain ⟨h1, h2, h3⟩ := step_facts hf ht
    rw [seg_cons]
    unfold removeCopyIf
    rw [if_pos h1, rd_seg _ _ _ _ _ hf]
    simp only
    rw [ih _ post _ _ h2 h3]
    cases hp : pred x <;> simp [hp]

theorem skipBelow_spec (i : Nat) (rs : List Nat) (hs : rs.Pairwise (· ≤ ·)) :
    (skipBelow i rs).Pairwise (· ≤ ·) ∧ (∀ r ∈ skipBelow i rs, i ≤ r) ∧
      (∀ k, i ≤ k → (k ∈ skipBelow i rs ↔ k ∈ rs)) := by
  induction rs with
  | nil => simp [skipBelow]
  | cons r rs ih =>
    have hs' := List.pairwise_cons.mp hs
    unfold skipBelow
    by_cases h : r < i
    · rw [if_pos h]
      obtain ⟨h1, h2, h3⟩ := ih hs'.2
      refine ⟨h1, h2, fun k hk => ?_⟩
      rw [h3 k hk, List.mem_cons]
      constructor
      · exact Or.inr
      · rintro (rfl | h')
        · omega
        · exact h'
    · rw [if_neg h]
      refine ⟨hs, ?_, fun _ _ => Iff.rfl⟩
      intro q hq
      rcases List.mem_cons.mp hq with e | e
      · omega
      · have := hs'.1 q e; omega

theorem removeCopyIters_at (m : List α) : ∀ (pre post : List α) (f t : Nat) (rs : List Nat), f = pre.length →
    t = f + m.length → rs.Pairwise (· ≤ ·) →
    removeCopyIters (pre ++ m ++ post) f t rs =
      some (((m.zipIdx f).filter (fun x => decide (x.2 ∉ rs))).map Prod.fst) := by
  induction m with
  | nil =>
    intro pre post f t rs hf ht _
    simp at ht; subst ht
    unfold removeCopyIters; simp
  | cons x m ih =>
    intro pre post f t rs hf ht hs
    obtain ⟨h1, h2, h3⟩ := step_facts hf ht
    obtain ⟨s1, s2, s3⟩ := skipBelow_spec f rs hs
    rw [seg_cons]
    unfold removeCopyIters
    rw [if_pos h1, rd_seg _ _ _ _ _ hf]
    simp only
    -- filtering by `rs` and by the remaining list agree beyond `f`
    have hfil : ∀ k, f ≤ k → ∀ (q : List α), (q.zipIdx k).filter (fun x => decide (x.2 ∉ skipBelow f rs)) =
        (q.zipIdx k).filter (fun x => decide (x.2 ∉ rs)) := by
      intro k hk q
      apply List.filter_congr
      intro y hy
      have : f ≤ y.2 := Nat.le_trans hk (List.le_snd_of_mem_zipIdx hy)
      simp [s3 y.2 this]
    rw [List.zipIdx_cons, List.filter_cons]
    match hsk : skipBelow f rs with
    | [] =>
      have hx : f ∉ rs := by rw [← s3 f (Nat.le_refl _), hsk]; simp
      simp only
      rw [ih _ post _ _ [] h2 h3 List.Pairwise.nil]
      rw [← hfil (f + 1) (by omega) m, hsk]
      simp [hx]
    | r :: rs' =>
      simp only
      rw [hsk] at s1 s2 s3 hfil
      by_cases hr : f = r
      · have hx : f ∈ rs := by rw [← s3 f (Nat.le_refl _)]; simp [hr]
        rw [if_neg (by simpa using hr), ih _ post _ _ _ h2 h3 s1, ← hfil (f + 1) (by omega) m]
        simp [hx]
      · have hx : f ∉ rs := by
          rw [← s3 f (Nat.le_refl _)]
          intro hmem
          have hp := List.pairwise_cons.mp s1
          rcases List.mem_cons.mp hmem with e | e
          · exact hr e
          · have a1 := s2 r (by simp)
            have a2 := hp.1 f e
            omega
        rw [if_pos (by simpa using hr), ih _ post _ _ _ h2 h3 s1, ← hfil (f + 1) (by omega) m]
        simp [hx]

theorem removeIfLoop_at (pred : α → Bool) (rest : List α) : ∀ (pre kept gap post : List α) (f t r : Nat),
    r = pre.length + kept.length → f = r + gap.length → t = f + rest.length →
    ∃ gap', removeIfLoop pred (pre ++ kept ++ gap ++ rest ++ post) f t r =
        some (pre ++ (kept ++ rest.filter (fun x => !pred x)) ++ gap' ++ post,
          r + (rest.filter (fun x => !pred x)).length) ∧
      (rest.filter (fun x => !pred x)).length + gap'.length = gap.length + rest.length := by
  induction rest with
  | nil =>
    intro pre kept gap post f t r hr hf ht
    simp at ht; subst ht
    unfold removeIfLoop
    exact ⟨gap, by simp, by simp⟩
  | cons x rest ih =>
    intro pre kept gap post f t r hr hf ht
    unfold removeIfLoop
    have hrd : rd (pre ++ kept ++ gap ++ (x :: rest) ++ post) f = some x := by
      have : pre ++ kept ++ gap ++ (x :: rest) ++ post = (pre ++ kept ++ gap) ++ x :: (rest ++ post) := by simp
      rw [this]; exact rd_at' _ _ _ _ (by simp; omega)
    rw [if_pos (by simp at ht; omega), hrd]
    simp only
    cases hp : pred x with
    | true =>
      obtain ⟨gap', e1, e2⟩ := ih pre kept (gap ++ [x]) post (f + 1) t r hr (by simp; omega) (by simp at ht ⊢; omega)
      refine ⟨gap', ?_, by simp [hp] at e2 ⊢; omega⟩
      have : pre ++ kept ++ gap ++ (x :: rest) ++ post = pre ++ kept ++ (gap ++ [x]) ++ rest ++ post := by simp
      rw [this, if_pos rfl, e1]
      simp [hp]
    | false =>
      simp only [Bool.false_eq_true, if_false]
      match gap, hf with
      | [], hf =>
        have hw : wr (pre ++ kept ++ [] ++ (x :: rest) ++ post) r x =
            some (pre ++ (kept ++ [x]) ++ [] ++ rest ++ post) := by
          have : pre ++ kept ++ [] ++ (x :: rest) ++ post = (pre ++ kept) ++ x :: (rest ++ post) := by simp
          rw [this, wr_at' _ _ _ _ _ (by simp; omega)]; simp
        rw [hw]
        simp only
        obtain ⟨gap', e1, e2⟩ := ih pre (kept ++ [x]) [] post (f + 1) t (r + 1) (by simp; omega)
          (by simp at hf ⊢; omega) (by simp at ht ⊢; omega)
        refine ⟨gap', ?_, by simp [hp] at e2 ⊢; omega⟩
        rw [e1]; simp [hp]; omega
      | g :: gap, hf =>
        have hw : wr (pre ++ kept ++ (g :: gap) ++ (x :: rest) ++ post) r x =
            some (pre ++ (kept ++ [x]) ++ (gap ++ [x]) ++ rest ++ post) := by
          have : pre ++ kept ++ (g :: gap) ++ (x :: rest) ++ post = (pre ++ kept) ++ g :: (gap ++ (x :: rest) ++ post) := by simp
          rw [this, wr_at' _ _ _ _ _ (by simp; omega)]; simp
        rw [hw]
        simp only
        obtain ⟨gap', e1, e2⟩ := ih pre (kept ++ [x]) (gap ++ [x]) post (f + 1) t (r + 1) (by simp; omega)
          (by simp at hf ⊢; omega) (by simp at ht ⊢; omega)
        refine ⟨gap', ?_, by simp [hp] at e2 ⊢; omega⟩
        rw [e1]; simp [hp]; omega

theorem runHeads_cons (eq : α → α → Bool) (x y : α) (m : List α) :
    runHeads eq (x :: y :: m) = if eq y x then runHeads eq (x :: m) else x :: runHeads eq (y :: m) := by
  rw [runHeads, List.dropWhile_cons]
  cases h : eq y x with
  | true => simp only [if_true]; rw [runHeads]
  | false => simp

theorem uniqueCopyLoop_at (eq : α → α → Bool) (m : List α) : ∀ (z cur : α) (pre post : List α) (f t : Nat),
    f = pre.length → t = f + 1 + m.length →
    (uniqueCopyLoop eq (pre ++ (z :: m) ++ post) cur f t).map (cur :: ·) = some (runHeads eq (cur :: m)) := by
  induction m with
  | nil =>
    intro z cur pre post f t hf ht
    simp at ht; subst ht
    unfold uniqueCopyLoop
    simp [runHeads]
  | cons x m ih =>
    intro z cur pre post f t hf ht
    unfold uniqueCopyLoop
    have hrd : rd (pre ++ (z :: x :: m) ++ post) (f + 1) = some x := by subst hf; simp [rd]
    rw [if_pos (by simp at ht; omega), hrd]
    simp only
    rw [runHeads_cons, seg_cons]
    cases hp : eq x cur with
    | true => exact ih x cur (pre ++ [z]) post (f + 1) t (by simp [hf]) (by simp at ht ⊢; omega)
    | false =>
      simp only [Bool.false_eq_true, if_false]
      rw [ih x x (pre ++ [z]) post (f + 1) t (by simp [hf]) (by simp at ht ⊢; omega)]
      rfl

theorem uniqueLoop_at (eq : α → α → Bool) (rest : List α) : ∀ (pre kept gap post : List α) (cur : α) (f t r : Nat),
    r = pre.length + kept.length → f + 1 = r + 1 + gap.length → t = f + 1 + rest.length →
    ∃ gap', uniqueLoop eq (pre ++ (kept ++ [cur]) ++ gap ++ rest ++ post) f t r =
        some (pre ++ (kept ++ runHeads eq (cur :: rest)) ++ gap' ++ post,
          r + (runHeads eq (cur :: rest)).length) ∧
      (runHeads eq (cur :: rest)).length + gap'.length = 1 + gap.length + rest.length := by
  induction rest with
  | nil =>
    intro pre kept gap post cur f t r hr hf ht
    simp at ht; subst ht
    unfold uniqueLoop
    exact ⟨gap, by simp [runHeads], by simp [runHeads]⟩
  | cons x rest ih =>
    intro pre kept gap post cur f t r hr hf ht
    unfold uniqueLoop
    have hrd : rd (pre ++ (kept ++ [cur]) ++ gap ++ (x :: rest) ++ post) (f + 1) = some x := by
      have : pre ++ (kept ++ [cur]) ++ gap ++ (x :: rest) ++ post
        = (pre ++ (kept ++ [cur]) ++ gap) ++ x :: (rest ++ post) := by simp
      rw [this]; exact rd_at' _ _ _ _ (by simp; omega)
    have hrc : rd (pre ++ (kept ++ [cur]) ++ gap ++ (x :: rest) ++ post) r = some cur := by
      have : pre ++ (kept ++ [cur]) ++ gap ++ (x :: rest) ++ post
        = (pre ++ kept) ++ cur :: (gap ++ (x :: rest) ++ post) := by simp
      rw [this]; exact rd_at' _ _ _ _ (by simp; omega)
    rw [if_pos (by simp at ht; omega), hrd, hrc]
    simp only
    rw [runHeads_cons]
    cases hp : eq x cur with
    | true =>
      obtain ⟨gap', e1, e2⟩ := ih pre kept (gap ++ [x]) post cur (f + 1) t r hr (by simp; omega) (by simp at ht ⊢; omega)
      refine ⟨gap', ?_, by simp at e2 ⊢; omega⟩
      have : pre ++ (kept ++ [cur]) ++ gap ++ (x :: rest) ++ post
        = pre ++ (kept ++ [cur]) ++ (gap ++ [x]) ++ rest ++ post := by simp
      rw [this, if_pos rfl, e1]; simp
    | false =>
      simp only [Bool.false_eq_true, if_false]
      match gap, hf with
      | [], hf =>
        have hw : wr (pre ++ (kept ++ [cur]) ++ [] ++ (x :: rest) ++ post) (r + 1) x =
            some (pre ++ ((kept ++ [cur]) ++ [x]) ++ [] ++ rest ++ post) := by
          have : pre ++ (kept ++ [cur]) ++ [] ++ (x :: rest) ++ post
            = (pre ++ (kept ++ [cur])) ++ x :: (rest ++ post) := by simp
          rw [this, wr_at' _ _ _ _ _ (by simp; omega)]; simp
        rw [hw]
        simp only
        obtain ⟨gap', e1, e2⟩ := ih pre (kept ++ [cur]) [] post x (f + 1) t (r + 1) (by simp; omega)
          (by simp at hf ⊢; omega) (by simp at ht ⊢; omega)
        refine ⟨gap', ?_, by simp at e2 ⊢; omega⟩
        rw [e1]; simp; omega
      | g :: gap, hf =>
        have hw : wr (pre ++ (kept ++ [cur]) ++ (g :: gap) ++ (x :: rest) ++ post) (r + 1) x =
            some (pre ++ ((kept ++ [cur]) ++ [x]) ++ (gap ++ [x]) ++ rest ++ post) := by
          have : pre ++ (kept ++ [cur]) ++ (g :: gap) ++ (x :: rest) ++ post
            = (pre ++ (kept ++ [cur])) ++ g :: (gap ++ (x :: rest) ++ post) := by simp
          rw [this, wr_at' _ _ _ _ _ (by simp; omega)]; simp
        rw [hw]
        simp only
        obtain ⟨gap', e1, e2⟩ := ih pre (kept ++ [cur]) (gap ++ [x]) post x (f + 1) t (r + 1) (by simp; omega)
          (by simp at hf ⊢; omega) (by simp at ht ⊢; omega)
        refine ⟨gap', ?_, by simp at e2 ⊢; omega⟩
        rw [e1]; simp; omega

theorem transform_at (op : α → β) (m : List α) : ∀ (pre post : List α) (f t : Nat), f = pre.length →
    t = f + m.length → transform op (pre ++ m ++ post) f t = some (m.map op) := by
  induction m with
  | nil =>
    intro pre post f t hf ht
    simp at ht; subst ht
    unfold transform; simp
  | cons x m ih =>
    intro pre post f t hf ht
    obtain ⟨h1, h2, h3⟩ := step_facts hf ht
    rw [seg_cons]
    unfold transform
    rw [if_pos h1, rd_seg _ _ _ _ _ hf]
    simp only
    rw [ih _ post _ _ h2 h3]; rfl

theorem transform2_at (op : α → β → γ) (m : List α) : ∀ (pre post : List α) (f t : Nat) (w pre2 post2 : List β)
    (f2 : Nat), f = pre.length → t = f + m.length → f2 = pre2.length → m.length = w.length →
    transform2 op (pre ++ m ++ post) f t (pre2 ++ w ++ post2) f2 = some (List.zipWith op m w) := by
  induction m with
  | nil =>
    intro pre post f t w pre2 post2 f2 hf ht _ _
    simp at ht; subst ht
    unfold transform2; simp
  | cons x m ih =>
    intro pre post f t w pre2 post2 f2 hf ht hf2 hw
    obtain ⟨h1, h2, h3⟩ := step_facts hf ht
    match w, hw with
    | y :: w, hw =>
      rw [seg_cons pre, seg_cons pre2]
      unfold transform2
      rw [if_pos h1, rd_seg _ _ _ _ _ hf, rd_seg _ _ _ _ _ hf2]
      simp only
      rw [ih _ post _ _ w (pre2 ++ [y]) post2 (f2 + 1) h2 h3 (by simp [hf2]) (by simpa using hw)]
      simp

theorem replaceIf_at (pred : α → Bool) (new : α) (m : List α) : ∀ (pre post : List α) (f t : Nat),
    f = pre.length → t = f + m.length →
    replaceIf pred new (pre ++ m ++ post) f t
      = some (pre ++ m.map (fun x => if pred x then new else x) ++ post) := by
  induction m with
  | nil =>
    intro pre post f t hf ht
    simp at ht; subst ht
    unfold replaceIf; simp
  | cons x m ih =>
    intro pre post f t hf ht
    obtain ⟨h1, h2, h3⟩ := step_facts hf ht
    rw [seg_cons]
    unfold replaceIf
    rw [if_pos h1, rd_seg _ _ _ _ _ hf]
    simp only
    cases hp : pred x with
    | true =>
      rw [if_pos rfl, wr_seg _ _ _ _ _ _ hf]
      simp only
      rw [ih _ post _ _ (by simp [hf]) h3]
      simp [hp]
    | false =>
      simp only [Bool.false_eq_true, if_false]
      rw [ih _ post _ _ h2 h3]; simp [hp]

theorem generate_at (gen : Nat → α) (m : List α) : ∀ (pre post : List α) (f t k : Nat),
    f = pre.length → t = f + m.length →
    generate gen (pre ++ m ++ post) f t k = some (pre ++ (List.range' k m.length).map gen ++ post) := by
  induction m with
  | nil =>
    intro pre post f t k hf ht
    simp at ht; subst ht
    unfold generate; simp
  | cons x m ih =>
    intro pre post f t k hf ht
    obtain ⟨h1, h2, h3⟩ := step_facts hf ht
    rw [seg_cons]
    unfold generate
    rw [if_pos h1, wr_seg _ _ _ _ _ _ hf]
    simp only
    rw [ih _ post _ _ _ (by simp [hf]) h3]
    simp [List.range'_succ]

end Ustl.Forward
