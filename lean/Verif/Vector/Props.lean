import Verif.Vector.Lemmas
/-!
# C22: vectors behave like lists of elements

`Spec.lean` holds the specification: the list meaning of the operations (`Op.apply`), the contract (`Pre`),
histories (`Hist`) and what a user sees (`Shows`). Undefined behaviour includes constructing over a live
element, destroying or assigning to a slot without one, and freeing memory that still holds one; so the
no-UB theorem says that every element slot is constructed once and destroyed once.
-/
namespace Ustl.Vector
open Ustl.Memblock
variable {β T : Type _} {enc : T → List β} {sz : Nat} {rot : List (Cell β) → Nat → Nat → Nat → Option (List (Cell β))}

/-- The state of a program whose vectors hold the lists `v`. -/
structure WV (enc : T → List β) (sz : Nat) (w : World (Cell β)) (v : Nat → List T) : Prop where
  hok : HOK w.heap
  owns : Owns w
  rep : ∀ i, VRep enc sz w.heap (w.obj i) (v i)
  noleak : NoLeak w

theorem lift_v {w : World (Cell β)} {v : Nat → List T} {i : Nat} {h' : Heap (Cell β)} {o' : Obj} {xs : List T}
    (hw : WV enc sz w v) (e : Eff w.heap (w.obj i) h' o') (hv : VRep enc sz h' o' xs) :
    WV enc sz ⟨h', fun k => if k = i then o' else w.obj k⟩ (upd v i xs) := by
  obtain ⟨g1, g2, _, _, _⟩ := lift hw.hok hw.owns e.toEff0
  refine ⟨g1, g2, ?_, noLeak_put (ok := true) hw.noleak e rfl⟩
  intro k
  by_cases hk : k = i
  · subst hk; simp only [upd, if_pos]; exact hv
  · simp only [upd, if_neg hk]
    rcases hw.rep k with h1 | ⟨id, k1, k2, k3, k4, k5⟩
    · exact Or.inl h1
    · refine Or.inr ⟨id, k1, k2, k3, k4, ?_⟩
      rw [e.keep id (hw.hok.lt k5), k5]
      by_cases hc : (w.obj i).cap = 0
      · exact Or.inl hc
      · right; rw [← k1]; exact hw.owns.unique i k (Ne.symm hk) hc k2

theorem upd_self (v : Nat → List T) (i : Nat) : upd v i (v i) = v := by
  funext k; unfold upd; split <;> simp_all

/-- What every call guarantees. -/
def StepV (enc : T → List β) (sz : Nat) (w : World (Cell β)) (a : Bool) (v v' : Nat → List T)
    (r : Option (Bool × World (Cell β))) : Prop :=
  ∃ ok w', r = some (ok, w') ∧ (ok = false → a = false ∧ w' = w) ∧ WV enc sz w' (if ok then v' else v)

theorem stepV_of {w : World (Cell β)} {v : Nat → List T} {i : Nat} {a : Bool} {xs : List T}
    {r : Option (Bool × Heap (Cell β) × Obj)} (hw : WV enc sz w v)
    (hr : ∃ ok h' o', r = some (ok, h', o') ∧ (ok = false → h' = w.heap ∧ o' = w.obj i ∧ a = false) ∧
      Eff w.heap (w.obj i) h' o' ∧ VRep enc sz h' o' (if ok then xs else v i)) :
    StepV enc sz w a v (upd v i xs) (w.put i r) := by
  obtain ⟨ok, h', o', h1, h2, h3, h4⟩ := hr
  refine ⟨ok, ⟨h', fun k => if k = i then o' else w.obj k⟩, by rw [h1]; rfl, ?_, ?_⟩
  · intro hf
    obtain ⟨k1, k2, k3⟩ := h2 hf
    refine ⟨k3, ?_⟩
    cases w
    simp only at k1 k2 ⊢
    rw [k1]
    congr 1
    funext k
    split
    · rename_i hk; rw [k2, hk]
    · rfl
  · have := lift_v hw h3 h4
    cases ok with
    | true => exact this
    | false => simp only [Bool.false_eq_true, if_false] at this ⊢; rw [upd_self] at this; exact this

/-- **C22** one operation, within its contract: it is never undefined; it completes with the list
result, or throws `bad_alloc` (only if the allocator failed) and changes nothing. -/
theorem vector_step (henc : ∀ t, (enc t).length = sz) (hsz : 0 < sz) (hr : RotateOK rot)
    (w : World (Cell β)) (v : Nat → List T) (op : Op T) (a : Bool) (hw : WV enc sz w v) (hp : Pre sz op v) :
    StepV enc sz w a v (op.apply v) (step enc sz rot w op a) := by
  cases op with
  | reserve i n =>
    rw [show (Op.reserve i n).apply v = upd v i (v i) from (upd_self v i).symm]
    apply stepV_of hw
    obtain ⟨ok, h', o', e1, e2, e3, e4, _⟩ := reserve_v henc (n * sz) false a hw.hok (hw.rep i) hp
    exact ⟨ok, h', o', e1, e2, e3, by rw [ite_self]; exact e4⟩
  | append i xs =>
    apply stepV_of hw
    obtain ⟨ok, h', o', e1, e2, e3, e4, _⟩ := append_v henc hsz a hw.hok (hw.rep i) (ys := xs) hp
    exact ⟨ok, h', o', e1, e2, e3, e4⟩
  | popBack i =>
    apply stepV_of hw
    obtain ⟨h', o', e1, e2, e3, _⟩ := pop_v henc hw.hok (hw.rep i) hp
    exact ⟨true, h', o', by rw [e1]; rfl, by simp, e2, e3⟩
  | resize i n x =>
    apply stepV_of hw
    obtain ⟨ok, h', o', e1, e2, e3, e4, _⟩ := resize_v henc hsz n x a hw.hok (hw.rep i) hp
    exact ⟨ok, h', o', e1, e2, e3, e4⟩
  | insert i ip xs =>
    apply stepV_of hw
    obtain ⟨ok, h', o', e1, e2, e3, e4, _⟩ := insert_v hr henc hsz ip a hw.hok (hw.rep i) (ys := xs) hp.1 hp.2
    exact ⟨ok, h', o', e1, e2, e3, e4⟩
  | erase i ep n =>
    apply stepV_of hw
    obtain ⟨ok, h', o', e1, e2, e3, e4, _⟩ := erase_v hr henc ep n a hw.hok (hw.rep i) hp.1
    exact ⟨ok, h', o', e1, e2, e3, e4⟩
  | assign i xs d =>
    apply stepV_of hw
    obtain ⟨ok, h', o', e1, e2, e3, e4, _⟩ := assign_v henc hsz d a hw.hok (hw.rep i) (ys := xs) hp
    exact ⟨ok, h', o', e1, e2, e3, e4⟩
  | clear i =>
    apply stepV_of hw
    obtain ⟨h', o', e1, e2, e3, _⟩ := clear_v (xs := v i) henc a hw.hok (hw.rep i)
    exact ⟨true, h', o', e1, by simp, e2, e3⟩
  | set i k x =>
    apply stepV_of hw
    obtain ⟨h', e1, e2, e3⟩ := set_v henc k x hw.hok (hw.rep i) hp
    exact ⟨true, h', w.obj i, by rw [e1]; rfl, by simp, e2, e3⟩
  | swap i j =>
    refine ⟨true, _, rfl, by simp, ?_⟩
    simp only [if_true, Op.apply]
    let σ : Nat → Nat := fun k => if k = j then i else if k = i then j else k
    have hσ : ∀ k, ((w.setObj i (w.obj j)).setObj j (w.obj i)).obj k = w.obj (σ k) := by
      intro k
      simp only [World.setObj, σ]
      split
      · rfl
      · split <;> rfl
    have hinj : ∀ k l, k ≠ l → σ k ≠ σ l := by
      intro k l hkl
      simp only [σ]
      split <;> split <;> (try split) <;> (try split) <;> omega
    refine ⟨hw.hok, ⟨?_, ?_, ?_⟩, ?_, ?_⟩
    · intro k; rw [hσ]; exact hw.owns.owned (σ k)
    · intro k; rw [hσ]; exact hw.owns.linked (σ k)
    · intro k l hkl; rw [hσ, hσ]; exact hw.owns.unique _ _ (hinj k l hkl)
    · intro k
      simp only [World.setObj, upd]
      split
      · exact hw.rep i
      · split
        · exact hw.rep j
        · exact hw.rep k
    · intro id b h1 h2
      obtain ⟨k, h3⟩ := hw.noleak id b h1 h2
      by_cases hk : k = i
      · subst hk; exact ⟨j, by simpa [World.setObj] using h3⟩
      · by_cases hk2 : k = j
        · subst hk2
          refine ⟨i, ?_⟩
          simp only [World.setObj]
          rw [if_neg (Ne.symm hk)]; simpa using h3
        · refine ⟨k, ?_⟩
          simp only [World.setObj]
          rw [if_neg hk2, if_neg hk]; exact h3
  | shrinkToFit i =>
    rw [show (Op.shrinkToFit i).apply v = upd v i (v i) from (upd_self v i).symm]
    apply stepV_of hw
    obtain ⟨ok, h', o', e1, e2, e3, e4⟩ := shrink_v henc hsz a hw.hok (hw.rep i)
    exact ⟨ok, h', o', e1, e2, e3, by rw [ite_self]; exact e4⟩
  | destruct i =>
    apply stepV_of hw
    obtain ⟨h', e1, e2⟩ := destruct_v henc hw.hok (hw.rep i)
    exact ⟨true, h', Obj.empty, by rw [e1]; rfl, by simp, e2, Or.inl ⟨rfl, rfl⟩⟩

theorem init_wv {w : World (Cell β)} (hi : Initial w) : WV enc sz w (fun _ => ([] : List T)) := by
  obtain ⟨h1, h2⟩ := Memblock.Initial.ok hi
  refine ⟨h1, h2, fun i => Or.inl ⟨hi.1 i, rfl⟩, ?_⟩
  intro id b h3 h4
  rw [hi.2.2 id b h3] at h4; cases h4

theorem hist_wv (henc : ∀ t, (enc t).length = sz) (hsz : 0 < sz) (hr : RotateOK rot)
    {w0 w : World (Cell β)} {ops : List (Op T × Bool)} {v : Nat → List T} (hi : Initial w0)
    (hh : Hist enc sz rot w0 ops w v) : WV enc sz w v := by
  induction hh with
  | nil => exact init_wv hi
  | @ok w1 w2 ops op a v hh hp hs ih =>
    obtain ⟨ok', w', g1, _, g3⟩ := vector_step henc hsz hr w1 v op a ih hp
    rw [hs] at g1
    cases g1
    exact g3
  | @threw w1 w2 ops op a v hh hp hs ih =>
    obtain ⟨ok', w', g1, _, g3⟩ := vector_step henc hsz hr w1 v op a ih hp
    rw [hs] at g1
    cases g1
    exact g3

theorem WV.shows {w : World (Cell β)} {v : Nat → List T} (henc : ∀ t, (enc t).length = sz) (hsz : 0 < sz)
    (hw : WV enc sz w v) (i : Nat) : Shows enc sz w i (v i) := by
  refine ⟨by rw [(hw.rep i).size]; exact Nat.mul_div_cancel _ hsz, ?_, fun k hk => get_v henc (hw.rep i) k hk⟩
  rcases hw.rep i with ⟨h1, h2⟩ | ⟨id, k1, k2, k3, k4, k5⟩
  · rw [h1]; exact Nat.le_refl _
  · exact k4

/-- **C22 (partial)** after any history of vector operations, over any number of vectors, with any pattern of
allocation failures, for any element type of any size: every vector shows exactly the list that the
completed calls give (`size()`, `operator[]`, `front`, `back`), and `size() <= capacity()`. Missing:
allocations over `2^31` bytes (`Ustl.Memblock.reserve_wraps_violated`), arguments that refer into the vector
itself (`push_back_alias_violated`, `insert_alias_violated`), linked vectors. -/
theorem vector_history_partial (henc : ∀ t, (enc t).length = sz) (hsz : 0 < sz) (hr : RotateOK rot)
    {w0 w : World (Cell β)} {ops : List (Op T × Bool)} {v : Nat → List T} (hi : Initial w0)
    (hh : Hist enc sz rot w0 ops w v) (i : Nat) : Shows enc sz w i (v i) :=
  (hist_wv henc hsz hr hi hh).shows henc hsz i

/-- **C22 (partial)** progress: after any history, a further call within its contract is never undefined:
every slot is raw when an element is constructed in it and live when it is assigned to or destroyed, no
memory holding live elements is freed, nothing outside the vectors' own blocks is touched. It throws only if
the allocator failed, and then changes nothing. Missing: as for `vector_history_partial`. -/
theorem vector_no_ub_partial (henc : ∀ t, (enc t).length = sz) (hsz : 0 < sz) (hr : RotateOK rot)
    {w0 w : World (Cell β)} {ops : List (Op T × Bool)} {v : Nat → List T} (hi : Initial w0)
    (hh : Hist enc sz rot w0 ops w v) (op : Op T) (a : Bool) (hp : Pre sz op v) :
    ∃ ok w', step enc sz rot w op a = some (ok, w') ∧ (ok = false → a = false ∧ w' = w) := by
  obtain ⟨ok, w', g1, g2, _⟩ := vector_step henc hsz hr w v op a (hist_wv henc hsz hr hi hh) hp
  exact ⟨ok, w', g1, g2⟩

/-- **C22** no element leaks: after any history, every live cell lies in the block of some vector, inside its
`size()`. -/
theorem vector_no_leak (henc : ∀ t, (enc t).length = sz) (hsz : 0 < sz) (hr : RotateOK rot)
    {w0 w : World (Cell β)} {ops : List (Op T × Bool)} {v : Nat → List T} (hi : Initial w0)
    (hh : Hist enc sz rot w0 ops w v) (id : Nat) (bytes : List (Cell β))
    (hb : w.heap.blk id = some ⟨true, bytes⟩) (k : Nat) (x : β) (hk : bytes[k]? = some (.live x)) :
    ∃ i, (w.obj i).ptr = some (id, 0) ∧ k < (w.obj i).size := by
  have hw := hist_wv henc hsz hr hi hh
  obtain ⟨i, h1, h2⟩ := hw.noleak id _ hb rfl
  refine ⟨i, h2, ?_⟩
  rcases hw.rep i with ⟨h3, _⟩ | ⟨id', k1, k2, k3, k4, k5⟩
  · rw [h3] at h1; exact absurd rfl h1
  · rw [h2] at k1; cases k1
    rw [hb] at k5; cases k5
    rcases Nat.lt_or_ge k (w.obj i).size with h4 | h4
    · exact h4
    · exfalso
      rw [List.getElem?_append_right (by rw [lv_length henc]; omega), List.getElem?_replicate] at hk
      split at hk <;> cases hk

/-- The vector an operation works on, for the operations that never give memory back. -/
def Op.target : Op T → Option Nat
  | .reserve i _ | .append i _ | .popBack i | .resize i _ _ | .insert i _ _ | .erase i _ _ | .assign i _ _
  | .clear i | .set i _ _ => some i
  | .swap _ _ | .shrinkToFit _ | .destruct _ => none

/-- **C22** capacity never decreases, except by `shrink_to_fit`, `swap` and destruction. -/
theorem vector_capacity_mono (henc : ∀ t, (enc t).length = sz) (hsz : 0 < sz) (hr : RotateOK rot)
    {w0 w w' : World (Cell β)} {ops : List (Op T × Bool)} {v : Nat → List T} (hi : Initial w0)
    (hh : Hist enc sz rot w0 ops w v) (op : Op T) (a ok : Bool) (hp : Pre sz op v) (ht : op.target.isSome)
    (hs : step enc sz rot w op a = some (ok, w')) (k : Nat) : (w.obj k).cap ≤ (w'.obj k).cap := by
  have hw := hist_wv henc hsz hr hi hh
  have fin : ∀ {i : Nat} {r : Option (Bool × Heap (Cell β) × Obj)}, w.put i r = some (ok, w') →
      (∃ ok h' o', r = some (ok, h', o') ∧ (w.obj i).cap ≤ o'.cap) → (w.obj k).cap ≤ (w'.obj k).cap := by
    rintro i r hput ⟨ok1, h', o', h1, h2⟩
    rw [h1] at hput
    cases hput
    simp only
    split
    · rename_i h; subst h; exact h2
    · exact Nat.le_refl _
  cases op with
  | reserve i n =>
    obtain ⟨ok, h', o', e1, e2, e3, e4, e5, _⟩ := reserve_v henc (n * sz) false a hw.hok (hw.rep i) hp
    exact fin hs ⟨ok, h', o', e1, e5⟩
  | append i xs =>
    obtain ⟨ok, h', o', e1, e2, e3, e4, e5⟩ := append_v henc hsz a hw.hok (hw.rep i) (ys := xs) hp
    exact fin hs ⟨ok, h', o', e1, e5⟩
  | popBack i =>
    obtain ⟨h', o', e1, e2, e3, e4⟩ := pop_v henc hw.hok (hw.rep i) hp
    exact fin hs ⟨true, h', o', by rw [e1]; rfl, Nat.le_of_eq e4.symm⟩
  | resize i n x =>
    obtain ⟨ok, h', o', e1, e2, e3, e4, e5⟩ := resize_v henc hsz n x a hw.hok (hw.rep i) hp
    exact fin hs ⟨ok, h', o', e1, e5⟩
  | insert i ip xs =>
    obtain ⟨ok, h', o', e1, e2, e3, e4, e5⟩ := insert_v hr henc hsz ip a hw.hok (hw.rep i) (ys := xs) hp.1 hp.2
    exact fin hs ⟨ok, h', o', e1, e5⟩
  | erase i ep n =>
    obtain ⟨ok, h', o', e1, e2, e3, e4, e5⟩ := erase_v hr henc ep n a hw.hok (hw.rep i) hp.1
    exact fin hs ⟨ok, h', o', e1, e5⟩
  | assign i xs d =>
    obtain ⟨ok, h', o', e1, e2, e3, e4, e5⟩ := assign_v henc hsz d a hw.hok (hw.rep i) (ys := xs) hp
    exact fin hs ⟨ok, h', o', e1, e5⟩
  | clear i =>
    obtain ⟨h', o', e1, e2, e3, e4⟩ := clear_v (xs := v i) henc a hw.hok (hw.rep i)
    exact fin hs ⟨true, h', o', e1, Nat.le_of_eq e4.symm⟩
  | set i k x =>
    obtain ⟨h', e1, e2, e3⟩ := set_v henc k x hw.hok (hw.rep i) hp
    exact fin hs ⟨true, h', w.obj i, by rw [e1]; rfl, Nat.le_refl _⟩
  | swap i j => cases ht
  | shrinkToFit i => cases ht
  | destruct i => cases ht

/-- **C22** `push_back` of elements that fit the capacity does not move the vector's storage (so
`reserve (n)` keeps iterators valid up to `n` elements). -/
theorem append_stable {h : Heap (Cell β)} {o : Obj} {ys : List T} (a : Bool)
    (hfit : o.size + ys.length * sz ≤ o.cap) {ok : Bool} {h' : Heap (Cell β)} {o' : Obj}
    (hs : append enc sz h o ys a = some (ok, h', o')) : ok = true ∧ o'.ptr = o.ptr ∧ o'.cap = o.cap := by
  unfold append appendHole at hs
  rw [reserve_noop 0 (o.size + ys.length * sz) _ _ hfit] at hs
  simp only at hs
  split at hs
  · cases hs
  · cases hs; exact ⟨rfl, rfl, rfl⟩

/-! ### Disagreements -/

/-- A heap with one malloc'ed block (number 0). -/
def oneBlock (bytes : List (Cell β)) : Heap (Cell β) := ⟨fun k => if k = 0 then some ⟨true, bytes⟩ else none, 1⟩

/-- **C22 violated** `v.push_back (v[0])` on a full vector: `append_hole` reallocates, and the argument is then
read from the freed block. Here the elements are single bytes. -/
theorem push_back_alias_violated (x : β) :
    pushBackRef 1 (oneBlock [.live x]) ⟨some (0, 0), 1, 1⟩ 0 true = none := rfl

/-- The rotation of the examples. -/
def crot (l : List (Cell β)) (f m t : Nat) : Option (List (Cell β)) :=
  some (l.take f ++ (l.drop m).take (t - m) ++ (l.drop f).take (m - f) ++ l.drop t)

theorem crot_ok : RotateOK (crot (β := β)) := by
  intro pre a b post
  simp only [crot]
  have e1 : (pre ++ a ++ b ++ post).take pre.length = pre := by simp
  have e2 : (pre ++ a ++ b ++ post).drop (pre.length + a.length) = b ++ post := by
    rw [List.append_assoc (pre ++ a), ← List.length_append, List.drop_left]
  have e3 : (pre ++ a ++ b ++ post).drop pre.length = a ++ (b ++ post) := by
    rw [List.append_assoc, List.append_assoc, List.drop_left]
  have e4 : (pre ++ a ++ b ++ post).drop (pre.length + a.length + b.length) = post := by
    rw [← List.length_append, ← List.length_append, List.drop_left]
  rw [e1, e2, e3, e4, Nat.add_sub_cancel_left, Nat.add_sub_cancel_left]
  simp

/-- **C22 violated** `v.insert (v.begin(), v[1])` with enough capacity: by the time the argument is read the
elements have moved up, so `[1, 2]` becomes `[1, 1, 2]` instead of `[2, 1, 2]`. -/
theorem insert_alias_violated : ∃ h o, insertRef 1 crot (oneBlock [.live 1, .live 2, .raw, .raw]) ⟨some (0, 0), 2, 4⟩ 0 1 true =
      some (true, h, o) ∧ view h o = [.live 1, .live 1, .live 2] := ⟨_, _, rfl, rfl⟩

/-! ### Examples -/

/-- Two-byte elements. -/
def enc2 (t : Nat) : List Nat := [t % 256, t / 256]

/-- A program without foreign memory. -/
def w0 : World (Cell Nat) := ⟨⟨fun _ => none, 0⟩, fun _ => Obj.empty⟩

theorem w0_initial : Initial w0 := ⟨fun _ => rfl, fun _ _ => rfl, fun _ _ h => nomatch h⟩

instance (op : Op T) (v : Nat → List T) : Decidable (Pre sz op v) := by
  cases op <;> simp only [Pre] <;> infer_instance

/-- Run a program of calls with the allocator's answers. -/
def run (enc : T → List β) (sz : Nat) (rot : List (Cell β) → Nat → Nat → Nat → Option (List (Cell β))) :
    List (Op T × Bool) → World (Cell β) → (Nat → List T) → Option (List (Op T × Bool) × World (Cell β) × (Nat → List T))
  | [], w, v => some ([], w, v)
  | (op, a) :: ops, w, v =>
    if Pre sz op v then
      match step enc sz rot w op a with
      | none => none
      | some (ok, w1) =>
        match run enc sz rot ops w1 (if ok then op.apply v else v) with
        | none => none
        | some (tr, r) => some ((op, ok) :: tr, r)
    else none

theorem hist_of_run (ops : List (Op T × Bool)) : ∀ {w w' : World (Cell β)} {v v' : Nat → List T} {tr : List (Op T × Bool)}
    {w0 : World (Cell β)} {tr0 : List (Op T × Bool)}, Hist enc sz rot w0 tr0 w v →
    run enc sz rot ops w v = some (tr, w', v') → Hist enc sz rot w0 (tr0 ++ tr) w' v' := by
  induction ops with
  | nil => intro w w' v v' tr w0 tr0 h hr; cases hr; simpa using h
  | cons x ops ih =>
    intro w w' v v' tr w0 tr0 h hr
    obtain ⟨op, a⟩ := x
    simp only [run] at hr
    split at hr
    · rename_i hp
      split at hr
      · cases hr
      · rename_i ok w1 hs
        split at hr
        · cases hr
        · rename_i tr1 r1 h1
          cases hr
          cases ok with
          | true =>
            have := ih (Hist.ok h hp hs) h1
            rw [List.append_assoc] at this; exact this
          | false =>
            have := ih (Hist.threw h hp hs) h1
            rw [List.append_assoc] at this; exact this
    · cases hr

/-- The example program: grow, insert, erase, a failed allocation, assign, swap, pop, shrink, destroy. -/
def prog : List (Op Nat × Bool) :=
  [(.append 0 [5], true), (.insert 0 0 [7, 8], true), (.erase 0 1 1, true), (.append 0 [9], true),
   (.append 1 [1, 2, 3], false), (.assign 1 [300] 0, true), (.swap 0 1, true), (.popBack 1, true),
   (.shrinkToFit 1, true), (.destruct 0, true)]

example : ∃ tr w v, Hist enc2 2 crot w0 tr w v ∧ tr.map (·.2) = [true, true, true, true, false, true, true, true, true, true] ∧
    v 1 = [7, 5] ∧ v 0 = [] ∧ (w.obj 1).cap = 4 ∧ getElem 2 w.heap (w.obj 1) 1 = some [.live 5, .live 0] := by
  set_option synthInstance.maxSize 1000 in
  have key : (run enc2 2 crot prog w0 (fun _ => [])).map (fun r => (r.1.map (·.2), r.2.2 1, r.2.2 0, (r.2.1.obj 1).cap,
      getElem 2 r.2.1.heap (r.2.1.obj 1) 1)) = some ([true, true, true, true, false, true, true, true, true, true],
      [7, 5], [], 4, some [.live 5, .live 0]) := by decide +kernel
  cases hr : run enc2 2 crot prog w0 (fun _ => []) with
  | none => rw [hr] at key; cases key
  | some r =>
    obtain ⟨tr, w, v⟩ := r
    rw [hr] at key
    simp only [Option.map_some, Option.some.injEq, Prod.mk.injEq] at key
    exact ⟨tr, w, v, hist_of_run prog (Hist.nil w0) hr, key⟩

end Ustl.Vector
