import Verif.Str.Lemmas
import Verif.Vector.Props
/-!
# C23, C24: strings behave like character sequences and are always NUL-terminated

`Spec.lean` holds the specification: `Op.apply` (the effect of a call on the character sequences), `Pre` (the
contract), `Hist` (histories) and `Shows` (what a user sees).
-/
namespace Ustl.Str
open Ustl.Memblock

variable {lit : Nat × Nat} {rot : List Byte → Nat → Nat → Nat → Option (List Byte)}

/-- The state of a program whose strings hold `v`. -/
structure WS (lit : Nat × Nat) (w : World Byte) (v : Nat → Option (List Byte)) : Prop where
  hok : HOK w.heap
  owns : Owns w
  rep : ∀ i s, v i = some s → SRep w.heap (w.obj i) s
  gone : ∀ i, v i = none → w.obj i = Obj.empty
  noleak : NoLeak w
  lit : HasLit lit w.heap

theorem ld_congr {h h' : Heap Byte} {p : Option (Nat × Nat)} {n : Nat} {xs : List Byte} (hl : ld h p n = some xs)
    (hk : ∀ q b, p = some q → h.blk q.1 = some b → h'.blk q.1 = some b) : ld h' p n = some xs := by
  unfold ld at hl ⊢
  split
  · rename_i h0; rw [if_pos h0] at hl; exact hl
  · rename_i h0
    rw [if_neg h0] at hl
    cases p with
    | none => exact hl
    | some p =>
      simp only at hl ⊢
      cases hb : h.blk p.1 with
      | none => rw [hb] at hl; cases hl
      | some b => rw [hk p b rfl hb]; rw [hb] at hl; exact hl

theorem CString.keep {h h' : Heap Byte} {p : Nat × Nat} {n : Nat} (c : CString h p n)
    (hk : ∀ id b, h.blk id = some b → b.heap = false → h'.blk id = some b) : CString h' p n := by
  obtain ⟨b, h1, h2, h3⟩ := c
  exact ⟨b, hk _ b h1 h2, h2, h3⟩

/-- The blocks of other strings survive an operation on string `i`. -/
theorem other_keep {w : World Byte} {v : Nat → Option (List Byte)} {i k : Nat} {h' : Heap Byte} {o' : Obj} {s : List Byte}
    (hw : WS lit w v) (e : Eff w.heap (w.obj i) h' o') (hki : k ≠ i) (hk : v k = some s) (q : Nat × Nat) (b : Blk Byte)
    (hq : (w.obj k).ptr = some q) (hb : w.heap.blk q.1 = some b) : h'.blk q.1 = some b := by
  have r := hw.rep k s hk
  obtain ⟨_, _, _, _, g5⟩ := lift hw.hok hw.owns e.toEff0
  by_cases hc : (w.obj k).cap = 0
  · rcases r.ook.linked hc with ⟨h1, _⟩ | ⟨p, h1, b', h2, h3, _⟩
    · rw [h1] at hq; cases hq
    · rw [h1] at hq; cases hq
      rw [h2] at hb; cases hb
      exact g5 _ _ h2 h3
  · obtain ⟨id, b', h1, h2, h3, _⟩ := r.ook.owned hc
    rw [h1] at hq; cases hq
    rw [e.keep id (hw.hok.lt h2), hb]
    by_cases hci : (w.obj i).cap = 0
    · exact Or.inl hci
    · right; rw [← h1]; exact hw.owns.unique i k (Ne.symm hki) hci hc

theorem lift_s {w : World Byte} {v : Nat → Option (List Byte)} {i : Nat} {h' : Heap Byte} {o' : Obj}
    {x : Option (List Byte)} (hw : WS lit w v) (e : Eff w.heap (w.obj i) h' o')
    (hv : ∀ s, x = some s → SRep h' o' s) (hn : x = none → o' = Obj.empty) :
    WS lit ⟨h', fun k => if k = i then o' else w.obj k⟩ (upd v i x) := by
  obtain ⟨g1, g2, _, _, g5⟩ := lift hw.hok hw.owns e.toEff0
  refine ⟨g1, g2, ?_, ?_, noLeak_put (ok := true) hw.noleak e rfl, hw.lit.keep g5⟩
  · intro k s hk
    by_cases hki : k = i
    · subst hki
      simp only [upd, if_pos] at hk ⊢
      exact hv s hk
    · simp only [upd, if_neg hki] at hk ⊢
      have r := hw.rep k s hk
      have hook : OOK h' (w.obj k) := by
        have := g2.ook k
        simpa only [if_neg hki] using this
      exact ⟨hook, r.size, ld_congr r.read (other_keep hw e hki hk)⟩
  · intro k hk
    by_cases hki : k = i
    · subst hki
      simp only [upd, if_pos] at hk ⊢
      exact hn hk
    · simp only [upd, if_neg hki] at hk ⊢
      exact hw.gone k hk

/-- The characters of another string can still be read after an operation on string `i`. -/
theorem other_read {w : World Byte} {v : Nat → Option (List Byte)} {i j : Nat} {h' : Heap Byte} {o' : Obj} {t : List Byte}
    (hw : WS lit w v) (e : Eff w.heap (w.obj i) h' o') (hij : j ≠ i) (hj : v j = some t) {pos n : Nat}
    (hn : pos + n < 2 ^ 64) :
    ld h' (adv (w.obj j).ptr (iat (w.obj j) pos)) ((t.drop pos).take n).length = some ((t.drop pos).take n) := by
  have r := hw.rep j t hj
  have h1 := read_range r.size hn (ld_congr r.chars (other_keep hw e hij hj))
  rwa [(range_eq r.size hn).2.2.1] at h1

/-- The characters of a linked string can still be read after an operation on it. -/
theorem linked_read {w : World Byte} {v : Nat → Option (List Byte)} {i : Nat} {h' : Heap Byte} {o' : Obj} {t : List Byte}
    (hw : WS lit w v) (e : Eff w.heap (w.obj i) h' o') (hc : (w.obj i).cap = 0) (hi : v i = some t) {pos n : Nat}
    (hn : pos + n < 2 ^ 64) :
    ld h' (adv (w.obj i).ptr (iat (w.obj i) pos)) ((t.drop pos).take n).length = some ((t.drop pos).take n) := by
  have r := hw.rep i t hi
  obtain ⟨_, _, _, _, g5⟩ := lift hw.hok hw.owns e.toEff0
  have hk : ∀ q b, (w.obj i).ptr = some q → w.heap.blk q.1 = some b → h'.blk q.1 = some b := by
    intro q b hq hb
    rcases r.ook.linked hc with ⟨h1, _⟩ | ⟨p, h1, b', h2, h3, _⟩
    · rw [h1] at hq; cases hq
    · rw [h1] at hq; cases hq
      rw [h2] at hb; cases hb
      exact g5 _ _ h2 h3
  have h1 := read_range r.size hn (ld_congr r.chars hk)
  rwa [(range_eq r.size hn).2.2.1] at h1

theorem Done.eff {h : Heap Byte} {o : Obj} {a : Option (Nat → Byte)} {r : Res} {P : Heap Byte → Obj → Prop}
    (d : Done h o a r P) {h1 : Heap Byte} {o1 : Obj} (hr : r = some (true, h1, o1)) : Eff h o h1 o1 := by
  rcases d with ⟨_, d⟩ | ⟨h', o', d1, d2, _⟩
  · rw [d] at hr; cases hr
  · rw [d1] at hr; cases hr; exact d2

/-- The characters of an owned string can still be read after it was resized to `m` within its capacity, if its new
terminator is outside the range. -/
theorem owned_read {h : Heap Byte} {o : Obj} {t : List Byte} {m : Nat} (a : Option (Nat → Byte)) (hh : HOK h) (r : SRep h o t)
    (hc : o.cap ≠ 0) (hm : m + 1 ≤ o.cap) {pos n : Nat} (hn : pos + n < 2 ^ 64)
    (hd : pos + ((t.drop pos).take n).length ≤ m ∨ m < pos)
    {h1 : Heap Byte} {o1 : Obj} (hr : resize lit h o m a = some (true, h1, o1)) :
    ld h1 (adv o.ptr (iat o pos)) ((t.drop pos).take n).length = some ((t.drop pos).take n) := by
  obtain ⟨id, bs, own, g1, g2⟩ := r.own hc
  obtain ⟨e1, e2, e3, e4⟩ := range_eq (s := o) r.size hn
  have hb := resize_inplace a hh own hm hr
  have hcl := own.len
  have hsz := r.size
  by_cases h0 : ((t.drop pos).take n).length = 0
  · rw [h0]
    simp [ld, List.length_eq_zero_iff.1 h0]
  · have hp : iat o pos = pos := by
      simp only [List.length_take, List.length_drop] at h0
      unfold iat; omega
    rw [hp] at e3 e4 ⊢
    rw [e3] at e4
    have hle : pos + ((t.drop pos).take n).length ≤ t.length := by omega
    rw [own.ptr]
    show ld h1 (some (id, 0 + pos)) _ = _
    rw [Nat.zero_add, ld_blk hb (by rw [patch_length (by simp; omega)]; omega),
      patch_range (by simp; omega) (by simp only [List.length_singleton]; omega)]
    have ht : bs.take t.length = t := by
      have := congrArg (List.take t.length) g1
      simpa [List.take_take] using this
    rw [show (bs.drop pos).take ((t.drop pos).take n).length = ((bs.take t.length).drop pos).take ((t.drop pos).take n).length by
      rw [List.drop_take, List.take_take, Nat.min_eq_left (by omega)], ht, e4]

theorem upd_self (v : Nat → Option (List Byte)) (i : Nat) : upd v i (v i) = v := by
  funext k; unfold upd; split <;> simp_all

/-- What every call guarantees. -/
def StepS (lit : Nat × Nat) (w : World Byte) (a : Option (Nat → Byte)) (v : Nat → Option (List Byte))
    (f : World Byte → Nat → Option (List Byte)) (r : Option (Bool × World Byte)) : Prop :=
  (a = none ∧ r = some (false, w)) ∨ ∃ w', r = some (true, w') ∧ WS lit w' (f w')

theorem put_same (w : World Byte) (i : Nat) (ok : Bool) : w.put i (some (ok, w.heap, w.obj i)) = some (ok, w) := by
  cases w
  simp only [World.put, Option.some.injEq, Prod.mk.injEq, true_and, World.mk.injEq]
  funext k; split <;> simp_all

theorem stepS_of {w : World Byte} {v : Nat → Option (List Byte)} {i : Nat} {a : Option (Nat → Byte)}
    {r : Res} {f : World Byte → Nat → Option (List Byte)} (hw : WS lit w v)
    (d : Done w.heap (w.obj i) a r fun h' o' => ∃ s, SRep h' o' s ∧
      f ⟨h', fun k => if k = i then o' else w.obj k⟩ = upd v i (some s)) :
    StepS lit w a v f (w.put i r) := by
  rcases d with ⟨d1, d2⟩ | ⟨h', o', d1, d2, s, d3, d4⟩
  · left; exact ⟨d1, by rw [d2]; exact put_same w i false⟩
  · right
    refine ⟨⟨h', fun k => if k = i then o' else w.obj k⟩, by rw [d1]; rfl, ?_⟩
    rw [d4]
    exact lift_s hw d2 (fun t ht => by cases ht; exact d3) (fun h => nomatch h)

theorem edit_eq {v : Nat → Option (List Byte)} {i : Nat} {f : List Byte → List Byte} {s : List Byte}
    (hs : v i = some s) : edit v i f = upd v i (some (f s)) := by
  simp [edit, hs]

theorem empty_ook (h : Heap Byte) : OOK h Obj.empty := ⟨fun hc => absurd rfl hc, fun _ => Or.inl ⟨rfl, rfl⟩⟩

theorem ctor_d {h : Heap Byte} {o : Obj} {a : Option (Nat → Byte)} {s : List Byte} (hh : HOK h) (hc : o.cap = 0)
    (r : SRep h o s) : Done h Obj.empty a (some (true, h, o)) fun h' o' => SRep h' o' s :=
  Or.inr ⟨h, o, rfl, ⟨⟨hh, r.ook, fun _ _ _ => rfl, Nat.le_refl _, fun h => absurd hc h, fun _ _ h _ => h⟩,
    fun _ b h1 h2 => Or.inr ⟨⟨b, h1, h2⟩, fun h => h.1 rfl⟩⟩, r⟩

theorem exact_d {h : Heap Byte} (n : Nat) (a : Option (Nat → Byte)) (hh : HOK h) :
    Done h Obj.empty a (Memblock.resize 0 h Obj.empty (n + 1) true a) fun _ o' => o'.size = n + 1 ∧ n + 1 ≤ o'.cap := by
  obtain ⟨ok, h1, o1, e1, e2, e3, e4⟩ := resize_spec 0 (h := h) (o := Obj.empty) (n + 1) true a hh (empty_ook h) (by simp)
  cases ok with
  | false => left; obtain ⟨rfl, rfl, h3⟩ := e2 rfl; exact ⟨h3, e1⟩
  | true => right; exact ⟨h1, o1, e1, e3, (e4 rfl).2.1, (e4 rfl).2.2.1⟩

theorem shrink_eff {h h1 : Heap Byte} {o o1 : Obj} (e : Eff h o h1 o1) {n : Nat} (hn : n ≤ o1.cap) :
    Eff h o h1 { o1 with size := n } :=
  e.trans (Eff.size e.hok (e.ook.resize (Or.inl hn)))

theorem ctorCopy_s {h : Heap Byte} {o : Obj} {s : List Byte} (a : Option (Nat → Byte)) (hh : HOK h) (r : SRep h o s) :
    Done h Obj.empty a (ctorCopy h o a) fun h' o' => SRep h' o' s := by
  unfold ctorCopy
  split
  · rename_i hc
    have : (⟨o.ptr, o.size, 0⟩ : Obj) = o := by cases o; simp_all
    rw [this]
    exact ctor_d hh hc r
  · rcases exact_d o.size a hh with ⟨d1, d2⟩ | ⟨h1, o1, d1, d2, d3, d4⟩
    · left; rw [d2]; exact ⟨d1, rfl⟩
    · right
      rw [d1]
      simp only
      have hread : ld h1 o.ptr (o.size + 1) = some (s ++ [0]) := by
        rw [r.size]
        refine ld_congr r.read fun q b _ hb => ?_
        rw [d2.keep q.1 (hh.lt hb) (Or.inl rfl), hb]
      rw [hread]
      simp only
      obtain ⟨id, bs, own⟩ := own_of d2.ook (by omega)
      have hl := own.len
      have hsz := r.size
      obtain ⟨h2, k1, k2, k3⟩ := st_own (xs := s ++ [0]) (k := 0) d2.hok own (by simp; omega)
      have : adv o1.ptr 0 = o1.ptr := by rw [own.ptr]; rfl
      rw [this] at k1
      rw [k1]
      refine ⟨h2, _, rfl, shrink_eff (d2.trans k2) (by omega), ?_⟩
      have own' : Own h2 { o1 with size := o.size } id (patch bs 0 (s ++ [0])) :=
        ⟨own.cap, own.ptr, k3.blk, k3.len, by simp; omega⟩
      refine own'.srep hsz ?_
      have := patch_zero (bs := bs) (xs := s ++ [0]) (by simp; omega)
      simpa using this

theorem ctorFill_s {h : Heap Byte} (n : Nat) (c : Byte) (a : Option (Nat → Byte)) (hh : HOK h) :
    Done h Obj.empty a (ctorFill h n c a) fun h' o' => SRep h' o' (List.replicate n c) := by
  unfold ctorFill
  rcases exact_d n a hh with ⟨d1, d2⟩ | ⟨h1, o1, d1, d2, d3, d4⟩
  · left; rw [d2]; exact ⟨d1, rfl⟩
  · rw [d1]
    simp only
    have e := shrink_eff d2 (n := n) (by omega)
    have d : Done h Obj.empty a (some (true, h1, { o1 with size := n })) fun h' o' => h' = h1 ∧ o' = { o1 with size := n } :=
      Or.inr ⟨h1, _, rfl, e, rfl, rfl⟩
    have := term_s (s := List.replicate n c) (k := 0) (xs := List.replicate n c) n (by simp) d ?_ (fun _ => 0) (fun _ => rfl)
    · rcases this with ⟨t1, t2⟩ | ⟨h', o', t1, t2, t3⟩
      · left
        exfalso
        simp only [thenStore] at t2
        split at t2
        · cases t2
        · rename_i heq; split at heq <;> cases heq
        · split at t2 <;> simp at t2
      · right
        have ho : o'.size = n := by simpa using t3.size
        refine ⟨h', o', ?_, t2, t3⟩
        rw [← t1]
        simp only [thenStore]
        cases hs : st h1 (adv o1.ptr 0) (List.replicate n c) <;> simp
    · rintro h' o' ⟨rfl, rfl⟩
      have hv := view_length e.ook
      refine ⟨hv, by simp; omega, rfl, ?_⟩
      rw [List.drop_of_length_le (by rw [hv]; simp)]; simp

/-- **C23, C24** one operation within its contract: never undefined; it completes and every string holds what
`Op.apply` says, or the allocator failed, `bad_alloc` was thrown and nothing changed. -/
theorem string_step (hr : RotateOK rot) (w : World Byte) (v : Nat → Option (List Byte)) (op : Op)
    (a : Option (Nat → Byte)) (hw : WS lit w v) (hp : Pre w op v) :
    StepS lit w a v (fun w' => op.apply (foreign w.heap) (fun i => view w'.heap (w'.obj i)) v)
      (step lit rot w op a) := by
  cases op with
  | ctor i =>
    have hi := hw.gone i hp
    refine stepS_of (r := some (true, w.heap, Str.ctor lit)) (i := i) hw ?_
    rw [hi]
    have hs := hw.lit.srep
    have hf : foreign w.heap lit 0 = [] := List.length_eq_zero_iff.1 hs.size.symm
    rw [hf] at hs
    exact (ctor_d hw.hok rfl hs).mono fun h' o' q => ⟨[], q, rfl⟩
  | ctorPtr i p n =>
    have hi := hw.gone i hp.1
    refine stepS_of (r := some (true, w.heap, Str.ctorPtr p n)) (i := i) hw ?_
    rw [hi]
    exact (ctor_d hw.hok rfl hp.2.srep).mono fun h' o' q => ⟨_, q, rfl⟩
  | ctorCopy i j =>
    have hi := hw.gone i hp.1
    obtain ⟨s, hs⟩ := Option.ne_none_iff_exists'.1 hp.2
    apply stepS_of hw
    rw [hi]
    exact (ctorCopy_s a hw.hok (hw.rep j s hs)).mono fun h' o' q => ⟨s, q, by simp only [Op.apply, hs]⟩
  | ctorFill i n c =>
    have hi := hw.gone i hp
    apply stepS_of hw
    rw [hi]
    exact (ctorFill_s n c a hw.hok).mono fun h' o' q => ⟨_, q, rfl⟩
  | destroy i =>
    obtain ⟨h', e1, e2, _⟩ := deallocate_spec hw.hok (hw.owns.ook i)
    right
    refine ⟨⟨h', fun k => if k = i then Obj.empty else w.obj k⟩, by simp only [step, e1]; rfl, ?_⟩
    exact lift_s hw e2 (fun s h => nomatch h) (fun _ => rfl)
  | resize i n =>
    obtain ⟨s, hs⟩ := Option.ne_none_iff_exists'.1 hp
    have r := hw.rep i s hs
    apply stepS_of hw
    refine (resize_s n a hw.hok r.ook hw.lit).mono ?_
    rintro h' o' ⟨t, ⟨q1, q1'⟩, q2, _⟩
    refine ⟨t, q2, ?_⟩
    simp only [Op.apply]
    rw [edit_eq hs, if_pos trivial, q2.view]
    rw [r.view] at q1'
    rw [← q1', List.take_append_drop]
  | resizeFill i n c =>
    obtain ⟨s, hs⟩ := Option.ne_none_iff_exists'.1 hp
    apply stepS_of hw
    exact (resizeFill_s n c a hw.hok (hw.rep i s hs) hw.lit).mono fun h' o' q => ⟨_, q, edit_eq hs⟩
  | assign i xs =>
    apply stepS_of hw
    exact (assign_s xs a hw.hok (hw.owns.ook i) hw.lit).mono fun h' o' q => ⟨_, q, rfl⟩
  | append i xs =>
    obtain ⟨s, hs⟩ := Option.ne_none_iff_exists'.1 hp
    apply stepS_of hw
    exact (append_s xs a hw.hok (hw.rep i s hs) hw.lit).mono fun h' o' q => ⟨_, q, edit_eq hs⟩
  | popBack i =>
    obtain ⟨s, hs, hne⟩ := hp
    apply stepS_of hw
    exact (popBack_s a hw.hok (hw.rep i s hs) hw.lit hne).mono fun h' o' q => ⟨_, q, edit_eq hs⟩
  | insert i pos xs n =>
    obtain ⟨s, hs, hlim⟩ := hp
    apply stepS_of hw
    exact (insert_s hr pos xs n a hw.hok (hw.rep i s hs) hlim).mono fun h' o' q => ⟨_, q, edit_eq hs⟩
  | erase i pos n =>
    obtain ⟨s, hs, h1, h2⟩ := hp
    apply stepS_of hw
    exact (erasePos_s hr pos n a hw.hok (hw.rep i s hs) h1 h2).mono fun h' o' q => ⟨_, q, edit_eq hs⟩
  | replace i pos len xs n =>
    obtain ⟨s, hs, h1, h2⟩ := hp
    apply stepS_of hw
    exact (replaceAt_s hr pos len xs n a hw.hok (hw.rep i s hs) h1 h2).mono fun h' o' q => ⟨_, q, edit_eq hs⟩
  | set i k c =>
    obtain ⟨s, hs, h1, h2⟩ := hp
    obtain ⟨h', e1, e2, e3⟩ := set_s k c hw.hok (hw.rep i s hs) h1 h2
    apply stepS_of hw
    exact Or.inr ⟨h', w.obj i, by rw [e1]; rfl, e2, _, e3, edit_eq hs⟩
  | reserve i n =>
    obtain ⟨s, hs, h1, h2⟩ := hp
    apply stepS_of hw
    exact (reserve_s n a hw.hok (hw.rep i s hs) h1 h2).mono fun h' o' q =>
      ⟨s, q, by rw [← hs]; exact (upd_self v i).symm⟩
  | copyLink i =>
    obtain ⟨s, hs, h1⟩ := hp
    have r := hw.rep i s hs
    apply stepS_of hw
    rw [show (w.obj i).size = s.length from r.size]
    exact (reserve_s s.length a hw.hok r h1 (fun _ => Nat.le_refl _)).mono fun h' o' q =>
      ⟨s, q, by rw [← hs]; exact (upd_self v i).symm⟩
  | ctorSub i j pos n =>
    obtain ⟨hpi, hpj, hn⟩ := hp
    obtain ⟨t, ht⟩ := Option.ne_none_iff_exists'.1 hpj
    have hi := hw.gone i hpi
    have hij : j ≠ i := by rintro rfl; exact hpj hpi
    have e := assignSub_eq (lit := lit) (h := w.heap) (o := w.obj i) (s := w.obj j) (a := a) (hw.rep j t ht).size hn
      (fun h1 o1 hr1 => other_read hw ((resize_s _ a hw.hok (hw.owns.ook i) hw.lit).eff hr1) hij ht hn)
    have d := assign_s (lit := lit) ((t.drop pos).take n) a hw.hok (hw.owns.ook i) hw.lit
    rw [← e] at d
    simp only [step]
    rw [← hi]
    apply stepS_of hw
    exact d.mono fun h' o' q => ⟨_, q, by simp only [Op.apply, ht, Option.map_some]⟩
  | assignSub i j pos n =>
    obtain ⟨hpi, hn, t, ht, hself⟩ := hp
    obtain ⟨s, hs⟩ := Option.ne_none_iff_exists'.1 hpi
    have e := assignSub_eq (lit := lit) (h := w.heap) (o := w.obj i) (s := w.obj j) (a := a) (hw.rep j t ht).size hn
      (fun h1 o1 hr1 => by
        have he := (resize_s _ a hw.hok (hw.owns.ook i) hw.lit).eff hr1
        by_cases hij : j = i
        · subst hij
          have r := hw.rep j t ht
          by_cases hc : (w.obj j).cap = 0
          · exact linked_read hw he hc ht hn
          · obtain ⟨id, bs, own, g1, g2⟩ := r.own hc
            have hl := own.len
            have hlen : ((t.drop pos).take n).length ≤ t.length := by simp; omega
            refine owned_read a hw.hok r hc (by omega) hn ?_ hr1
            rcases hself rfl with h2 | h2 | h2
            · exact absurd h2 hc
            · left; omega
            · right; exact h2
        · exact other_read hw he hij ht hn)
    have d := assign_s (lit := lit) ((t.drop pos).take n) a hw.hok (hw.owns.ook i) hw.lit
    rw [← e] at d
    apply stepS_of hw
    exact d.mono fun h' o' q => ⟨_, q, by simp only [Op.apply, ht, Option.map_some]⟩
  | appendSub i j pos n =>
    obtain ⟨hpi, hn, t, ht, hself⟩ := hp
    obtain ⟨s, hs⟩ := Option.ne_none_iff_exists'.1 hpi
    have e := appendSub_eq (lit := lit) (h := w.heap) (o := w.obj i) (s := w.obj j) (a := a) (hw.rep j t ht).size hn
      (fun h1 o1 hr1 => by
        have he := (resize_s _ a hw.hok (hw.owns.ook i) hw.lit).eff hr1
        by_cases hij : j = i
        · subst hij
          have r := hw.rep j t ht
          by_cases hc : (w.obj j).cap = 0
          · exact linked_read hw he hc ht hn
          · have hsz := r.size
            refine owned_read a hw.hok r hc ?_ hn ?_ hr1
            · rcases hself rfl with h2 | h2
              · exact absurd h2 hc
              · omega
            · by_cases h0 : pos ≤ t.length
              · left; omega
              · rw [List.drop_of_length_le (by omega)]
                simp; omega
        · exact other_read hw he hij ht hn)
    have d := append_s (lit := lit) ((t.drop pos).take n) a hw.hok (hw.rep i s hs) hw.lit
    rw [← e] at d
    apply stepS_of hw
    exact d.mono fun h' o' q => ⟨_, q, by simp only [Op.apply, ht, Option.getD_some]; exact edit_eq hs⟩
  | insertSub i ip j sp slen =>
    obtain ⟨hij, hn, s, t, hs, ht, hlim⟩ := hp
    have r := hw.rep i s hs
    have hsz := r.size
    have e := insertSub_eq (rot := rot) (h := w.heap) (o := w.obj i) (ip := ip) (s := w.obj j) (a := a) (hw.rep j t ht).size hn
      (fun h1 o1 hr1 => other_read hw ((minsert_d hr _ _ a hw.hok r.ook (by unfold iat; omega) (by omega)).eff hr1)
        (Ne.symm hij) ht hn)
    have d := insert_s hr ip ((t.drop sp).take slen) 1 a hw.hok r (by rw [Nat.mul_one]; exact hlim)
    rw [← e] at d
    apply stepS_of hw
    exact d.mono fun h' o' q => ⟨_, q, by simp only [Op.apply, ht, Option.getD_some]; rw [edit_eq hs]; simp⟩
  | replaceSub i rp len j sp slen =>
    obtain ⟨hij, hn, s, t, hs, ht, hlim, hlink⟩ := hp
    have r := hw.rep i s hs
    have hsz := r.size
    have e := replaceSub_eq (rot := rot) (h := w.heap) (o := w.obj i) (rp := rp) (len := len) (s := w.obj j) (a := a)
      (hw.rep j t ht).size hn (fun h1 o1 hr1 => by
        refine other_read hw ?_ (Ne.symm hij) ht hn (o' := o1)
        have hi1 : iat (w.obj i) (rp + len) ≤ (w.obj i).size := by unfold iat; omega
        have hi2 : iat (w.obj i) rp ≤ iat (w.obj i) (rp + len) := by unfold iat; omega
        split at hr1
        · exact (merase_d hr _ _ a hw.hok r.ook (by omega) (by omega)).eff hr1
        · split at hr1
          · exact (minsert_d hr _ _ a hw.hok r.ook (by omega) (by omega)).eff hr1
          · cases hr1; exact Eff.refl hw.hok r.ook)
    have d := replaceAt_s hr rp len ((t.drop sp).take slen) 1 a hw.hok r (by rw [Nat.mul_one]; exact hlim)
      (by rw [Nat.mul_one]; exact hlink)
    rw [← e] at d
    apply stepS_of hw
    exact d.mono fun h' o' q => ⟨_, q, by simp only [Op.apply, ht, Option.getD_some]; rw [edit_eq hs]; simp⟩
  | swap i j =>
    right
    refine ⟨_, rfl, ?_⟩
    simp only [Op.apply]
    let σ : Nat → Nat := fun k => if k = j then i else if k = i then j else k
    have hσ : ∀ k, ((w.setObj i (w.obj j)).setObj j (w.obj i)).obj k = w.obj (σ k) := by
      intro k
      simp only [World.setObj, σ]
      split
      · rfl
      · split <;> rfl
    have hσv : ∀ k, upd (upd v i (v j)) j (v i) k = v (σ k) := by
      intro k
      simp only [upd, σ]
      split
      · rfl
      · split <;> rfl
    have hinj : ∀ k l, k ≠ l → σ k ≠ σ l := by
      intro k l hkl
      simp only [σ]
      split <;> split <;> (try split) <;> (try split) <;> omega
    have hinv : ∀ k, σ (σ k) = k := by
      intro k
      simp only [σ]
      split
      · split
        · omega
        · simp; omega
      · split
        · simp; omega
        · rfl
    refine ⟨hw.hok, ⟨?_, ?_, ?_⟩, ?_, ?_, ?_, hw.lit⟩
    · intro k; rw [hσ]; exact hw.owns.owned (σ k)
    · intro k; rw [hσ]; exact hw.owns.linked (σ k)
    · intro k l hkl; rw [hσ, hσ]; exact hw.owns.unique _ _ (hinj k l hkl)
    · intro k s hk; rw [hσ]; rw [hσv] at hk; exact hw.rep (σ k) s hk
    · intro k hk; rw [hσ]; rw [hσv] at hk; exact hw.gone (σ k) hk
    · intro id b h1 h2
      obtain ⟨k, h3⟩ := hw.noleak id b h1 h2
      exact ⟨σ k, by rw [hσ, hinv]; exact h3⟩

theorem init_ws {w : World Byte} (hi : Initial lit w) : WS lit w (fun _ => none) := by
  obtain ⟨h1, h2⟩ := Memblock.Initial.ok hi.1
  refine ⟨h1, h2, (fun _ _ h => nomatch h), fun i _ => hi.1.1 i, ?_, hi.2⟩
  intro id b h3 h4
  rw [hi.1.2.2 id b h3] at h4; cases h4

theorem hist_ws (hr : RotateOK rot) {w0 w : World Byte} {ops : List (Op × Bool)} {v : Nat → Option (List Byte)}
    (hi : Initial lit w0) (hh : Hist lit rot w0 ops w v) : WS lit w v := by
  induction hh with
  | nil => exact init_ws hi
  | @ok w1 w2 ops op a v hh hp hs ih =>
    rcases string_step hr w1 v op a ih hp with ⟨_, g⟩ | ⟨w', g1, g2⟩
    · rw [hs] at g; cases g
    · rw [hs] at g1; cases g1; exact g2
  | @threw w1 w2 ops op a v hh hp hs ih =>
    rcases string_step hr w1 v op a ih hp with ⟨_, g⟩ | ⟨w', g1, g2⟩
    · rw [hs] at g; cases g; exact ih
    · rw [hs] at g1; cases g1

theorem ld_one {h : Heap Byte} {p : Option (Nat × Nat)} {xs : List Byte} {n k : Nat} {c : Byte} (hl : ld h p n = some xs)
    (hk : xs[k]? = some c) : ld h (adv p k) 1 = some [c] := by
  have hkl : k < xs.length := by
    rcases Nat.lt_or_ge k xs.length with h1 | h1
    · exact h1
    · rw [List.getElem?_eq_none h1] at hk; cases hk
  unfold ld at hl ⊢
  split at hl
  · cases hl; simp at hkl
  · rw [if_neg (by omega)]
    cases p with
    | none => cases hl
    | some p =>
      simp only [adv, Option.map_some] at hl ⊢
      cases hb : h.blk p.1 with
      | none => rw [hb] at hl; cases hl
      | some b =>
        rw [hb] at hl
        simp only at hl ⊢
        split at hl
        · have hx := Option.some.inj hl
          have hlen : xs.length = n := by rw [← hx]; simp; omega
          rw [if_pos (by omega)]
          rw [← hx, List.getElem?_take, if_pos (by omega), List.getElem?_drop] at hk
          rw [List.take_one, List.head?_drop, hk]; rfl
        · cases hl

theorem SRep.shows {w : World Byte} {i : Nat} {s : List Byte} (r : SRep w.heap (w.obj i) s) : Shows w i s := by
  refine ⟨r.size, ?_, ?_⟩
  · intro k hk
    unfold cAt
    rw [ld_one (c := s[k]) r.read (by rw [List.getElem?_append_left hk]; exact List.getElem?_eq_getElem hk)]
  · unfold cAt
    rw [ld_one (c := 0) r.read (by simp)]

/-- **C23 (partial)** after any history of calls, over any number of strings, with any pattern of allocation
failures: every existing string, linked or owned, has a NUL at `c_str()[size()]`. Missing: `shrink_to_fit`
(`shrink_to_fit_violated`), the moved-from string (`moved_from_violated`), requests where rounding exceeds 32 bits. -/
theorem string_terminated_partial (hr : RotateOK rot) {w0 w : World Byte} {ops : List (Op × Bool)}
    {v : Nat → Option (List Byte)} (hi : Initial lit w0) (hh : Hist lit rot w0 ops w v) (i : Nat) (s : List Byte)
    (hs : v i = some s) : cAt w.heap (w.obj i) (w.obj i).size = some 0 := by
  have h := ((hist_ws hr hi hh).rep i s hs).shows
  rw [h.1]; exact h.2.2

/-- **C24 (partial)** after any history of calls every existing string shows exactly the characters that the
completed calls give; no other string changes. Missing: source ranges inside the string itself
where the call moves or overwrites them (`append_self_violated`, `assign_self_violated`), lengths that wrap
(`substr_wrap_violated`), `insert` of a `string` argument (`insert_str_violated`), `erase` beyond the end
(`erase_pos_violated`), same-length `replace` in a linked string (`replace_linked_violated`), requests where
rounding exceeds 32 bits. -/
theorem string_history_partial (hr : RotateOK rot) {w0 w : World Byte} {ops : List (Op × Bool)}
    {v : Nat → Option (List Byte)} (hi : Initial lit w0) (hh : Hist lit rot w0 ops w v) (i : Nat) (s : List Byte)
    (hs : v i = some s) : Shows w i s :=
  ((hist_ws hr hi hh).rep i s hs).shows

/-- **C24** `copy (p, n, start)` after any history: for `start <= size()` it stores the (at most `n`) characters from
`start` on. -/
theorem string_copy_out (hr : RotateOK rot) {w0 w : World Byte} {ops : List (Op × Bool)}
    {v : Nat → Option (List Byte)} (hi : Initial lit w0) (hh : Hist lit rot w0 ops w v) (i : Nat) (s : List Byte)
    (hs : v i = some s) (n start : Nat) (hst : start ≤ s.length) :
    copyOut w.heap (w.obj i) n start = some ((s.drop start).take n) := by
  have r := (hist_ws hr hi hh).rep i s hs
  have hsz := r.size
  unfold copyOut iat
  rw [if_neg (by omega), Nat.min_eq_left (by omega), ld_sub (n := min n ((w.obj i).size - start)) r.chars (by omega)]
  congr 1
  rw [List.take_eq_take_iff]; simp; omega

/-- `copy (p, 2, 1)` from a linked `"ab"` stores `"b"`. -/
example : copyOut ⟨fun k => if k = 0 then some ⟨false, [97, 98, 0]⟩ else none, 1⟩ ⟨some (0, 0), 2, 0⟩ 2 1 = some [98] := rfl

/-- **C24 (partial)** progress: after any history a call within its contract is never undefined, and it throws
only if the allocator failed, and then changes nothing. Missing: as above. -/
theorem string_no_ub_partial (hr : RotateOK rot) {w0 w : World Byte} {ops : List (Op × Bool)}
    {v : Nat → Option (List Byte)} (hi : Initial lit w0) (hh : Hist lit rot w0 ops w v) (op : Op)
    (a : Option (Nat → Byte)) (hp : Pre w op v) :
    ∃ ok w', step lit rot w op a = some (ok, w') ∧ (ok = false → a = none ∧ w' = w) := by
  rcases string_step hr w v op a (hist_ws hr hi hh) hp with ⟨g1, g2⟩ | ⟨w', g1, _⟩
  · exact ⟨false, w, g2, fun _ => ⟨g1, rfl⟩⟩
  · exact ⟨true, w', g1, fun h => nomatch h⟩

/-- **C24** once all strings are destroyed no heap memory is left. -/
theorem string_no_leak (hr : RotateOK rot) {w0 w : World Byte} {ops : List (Op × Bool)}
    {v : Nat → Option (List Byte)} (hi : Initial lit w0) (hh : Hist lit rot w0 ops w v) (hall : ∀ i, v i = none)
    (id : Nat) (b : Blk Byte) (hb : w.heap.blk id = some b) : b.heap = false := by
  have hw := hist_ws hr hi hh
  cases hbh : b.heap with
  | false => rfl
  | true =>
    obtain ⟨k, h1, _⟩ := hw.noleak id b hb hbh
    rw [hw.gone k (hall k)] at h1
    exact absurd rfl h1

/-! ### C55: format -/

/-- One round of `vformat` in a string with enough capacity completes it. -/
theorem vformat_fits {h : Heap Byte} {o : Obj} {id : Nat} {bs f : List Byte} (fuel : Nat) (asks : Nat → Option (Nat → Byte))
    (hh : HOK h) (own : Own h o id bs) (hf : f.length < o.cap) :
    ∃ h' o', vformat lit f (fuel + 1) h o asks = some (some (true, h', o')) ∧ Eff h o h' o' ∧ SRep h' o' f := by
  have hl := own.len
  have hc := own.cap
  obtain ⟨h1, k1, k2, k3⟩ := st_own (xs := f ++ [0]) (k := 0) hh own (by simp; omega)
  have : adv o.ptr 0 = o.ptr := by rw [own.ptr]; rfl
  rw [this] at k1
  have own1 : Own h1 { o with size := f.length } id (patch bs 0 (f ++ [0])) :=
    ⟨hc, own.ptr, k3.blk, k3.len, by simp; omega⟩
  have hpl := patch_length (bs := bs) (k := 0) (xs := f ++ [0]) (by simp; omega)
  obtain ⟨h2, k4, k5, k6⟩ := thenStore_own (k := fun _ => f.length) (xs := [0]) (r := some (true, h1, { o with size := f.length })) rfl
    (shrink_eff k2 (n := f.length) (by omega)) own1 (by simp; omega)
  have hr : resize lit h1 o f.length (asks fuel) = some (true, h2, { o with size := f.length }) := by
    unfold resize Memblock.resize
    rw [if_neg (by omega), if_neg (by omega)]
    exact k4
  refine ⟨h2, _, ?_, k5, k6.srep rfl ?_⟩
  · unfold vformat
    simp only
    rw [if_neg hc, List.take_of_length_le (by omega), k1]
    simp only [hr]
    rw [if_neg (by omega)]
  · have h3 := patch_zero (bs := bs) (xs := f ++ [0]) (by simp; omega)
    have h4 := take_patch_end (bs := patch bs 0 (f ++ [0])) (k := f.length) (xs := [0]) (by simp; omega)
    rw [show f.length + 1 = f.length + [(0 : Byte)].length from rfl, h4]
    congr 1
    have := congrArg (List.take f.length) h3
    rw [List.take_take, List.take_left, Nat.min_eq_left (by simp)] at this
    exact this

/-- **C55 (partial)** `format` terminates after at most two rounds and leaves exactly the formatted text, or throws
`bad_alloc` when the allocator failed (nothing lost then). Missing: formatting nothing into a string that owns no memory
(`format_empty_violated`), the state after `bad_alloc` (`format_throw_violated`). -/
theorem format_partial {h : Heap Byte} {o : Obj} {s f : List Byte} (fuel : Nat) (asks : Nat → Option (Nat → Byte))
    (hh : HOK h) (r : SRep h o s) (hl : HasLit lit h) (hne : o.cap ≠ 0 ∨ f ≠ []) :
    ((∃ n, asks n = none) ∧ ∃ h' o', vformat lit f (fuel + 2) h o asks = some (some (false, h', o')) ∧ Eff h o h' o') ∨
    ∃ h' o', vformat lit f (fuel + 2) h o asks = some (some (true, h', o')) ∧ Eff h o h' o' ∧ SRep h' o' f := by
  have big : ∀ h1, (if o.cap = 0 then some h else st h o.ptr (f.take (o.cap - 1) ++ [0])) = some h1 → Eff h o h1 o →
      o.cap ≤ f.length → HasLit lit h1 →
      ((∃ n, asks n = none) ∧ ∃ h' o', vformat lit f (fuel + 2) h o asks = some (some (false, h', o')) ∧ Eff h o h' o') ∨
      ∃ h' o', vformat lit f (fuel + 2) h o asks = some (some (true, h', o')) ∧ Eff h o h' o' ∧ SRep h' o' f := by
    intro h1 hst e hle hl1
    have hfn : f.length ≠ 0 := by
      rcases hne with h2 | h2
      · omega
      · simpa using h2
    rcases resize_s (lit := lit) f.length (asks (fuel + 1)) e.hok e.ook hl1 with ⟨d1, d2⟩ | ⟨h2, o2, d1, d2, t, d3, d4, d5⟩
    · left
      refine ⟨⟨_, d1⟩, h1, o, ?_, e⟩
      unfold vformat
      simp only
      rw [hst]
      simp only [d2]
    · right
      obtain ⟨id, bs, own, _, hbl⟩ := d4.own (d5 hfn)
      have hol := own.len
      have htl := d3.1
      obtain ⟨h3, o3, e1, e2, e3⟩ := vformat_fits (lit := lit) (f := f) fuel asks d2.hok own (by omega)
      refine ⟨h3, o3, ?_, (e.trans d2).trans e2, e3⟩
      rw [vformat]
      rw [hst]
      simp only [d1]
      rw [if_pos hle, e1]
  by_cases hc : o.cap = 0
  · exact big h (if_pos hc) (Eff.refl hh r.ook) (by omega) hl
  · obtain ⟨id, bs, own⟩ := own_of r.ook hc
    have hlen := own.len
    rcases Nat.lt_or_ge f.length o.cap with hf | hf
    · right; exact vformat_fits (fuel + 1) asks hh own hf
    · obtain ⟨h1, k1, k2, k3⟩ := st_own (xs := f.take (o.cap - 1) ++ [0]) (k := 0) hh own (by simp; omega)
      have : adv o.ptr 0 = o.ptr := by rw [own.ptr]; rfl
      rw [this] at k1
      exact big h1 (by rw [if_neg hc]; exact k1) k2 hf (hl.keep fun _ _ h2 h3 => k2.toEff0.foreign hh r.ook h2 h3)

/-- **C55 violated** `format` with an empty result, on a string that owns no memory (a default-constructed one, or
one linked to a literal), never returns: `rv >= wcap` is `0 >= 0` every time. -/
theorem format_empty_violated (h : Heap Byte) (o : Obj) (hc : o.cap = 0) (fuel : Nat) (asks : Nat → Option (Nat → Byte)) :
    vformat lit [] fuel h o asks = none := by
  induction fuel generalizing o with
  | zero => rfl
  | succ fuel ih =>
    unfold vformat resize
    simp only [hc, if_true, List.length_nil, and_self, Nat.le_refl]
    exact ih _ rfl

/-! ### Disagreements -/

/-- The literal `""` of the examples, inside a foreign block that also holds `"ab"`. -/
def exHeap : Heap Byte := ⟨fun k => if k = 0 then some ⟨false, [97, 98, 0]⟩ else if k = 1 then some ⟨true, [97, 98, 0]⟩ else none, 2⟩

/-- An owned `"ab"`. -/
def ownedAb : Obj := ⟨some (1, 0), 2, 3⟩

/-- A linked `"ab"`. -/
def linkedAb : Obj := ⟨some (0, 0), 2, 0⟩

/-- **C23 violated** after `format` threw `bad_alloc`, the string may have lost its terminator: `"ab"` in a block of
8 bytes shows `"xxxxxxx"` from `c_str()` with `size() = 2`. -/
theorem format_throw_violated :
    ∃ h o, vformat (0, 2) (List.replicate 9 120) 5
      ⟨fun k => if k = 1 then some ⟨true, [97, 98, 0, 0, 0, 0, 0, 0]⟩ else none, 2⟩ ⟨some (1, 0), 2, 8⟩ (fun _ => none) =
        some (some (false, h, o)) ∧ o.size = 2 ∧ cAt h o 2 = some 120 := ⟨_, _, rfl, rfl, rfl⟩

/-- **C24 violated** `s.append (s)` (or `s += s`) on an owned string without spare capacity reads the characters
from the block that `resize` just freed. -/
theorem append_self_violated (junk : Nat → Byte) : appendSub (0, 2) exHeap ownedAb ownedAb 0 2 (some junk) = none := rfl

/-- **C24 violated** `s.assign (s, 1, 3)` on an owned `"abcde"` gives `"bc\0"` instead of `"bcd"`: `resize` stored the
new terminator inside the source. -/
theorem assign_self_violated (a : Option (Nat → Byte)) : ∃ h o, assignSub (0, 2)
      ⟨fun k => if k = 1 then some ⟨true, [97, 98, 99, 100, 101, 0]⟩ else none, 2⟩ ⟨some (1, 0), 5, 6⟩ ⟨some (1, 0), 5, 6⟩
      1 3 a = some (true, h, o) ∧ view h o = [98, 99, 0] := ⟨_, _, rfl, rfl⟩

/-- **C24 violated** `substr (1, size_t (-1))` ("the rest", with the standard's `npos`): `pos + n` wraps to 0, so the
range has a negative length. -/
theorem substr_wrap_violated (h : Heap Byte) (a : Option (Nat → Byte)) :
    assignSub lit h Obj.empty ownedAb 1 (2 ^ 64 - 1) a = none := rfl

/-- **C24 violated** `replace` with a text of the same length in a linked string stores into the memory it is linked
to (a string literal). -/
theorem replace_linked_violated (a : Option (Nat → Byte)) : replaceAt rot exHeap linkedAb 0 2 [120, 121] 1 a = none := rfl

/-- **C24 violated** `erase (pos)` with `pos > size()`: `size() - pos` wraps, so the count to erase is too large and
the erase leaves the string. -/
theorem erase_pos_violated (a : Option (Nat → Byte)) : erasePos rot exHeap ownedAb 3 5 a = none := by
  unfold erasePos
  rw [show min 5 ((ownedAb.size + 2 ^ 64 - 3) % 2 ^ 64) = 5 by decide]
  rfl

/-- The rotation of the examples. -/
def brot (l : List Byte) (f m t : Nat) : Option (List Byte) :=
  some (l.take f ++ (l.drop m).take (t - m) ++ (l.drop f).take (m - f) ++ l.drop t)

theorem brot_ok : RotateOK brot := by
  intro pre a b post
  simp only [brot]
  have e1 : (pre ++ a ++ b ++ post).take pre.length = pre := by simp
  have e2 : (pre ++ a ++ b ++ post).drop (pre.length + a.length) = b ++ post := by
    rw [List.append_assoc (pre ++ a), ← List.length_append, List.drop_left]
  have e3 : (pre ++ a ++ b ++ post).drop pre.length = a ++ (b ++ post) := by
    rw [List.append_assoc, List.append_assoc, List.drop_left]
  have e4 : (pre ++ a ++ b ++ post).drop (pre.length + a.length + b.length) = post := by
    rw [← List.length_append, ← List.length_append, List.drop_left]
  rw [e1, e2, e3, e4, Nat.add_sub_cancel_left, Nat.add_sub_cancel_left]
  simp

/-- **C24 violated** `insert (pos, const string&)` inserts `s.size()` copies of `s`. -/
theorem insert_str_violated (junk : Nat → Byte) : ∃ h o, insertStr brot exHeap ownedAb 2 [120, 121] (some junk) =
    some (true, h, o) ∧ view h o = [97, 98, 120, 121, 120, 121] := ⟨_, _, rfl, rfl⟩

/-- **C23 violated** `shrink_to_fit` (inherited from memblock) cuts the terminator off. -/
theorem shrink_to_fit_violated (junk : Nat → Byte) : ∃ h o, shrinkToFit exHeap ownedAb (some junk) = some (true, h, o) ∧
    o.size = 2 ∧ cAt h o 2 = none := ⟨_, _, rfl, rfl, rfl⟩

/-- **C23 violated** a string that was moved from into a new one (`string b (move (a))` swaps with an empty memblock)
has a null `c_str()`. -/
theorem moved_from_violated (h : Heap Byte) (o : Obj) : (moveCtor o).2.size = 0 ∧ cAt h (moveCtor o).2 0 = none := ⟨rfl, rfl⟩

/-! ### Examples -/

/-- Run calls with the allocator's answers, checking a decidable form of the contract. -/
def PreB (w : World Byte) (op : Op) (v : Nat → Option (List Byte)) : Bool :=
  match op with
  | .ctor i => v i == none
  | .ctorPtr i p n => v i == none && (match w.heap.blk p.1 with
      | some b => b.heap == false && b.bytes[p.2 + n]? == some 0
      | none => false)
  | .ctorCopy i j => v i == none && v j != none
  | .ctorFill i _ _ => v i == none
  | .destroy i => v i != none
  | .resize i _ | .resizeFill i _ _ | .assign i _ | .append i _ => v i != none
  | .popBack i => (match v i with | some s => s != [] | none => false)
  | .insert i _ xs n => (match v i with | some s => decide (s.length + xs.length * n + 1 ≤ 2 ^ 31) | none => false)
  | .erase i pos _ => (match v i with | some s => decide (pos ≤ s.length ∧ s.length + 1 ≤ 2 ^ 31) | none => false)
  | .replace i pos len xs n => (match v i with
      | some s => decide (s.length + xs.length * n + 1 ≤ 2 ^ 31 ∧ ((w.obj i).cap = 0 → xs.length * n ≠ ((s.drop pos).take len).length))
      | none => false)
  | .set i k _ => (match v i with | some s => decide (k < s.length ∧ (w.obj i).cap ≠ 0) | none => false)
  | .reserve i n => (match v i with | some s => decide (n + 1 ≤ 2 ^ 31 ∧ ((w.obj i).cap = 0 → s.length ≤ n)) | none => false)
  | .copyLink i => (match v i with | some s => decide (s.length + 1 ≤ 2 ^ 31) | none => false)
  | .ctorSub i j pos n => v i == none && (v j != none && decide (pos + n < 2 ^ 64))
  | .assignSub i j pos n => v i != none && (decide (pos + n < 2 ^ 64) && (match v j with
      | some t => decide (i = j → (w.obj i).cap = 0 ∨ pos = 0 ∨ ((t.drop pos).take n).length < pos)
      | none => false))
  | .appendSub i j pos n => v i != none && (decide (pos + n < 2 ^ 64) && (match v j with
      | some t => decide (i = j → (w.obj i).cap = 0 ∨ t.length + ((t.drop pos).take n).length + 1 ≤ (w.obj i).cap)
      | none => false))
  | .insertSub i _ j sp slen => decide (i ≠ j) && (decide (sp + slen < 2 ^ 64) && (match v i, v j with
      | some s, some t => decide (s.length + ((t.drop sp).take slen).length + 1 ≤ 2 ^ 31)
      | _, _ => false))
  | .replaceSub i rp len j sp slen => decide (i ≠ j) && (decide (sp + slen < 2 ^ 64) && (match v i, v j with
      | some s, some t => decide (s.length + ((t.drop sp).take slen).length + 1 ≤ 2 ^ 31 ∧
          ((w.obj i).cap = 0 → ((t.drop sp).take slen).length ≠ ((s.drop rp).take len).length))
      | _, _ => false))
  | .swap i j => v i != none && v j != none

theorem pre_of {w : World Byte} {op : Op} {v : Nat → Option (List Byte)} (h : PreB w op v = true) : Pre w op v := by
  cases op <;> simp only [PreB, Pre, Bool.and_eq_true, beq_iff_eq, bne_iff_ne, ne_eq] at h ⊢
  case ctorPtr i p n =>
    refine ⟨h.1, ?_⟩
    have h2 := h.2
    split at h2
    · rename_i b hb
      simp only [Bool.and_eq_true, beq_iff_eq] at h2
      exact ⟨b, hb, h2.1, h2.2⟩
    · cases h2
  case ctorSub i j pos n => exact ⟨h.1, h.2.1, of_decide_eq_true h.2.2⟩
  case assignSub i j pos n =>
    have h2 := h.2.2
    split at h2
    · rename_i t ht; exact ⟨h.1, of_decide_eq_true h.2.1, t, ht, of_decide_eq_true h2⟩
    · cases h2
  case appendSub i j pos n =>
    have h2 := h.2.2
    split at h2
    · rename_i t ht; exact ⟨h.1, of_decide_eq_true h.2.1, t, ht, of_decide_eq_true h2⟩
    · cases h2
  case insertSub i ip j sp slen =>
    have h2 := h.2.2
    split at h2
    · rename_i s t hs ht; exact ⟨of_decide_eq_true h.1, of_decide_eq_true h.2.1, s, t, hs, ht, of_decide_eq_true h2⟩
    · cases h2
  case replaceSub i rp len j sp slen =>
    have h2 := h.2.2
    split at h2
    · rename_i s t hs ht
      exact ⟨of_decide_eq_true h.1, of_decide_eq_true h.2.1, s, t, hs, ht, of_decide_eq_true h2⟩
    · cases h2
  all_goals first
    | exact h
    | (split at h
       · rename_i s hs
         first
           | exact ⟨s, hs, by simpa using h⟩
           | exact ⟨s, hs, of_decide_eq_true h⟩
       · cases h)

/-- Run calls with the allocator's answers. -/
def run (lit : Nat × Nat) (rot : List Byte → Nat → Nat → Nat → Option (List Byte)) :
    List (Op × Bool) → World Byte → (Nat → Option (List Byte)) → Option (List (Op × Bool) × World Byte × (Nat → Option (List Byte)))
  | [], w, v => some ([], w, v)
  | (op, a) :: ops, w, v =>
    if PreB w op v then
      match step lit rot w op (if a then some (fun _ => 255) else none) with
      | none => none
      | some (ok, w1) =>
        match run lit rot ops w1 (if ok then op.apply (foreign w.heap) (fun i => view w1.heap (w1.obj i)) v else v) with
        | none => none
        | some (tr, r) => some ((op, ok) :: tr, r)
    else none

theorem hist_of_run (ops : List (Op × Bool)) : ∀ {w w' : World Byte} {v v' : Nat → Option (List Byte)}
    {tr : List (Op × Bool)} {w0 : World Byte} {tr0 : List (Op × Bool)}, Hist lit rot w0 tr0 w v →
    run lit rot ops w v = some (tr, w', v') → Hist lit rot w0 (tr0 ++ tr) w' v' := by
  induction ops with
  | nil => intro w w' v v' tr w0 tr0 h hr; cases hr; simpa using h
  | cons x ops ih =>
    intro w w' v v' tr w0 tr0 h hr
    obtain ⟨op, a⟩ := x
    simp only [run] at hr
    split at hr
    · rename_i hp
      have hp := pre_of hp
      split at hr
      · cases hr
      · rename_i ok w1 hs
        split at hr
        · cases hr
        · rename_i tr1 r1 h1
          cases hr
          cases ok with
          | true =>
            have := ih (Hist.ok h hp hs) h1
            rw [List.append_assoc] at this; exact this
          | false =>
            have := ih (Hist.threw h hp hs) h1
            rw [List.append_assoc] at this; exact this
    · cases hr

/-- A program whose only memory is a literal `"ab"` (with `""` as its tail). -/
def w0 : World Byte := ⟨⟨fun k => if k = 0 then some ⟨false, [97, 98, 0]⟩ else none, 1⟩, fun _ => Obj.empty⟩

theorem w0_initial : Initial (0, 2) w0 := by
  refine ⟨⟨fun _ => rfl, ?_, ?_⟩, ⟨_, rfl, rfl, rfl⟩⟩
  · intro id h
    have : id ≠ 0 := by
      have : 1 ≤ id := h
      omega
    simp [w0, this]
  · intro id b h
    simp only [w0] at h
    split at h
    · cases h; rfl
    · cases h

/-- Link a literal, append, insert, erase, replace, a failed copy, a copy, edit it, pop, swap, destroy. -/
def prog : List (Op × Bool) :=
  [(.ctorPtr 0 (0, 0) 2, true), (.append 0 [99, 100], true), (.insert 0 1 [120] 2, true), (.erase 0 4 100, true),
   (.replace 0 1 1 [65, 66, 67] 1, true), (.ctorCopy 1 0, false), (.ctorCopy 1 0, true), (.set 1 0 90, true),
   (.resizeFill 1 8 33, true), (.popBack 1, true), (.ctor 2, true), (.swap 0 2, true), (.destroy 2, true), (.resize 1 3, true)]

example : ∃ tr w v, Hist (0, 2) brot w0 tr w v ∧ tr.map (·.2) = [true, true, true, true, true, false, true, true, true, true,
    true, true, true, true] ∧ v 0 = some [] ∧ v 1 = some [90, 65, 66] ∧ v 2 = none ∧
    cAt w.heap (w.obj 1) 3 = some 0 ∧ cAt w.heap (w.obj 0) 0 = some 0 := by
  set_option synthInstance.maxSize 1000 in
  have key : (run (0, 2) brot prog w0 (fun _ => none)).map (fun r => (r.1.map (·.2), r.2.2 0, r.2.2 1, r.2.2 2,
      cAt r.2.1.heap (r.2.1.obj 1) 3, cAt r.2.1.heap (r.2.1.obj 0) 0)) =
      some ([true, true, true, true, true, false, true, true, true, true, true, true, true, true],
      some [], some [90, 65, 66], none, some 0, some 0) := by decide +kernel
  cases hr : run (0, 2) brot prog w0 (fun _ => none) with
  | none => rw [hr] at key; cases key
  | some r =>
    obtain ⟨tr, w, v⟩ := r
    rw [hr] at key
    simp only [Option.map_some, Option.some.injEq, Prod.mk.injEq] at key
    exact ⟨tr, w, v, hist_of_run prog (Hist.nil w0) hr, key⟩

/-- `substr`, `s = s`, `s.assign (s, 3, 2)`, `t += s`, `insert (pos, s, sp, len)` and `replace (pos, len, s, sp, len)`. -/
def progSub : List (Op × Bool) :=
  [(.ctorPtr 0 (0, 0) 2, true), (.append 0 [99, 100, 101], true), (.ctorSub 1 0 1 3, true), (.assignSub 0 0 0 100, true),
   (.appendSub 1 0 2 2, true), (.assignSub 0 0 3 7, true), (.insertSub 0 1 1 1 2, true), (.replaceSub 1 1 3 0 0 100, true),
   (.ctorSub 2 1 9 4, true)]

example : ∃ tr w v, Hist (0, 2) brot w0 tr w v ∧ tr.map (·.2) = List.replicate 9 true ∧
    v 0 = some [100, 99, 100, 101] ∧ v 1 = some [98, 100, 99, 100, 101, 100] ∧ v 2 = some [] ∧
    cAt w.heap (w.obj 1) 6 = some 0 := by
  set_option synthInstance.maxSize 1000 in
  have key : (run (0, 2) brot progSub w0 (fun _ => none)).map (fun r => (r.1.map (·.2), r.2.2 0, r.2.2 1, r.2.2 2,
      cAt r.2.1.heap (r.2.1.obj 1) 6)) =
      some (List.replicate 9 true, some [100, 99, 100, 101], some [98, 100, 99, 100, 101, 100], some [], some 0) := by
    decide +kernel
  cases hr : run (0, 2) brot progSub w0 (fun _ => none) with
  | none => rw [hr] at key; cases key
  | some r =>
    obtain ⟨tr, w, v⟩ := r
    rw [hr] at key
    simp only [Option.map_some, Option.some.injEq, Prod.mk.injEq] at key
    exact ⟨tr, w, v, hist_of_run progSub (Hist.nil w0) hr, key⟩

/-- `format_partial` applies to the linked `"ab"`. -/
example : HOK w0.heap ∧ SRep w0.heap linkedAb [97, 98] ∧ HasLit (0, 2) w0.heap ∧ (linkedAb.cap ≠ 0 ∨ [120] ≠ ([] : List Byte)) := by
  have hi := w0_initial
  refine ⟨(init_ws hi).hok, ?_, hi.2, Or.inr (by simp)⟩
  exact CString.srep (h := w0.heap) (p := (0, 0)) (n := 2) ⟨_, rfl, rfl, rfl⟩

end Ustl.Str
