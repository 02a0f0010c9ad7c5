import Verif.Assoc.Base
import Verif.Assoc.Props
/-! # C87: sorted containers used through the vector they are -/
namespace Ustl.Assoc
variable {α κ V : Type _}

section
variable {lt : κ → κ → Bool} {key : α → κ}

theorem wr_cat {l : List α} {i : Nat} (hi : i < l.length) (v : α) :
    wr l i v = some (l.take i ++ [v] ++ l.drop (i + 1)) := by
  rw [wr_eq_some _ _ _ hi, List.set_eq_take_append_cons_drop, if_pos hi]
  simp

theorem at_split {l : List α} {i : Nat} {x : α} (h : l[i]? = some x) :
    l = l.take i ++ [x] ++ l.drop (i + 1) ∧ i < l.length := by
  obtain ⟨hi, e⟩ := List.getElem?_eq_some_iff.1 h
  refine ⟨?_, hi⟩
  rw [← e, List.append_assoc, List.singleton_append, ← List.drop_eq_getElem_cons hi, List.take_append_drop]

theorem mem_at {l : List α} {i : Nat} {x : α} (h : l[i]? = some x) (y : α) :
    y ∈ l ↔ (y ∈ l.take i ∨ y = x) ∨ y ∈ l.drop (i + 1) := by
  have e := congrArg (fun m => y ∈ m) (at_split h).1
  simp only [List.mem_append, List.mem_singleton] at e
  exact iff_of_eq e

theorem strict_at {l : List α} (hl : KStrict lt key l) {i : Nat} {x : α} (h : l[i]? = some x) :
    (∀ y ∈ l.take i, lt (key y) (key x) = true) ∧ ∀ y ∈ l.drop (i + 1), lt (key x) (key y) = true := by
  obtain ⟨e, _⟩ := at_split h
  unfold KStrict at hl
  rw [e, List.append_assoc, List.pairwise_append] at hl
  refine ⟨fun y hy => hl.2.2 y hy x (by simp), ?_⟩
  rw [List.singleton_append, List.pairwise_cons] at hl
  exact hl.2.1.1

/-- The elements before position `i` are those with a smaller key. -/
theorem mem_take_iff (h : StrictWeak lt) {l : List α} (hl : KStrict lt key l) {i : Nat} {x : α} (hx : l[i]? = some x)
    (y : α) : y ∈ l.take i ↔ y ∈ l ∧ lt (key y) (key x) = true := by
  obtain ⟨h1, h2⟩ := strict_at hl hx
  refine ⟨fun hy => ⟨List.mem_of_mem_take hy, h1 y hy⟩, fun ⟨hy, hlt⟩ => ?_⟩
  rw [(at_split hx).1, List.append_assoc, List.mem_append, List.singleton_append, List.mem_cons] at hy
  rcases hy with hy | rfl | hy
  · exact hy
  · rw [h.irrefl] at hlt; cases hlt
  · have := h.asymm (h2 y hy); rw [hlt] at this; cases this

/-- The element at position `i` has exactly `i` smaller keys. -/
theorem rank_at (h : StrictWeak lt) {l : List α} (hl : KStrict lt key l) {i : Nat} {x : α} (hx : l[i]? = some x) :
    Rank lt (fun k => ∃ y ∈ l, key y = k) (key x) i := by
  obtain ⟨e, hi⟩ := at_split hx
  refine ⟨(l.take i).map key, ?_, by rw [List.length_map, List.length_take]; omega, fun k => ?_⟩
  · have hs : KStrict lt key (l.take i) := hl.sublist (List.take_sublist _ _)
    unfold List.Nodup
    rw [List.pairwise_map]
    refine List.Pairwise.imp ?_ hs
    intro a b hab e
    rw [e, h.irrefl] at hab
    cases hab
  · rw [List.mem_map]
    constructor
    · rintro ⟨y, hy, rfl⟩
      obtain ⟨g1, g2⟩ := (mem_take_iff h hl hx y).1 hy
      exact ⟨⟨y, g1, rfl⟩, g2⟩
    · rintro ⟨⟨y, hy, rfl⟩, hlt⟩
      exact ⟨y, (mem_take_iff h hl hx y).2 ⟨hy, hlt⟩, rfl⟩

theorem Rank.unique {S : κ → Prop} {x : κ} {m n : Nat} (h1 : Rank lt S x m) (h2 : Rank lt S x n) : m = n := by
  obtain ⟨ys, n1, rfl, e1⟩ := h1
  obtain ⟨zs, n2, rfl, e2⟩ := h2
  exact ((List.perm_ext_iff_of_nodup n1 n2).2 fun a => by rw [e1, e2]).length_eq

theorem Rank.congr {S T : κ → Prop} {x : κ} {n : Nat} (h1 : Rank lt S x n) (e : ∀ y, S y ↔ T y) : Rank lt T x n := by
  obtain ⟨ys, n1, l1, e1⟩ := h1
  exact ⟨ys, n1, l1, fun y => by rw [e1, e]⟩

/-- The first `n` elements are those with fewer than `n` smaller keys. -/
theorem mem_first_iff (h : StrictWeak lt) {l : List α} (hl : KStrict lt key l) (n : Nat) (x : α) :
    x ∈ l.take n ↔ x ∈ l ∧ ∃ r, r < n ∧ Rank lt (fun k => ∃ y ∈ l, key y = k) (key x) r := by
  constructor
  · intro hx
    obtain ⟨i, hi⟩ := List.mem_iff_getElem?.1 hx
    rw [List.getElem?_take] at hi
    split at hi
    · rename_i hn
      exact ⟨List.mem_of_mem_take hx, i, hn, rank_at h hl hi⟩
    · cases hi
  · rintro ⟨hx, r, hr, hk⟩
    obtain ⟨i, hi⟩ := List.mem_iff_getElem?.1 hx
    have := (rank_at h hl hi).unique hk
    subst this
    exact List.mem_iff_getElem?.2 ⟨i, by rw [List.getElem?_take, if_pos hr, hi]⟩

/-- All but the last element are those with a greater key in the container. -/
theorem mem_init_iff (h : StrictWeak lt) {l : List α} (hl : KStrict lt key l) (hne : l ≠ []) (x : α) :
    x ∈ l.take (l.length - 1) ↔ x ∈ l ∧ ∃ y ∈ l, lt (key x) (key y) = true := by
  have hpos := List.length_pos_iff.2 hne
  have hlast : l[l.length - 1]? = some (l[l.length - 1]'(by omega)) := List.getElem?_eq_getElem _
  constructor
  · intro hx
    have := (strict_at hl hlast).1 x hx
    exact ⟨List.mem_of_mem_take hx, _, List.getElem_mem _, this⟩
  · rintro ⟨hx, y, hy, hlt⟩
    rw [mem_take_iff h hl hlast]
    refine ⟨hx, ?_⟩
    generalize l[l.length - 1]'(by omega) = z at *
    have hz : y = z ∨ lt (key y) (key z) = true := by
      have e := (at_split hlast).1
      rw [show l.length - 1 + 1 = l.length by omega, List.drop_length, List.append_nil] at e
      rw [e, List.mem_append, List.mem_singleton] at hy
      exact hy.elim (fun g => Or.inr ((strict_at hl hlast).1 y g)) Or.inl
    rcases hz with rfl | hz
    · exact hlt
    · exact h.trans _ _ _ hlt hz

theorem write_pairwise {R : α → α → Prop} {l : List α} (hl : l.Pairwise R) {i : Nat} {v : α}
    (h1 : ∀ x ∈ l.take i, R x v) (h2 : ∀ x ∈ l.drop (i + 1), R v x) :
    (l.take i ++ [v] ++ l.drop (i + 1)).Pairwise R := by
  rw [List.append_assoc, List.pairwise_append, List.singleton_append, List.pairwise_cons]
  refine ⟨hl.sublist (List.take_sublist _ _), ⟨h2, hl.sublist (List.drop_sublist _ _)⟩, ?_⟩
  intro a ha b hb
  rcases List.mem_cons.1 hb with rfl | hb
  · exact h1 a ha
  · have e : l = l.take (i + 1) ++ l.drop (i + 1) := (List.take_append_drop _ _).symm
    rw [e, List.pairwise_append] at hl
    refine hl.2.2 a ?_ b hb
    exact List.mem_take_iff_getElem.2 (by
      obtain ⟨j, hj, ej⟩ := List.mem_take_iff_getElem.1 ha
      exact ⟨j, by omega, ej⟩)

/-- What every call of the vector does to the list, within its contract. -/
theorem base_list {R : α → α → Prop} {l : List α} (hl : l.Pairwise R) (op : BaseOp α) (hp : op.Pre R l) :
    ∃ l', baseStep l op = some l' ∧ l'.Pairwise R ∧
      l' = (match op with
        | .popBack => l.take (l.length - 1)
        | .resize n _ => l.take n
        | .write i v => l.take i ++ [v] ++ l.drop (i + 1)
        | .load vs => vs) := by
  cases op with
  | popBack =>
    have hne : l ≠ [] := hp
    exact ⟨_, by rw [baseStep, if_neg (by have := List.length_pos_iff.2 hne; omega)],
      hl.sublist (List.take_sublist _ _), rfl⟩
  | resize n d =>
    have hn : n ≤ l.length := hp
    refine ⟨l.take n, ?_, hl.sublist (List.take_sublist _ _), rfl⟩
    rw [baseStep]
    by_cases hlt : n < l.length
    · rw [if_pos hlt]
    · have : n = l.length := by omega
      subst this
      rw [if_neg hlt]
      simp
  | write i v =>
    obtain ⟨hi, h1, h2⟩ : i < l.length ∧ (∀ x ∈ l.take i, R x v) ∧ ∀ x ∈ l.drop (i + 1), R v x := hp
    exact ⟨_, wr_cat hi v, write_pairwise hl h1 h2, rfl⟩
  | load vs => exact ⟨vs, rfl, hp, rfl⟩
end

/-! ### Sets -/
section
variable [DecidableEq α] {lt : α → α → Bool}

omit [DecidableEq α] in
theorem set_base_step (h : Linear lt) {l : List α} {S : α → Prop} (op : BaseOp α) (hr : SetRep lt l S)
    (hp : op.Pre (fun a b => lt a b = true) l) :
    ∃ l', baseStep l op = some l' ∧ SetRep lt l' (op.setApply lt l S) := by
  obtain ⟨l', e, hl', el⟩ := base_list (R := fun a b => lt a b = true) hr.1 op hp
  refine ⟨l', e, hl', fun x => ?_⟩
  have hkey : ∀ k, (∃ y ∈ l, id y = k) ↔ S k := fun k => by
    rw [← hr.2]; exact ⟨fun ⟨y, hy, e⟩ => e ▸ hy, fun hk => ⟨k, hk, rfl⟩⟩
  subst el
  cases op with
  | popBack =>
    show x ∈ l.take (l.length - 1) ↔ S x ∧ ∃ y, S y ∧ lt x y = true
    rw [mem_init_iff h.toStrictWeak (key := id) hr.1 hp, hr.2]
    simp only [hr.2, id]
  | resize n d =>
    show x ∈ l.take n ↔ S x ∧ ∃ r, r < n ∧ Rank lt S x r
    rw [mem_first_iff h.toStrictWeak (key := id) hr.1, hr.2]
    refine and_congr_right fun _ => exists_congr fun r => and_congr_right fun _ => ?_
    exact ⟨fun g => g.congr hkey, fun g => g.congr fun y => (hkey y).symm⟩
  | write i v =>
    obtain ⟨hi, h1, h2⟩ : i < l.length ∧ (∀ x ∈ l.take i, lt x v = true) ∧ ∀ x ∈ l.drop (i + 1), lt v x = true := hp
    show x ∈ l.take i ++ [v] ++ l.drop (i + 1) ↔ x = v ∨ (S x ∧ l[i]? ≠ some x)
    have hg : l[i]? = some l[i] := List.getElem?_eq_getElem hi
    obtain ⟨g1, g2⟩ := strict_at (key := id) hr.1 hg
    have hmem : S x ↔ (x ∈ l.take i ∨ x = l[i]) ∨ x ∈ l.drop (i + 1) := by
      rw [← hr.2]; exact mem_at hg x
    rw [hmem, hg]
    simp only [List.mem_append, List.mem_singleton, ne_eq, Option.some.injEq]
    constructor
    · rintro ((hx | hx) | hx)
      · exact Or.inr ⟨Or.inl (Or.inl hx), fun e => by
          have := g1 x hx; rw [← e, h.irrefl] at this; cases this⟩
      · exact Or.inl hx
      · exact Or.inr ⟨Or.inr hx, fun e => by
          have := g2 x hx; rw [← e, h.irrefl] at this; cases this⟩
    · rintro (hx | ⟨(hx | hx) | hx, hne⟩)
      · exact Or.inl (Or.inr hx)
      · exact Or.inl (Or.inl hx)
      · exact absurd hx.symm hne
      · exact Or.inr hx
  | load vs => exact Iff.rfl

theorem setB_rep (h : Linear lt) {l : List α} {S : α → Prop} (hh : SetHistB lt l S) : SetRep lt l S := by
  induction hh with
  | nil => exact ⟨List.Pairwise.nil, fun x => by simp⟩
  | own op _ hp he ih =>
    obtain ⟨l', e, r⟩ := set_step h op ih hp
    rw [he] at e; cases e; exact r
  | base op _ hp he ih =>
    obtain ⟨l', e, r⟩ := set_base_step h op ih hp
    rw [he] at e; cases e; exact r

/-- **C87** after any history mixing a set's own calls with those of its vector (`pop_back`, shrinking `resize`,
in-order writes, loading sorted data) the elements in iteration order are strictly increasing and are exactly those of
the mathematical set: `pop_back` removed the greatest, `resize (n)` kept the `n` smallest. -/
theorem set_base_history_partial (h : Linear lt) {l : List α} {S : α → Prop} (hh : SetHistB lt l S) :
    l.Pairwise (fun a b => lt a b = true) ∧ ∀ x, x ∈ l ↔ S x := setB_rep h hh

/-- **C87** no such call is undefined after any history. -/
theorem set_base_progress (h : Linear lt) {l : List α} {S : α → Prop} (hh : SetHistB lt l S) :
    (∀ op : SetOp α, op.Pre l → ∃ l', setStep lt l op = some l' ∧ SetHistB lt l' (op.apply l S)) ∧
    ∀ op : BaseOp α, op.Pre (fun a b => lt a b = true) l →
      ∃ l', baseStep l op = some l' ∧ SetHistB lt l' (op.setApply lt l S) := by
  refine ⟨fun op hp => ?_, fun op hp => ?_⟩
  · obtain ⟨l', e, _⟩ := set_step h op (setB_rep h hh) hp
    exact ⟨l', e, hh.own op hp e⟩
  · obtain ⟨l', e, _⟩ := set_base_step h op (setB_rep h hh) hp
    exact ⟨l', e, hh.base op hp e⟩

/-- **C87** `s[i]` is the member with exactly `i` smaller ones; `front()` is the smallest and `back()` the greatest
member of a set that is not empty. -/
theorem set_nth (h : Linear lt) {l : List α} {S : α → Prop} (hh : SetHistB lt l S) :
    (∀ i x, baseAt l i = some x ↔ S x ∧ Rank lt S x i) ∧
    (∀ x, baseFront l = some x ↔ S x ∧ ∀ y, S y → y = x ∨ lt x y = true) ∧
    (∀ x, baseBack l = some x ↔ S x ∧ ∀ y, S y → y = x ∨ lt y x = true) := by
  obtain ⟨hl, hm⟩ := setB_rep h hh
  have hkey : ∀ k, (∃ y ∈ l, id y = k) ↔ S k := fun k => by
    rw [← hm]; exact ⟨fun ⟨y, hy, e⟩ => e ▸ hy, fun hk => ⟨k, hk, rfl⟩⟩
  have hat : ∀ i x, baseAt l i = some x ↔ S x ∧ Rank lt S x i := by
    intro i x
    unfold baseAt rd
    constructor
    · intro hx
      exact ⟨(hm x).1 (List.mem_of_getElem? hx), (rank_at h.toStrictWeak (key := id) hl hx).congr hkey⟩
    · rintro ⟨hs, hr⟩
      obtain ⟨j, hj⟩ := List.mem_iff_getElem?.1 ((hm x).2 hs)
      have := ((rank_at h.toStrictWeak (key := id) hl hj).congr hkey).unique hr
      subst this
      exact hj
  have hmem : ∀ {i x y}, l[i]? = some x → S y → (y ∈ l.take i ∨ y = x) ∨ y ∈ l.drop (i + 1) := by
    intro i x y hx hy
    exact (mem_at hx y).1 ((hm y).2 hy)
  have tot : ∀ {x y : α}, (x = y ∨ lt y x = true) → (y = x ∨ lt x y = true) → x = y := by
    intro x y a b
    rcases a with a | a
    · exact a
    · rcases b with b | b
      · exact b.symm
      · have := h.asymm a; rw [b] at this; cases this
  refine ⟨hat, fun x => ?_, fun x => ?_⟩
  · have first : ∀ z, l[0]? = some z → S z ∧ ∀ y, S y → y = z ∨ lt z y = true := by
      intro z hz
      refine ⟨(hm z).1 (List.mem_of_getElem? hz), fun y hy => ?_⟩
      rcases hmem hz hy with (g | g) | g
      · simp at g
      · exact Or.inl g
      · exact Or.inr ((strict_at (key := id) hl hz).2 y g)
    constructor
    · exact first x
    · rintro ⟨hs, hall⟩
      have hpos : 0 < l.length := List.length_pos_of_mem ((hm x).2 hs)
      have hz : l[0]? = some l[0] := List.getElem?_eq_getElem hpos
      obtain ⟨z1, z2⟩ := first _ hz
      have : x = l[0] := tot (z2 x hs) (hall _ z1)
      rw [this]; exact hz
  · have last : ∀ z, l[l.length - 1]? = some z → S z ∧ ∀ y, S y → y = z ∨ lt y z = true := by
      intro z hz
      refine ⟨(hm z).1 (List.mem_of_getElem? hz), fun y hy => ?_⟩
      have hi := (at_split hz).2
      rcases hmem hz hy with (g | g) | g
      · exact Or.inr ((strict_at (key := id) hl hz).1 y g)
      · exact Or.inl g
      · rw [show l.length - 1 + 1 = l.length by omega, List.drop_length] at g
        cases g
    unfold baseBack rd
    constructor
    · intro hx
      split at hx
      · cases hx
      · exact last x hx
    · rintro ⟨hs, hall⟩
      have hpos : 0 < l.length := List.length_pos_of_mem ((hm x).2 hs)
      rw [if_neg (by omega)]
      have hz : l[l.length - 1]? = some (l[l.length - 1]'(by omega)) := List.getElem?_eq_getElem _
      obtain ⟨z1, z2⟩ := last _ hz
      have : x = l[l.length - 1]'(by omega) := by
        have a := z2 x hs
        have b := hall _ z1
        rcases a with a | a
        · exact a
        · rcases b with b | b
          · exact b.symm
          · have := h.asymm a; rw [b] at this; cases this
      rw [this]; exact hz
end

/-! ### Maps -/
section
variable [DecidableEq κ] {lt : κ → κ → Bool}

theorem lookup_strict (h : StrictWeak lt) : ∀ {ps : List (κ × V)}, ps.Pairwise (fun a b => lt a.1 b.1 = true) →
    ∀ k v, (k, v) ∈ ps ↔ lookup ps k = some v
  | [], _, k, v => by simp [lookup]
  | p :: ps, hp, k, v => by
    rw [List.pairwise_cons] at hp
    have ih := lookup_strict h hp.2 k v
    unfold lookup at ih ⊢
    rw [List.mem_cons, List.find?_cons]
    by_cases e : p.1 = k
    · simp only [e, decide_true, Option.map_some, Option.some.injEq]
      constructor
      · rintro (g | g)
        · rw [← g]
        · have := hp.1 _ g; rw [e, h.irrefl] at this; cases this
      · intro g
        exact Or.inl (Prod.ext e.symm g.symm)
    · simp only [e, decide_false]
      rw [← ih]
      exact ⟨fun g => g.elim (fun g => absurd (by rw [← g]) e) id, Or.inr⟩

omit [DecidableEq κ] in
theorem MapRep.keys {l : List (κ × V)} {F : κ → Option V} (hr : MapRep lt l F) (k : κ) :
    (∃ y ∈ l, Prod.fst y = k) ↔ F k ≠ none := by
  constructor
  · rintro ⟨⟨k', v⟩, hy, rfl⟩
    rw [(hr.2 k' v).1 hy]; simp
  · intro hk
    cases hF : F k with
    | none => exact absurd hF hk
    | some v => exact ⟨(k, v), (hr.2 k v).2 hF, rfl⟩

theorem map_base_step (h : Linear lt) {l : List (κ × V)} {F : κ → Option V} (op : BaseOp (κ × V))
    (hr : MapRep lt l F) (hp : op.Pre (fun a b => lt a.1 b.1 = true) l) :
    ∃ l', baseStep l op = some l' ∧ MapRep lt l' (op.mapApply lt l F) := by
  obtain ⟨l', e, hl', el⟩ := base_list (R := fun a b : κ × V => lt a.1 b.1 = true) hr.1 op hp
  refine ⟨l', e, hl', fun k v => ?_⟩
  have hkey := hr.keys
  subst el
  cases op with
  | popBack =>
    show (k, v) ∈ l.take (l.length - 1) ↔ _
    rw [mem_init_iff h.toStrictWeak (key := Prod.fst) hr.1 hp, hr.2]
    simp only [BaseOp.mapApply]
    have he : (∃ y ∈ l, lt k (Prod.fst y) = true) ↔ ∃ k', F k' ≠ none ∧ lt k k' = true := by
      constructor
      · rintro ⟨y, hy, hlt⟩; exact ⟨y.1, (hkey y.1).1 ⟨y, hy, rfl⟩, hlt⟩
      · rintro ⟨k', hk, hlt⟩
        obtain ⟨y, hy, rfl⟩ := (hkey k').2 hk
        exact ⟨y, hy, hlt⟩
    rw [he]
    split
    · rename_i hc; exact ⟨fun g => g.1, fun g => ⟨g, hc⟩⟩
    · rename_i hc; exact ⟨fun g => absurd g.2 hc, fun g => nomatch g⟩
  | resize n d =>
    show (k, v) ∈ l.take n ↔ _
    rw [mem_first_iff h.toStrictWeak (key := Prod.fst) hr.1, hr.2]
    simp only [BaseOp.mapApply]
    have he : (∃ r, r < n ∧ Rank lt (fun k => ∃ y ∈ l, Prod.fst y = k) k r) ↔
        ∃ r, r < n ∧ Rank lt (fun k' => F k' ≠ none) k r :=
      exists_congr fun r => and_congr_right fun _ =>
        ⟨fun g => g.congr hkey, fun g => g.congr fun y => (hkey y).symm⟩
    rw [he]
    split
    · rename_i hc; exact ⟨fun g => g.1, fun g => ⟨g, hc⟩⟩
    · rename_i hc; exact ⟨fun g => absurd g.2 hc, fun g => nomatch g⟩
  | write i p =>
    obtain ⟨hi, h1, h2⟩ : i < l.length ∧ (∀ x ∈ l.take i, lt x.1 p.1 = true) ∧
      ∀ x ∈ l.drop (i + 1), lt p.1 x.1 = true := hp
    have hg : l[i]? = some l[i] := List.getElem?_eq_getElem hi
    have hr' := hr
    rw [(at_split hg).1] at hr'
    have hrem := map_remove h (k := l[i].1) (v := l[i].2) hr'
    have hput := map_put h p.2 hrem h1 h2
    show (k, v) ∈ l.take i ++ [p] ++ l.drop (i + 1) ↔ _
    have hp2 : (p.1, p.2) = p := rfl
    rw [hp2] at hput
    rw [hput.2 k v]
    simp only [BaseOp.mapApply, hg, Option.map_some, Option.some.injEq]
    by_cases hk : k = p.1
    · rw [if_pos hk, if_pos hk]
    · rw [if_neg hk, if_neg hk]
      by_cases hk2 : k = l[i].1
      · rw [if_pos hk2, if_pos hk2.symm]
      · rw [if_neg hk2, if_neg (fun g => hk2 g.symm)]
  | load ps => exact lookup_strict h.toStrictWeak hp k v

theorem mapB_rep (h : Linear lt) {dflt : V} {l : List (κ × V)} {F : κ → Option V} (hh : MapHistB lt dflt l F) :
    MapRep lt l F := by
  induction hh with
  | nil => exact ⟨List.Pairwise.nil, fun k v => by simp⟩
  | own op _ hp he ih =>
    obtain ⟨l', e, r⟩ := map_step (dflt := dflt) h op ih hp
    rw [he] at e; cases e; exact r
  | base op _ hp he ih =>
    obtain ⟨l', e, r⟩ := map_base_step h op ih hp
    rw [he] at e; cases e; exact r

/-- **C87** the same for maps: keys strictly increase in iteration order and the entries are those of the finite map,
from which `pop_back` removed the entry of the greatest key and `resize (n)` all but those of the `n` smallest. -/
theorem map_base_history_partial (h : Linear lt) {dflt : V} {l : List (κ × V)} {F : κ → Option V}
    (hh : MapHistB lt dflt l F) :
    l.Pairwise (fun a b => lt a.1 b.1 = true) ∧ ∀ k v, (k, v) ∈ l ↔ F k = some v := mapB_rep h hh

/-- **C87** no such call is undefined after any history. -/
theorem map_base_progress (h : Linear lt) {dflt : V} {l : List (κ × V)} {F : κ → Option V}
    (hh : MapHistB lt dflt l F) :
    (∀ op : MapOp κ V, op.Pre l → ∃ l', mapStep lt dflt l op = some l' ∧ MapHistB lt dflt l' (op.apply dflt l F)) ∧
    ∀ op : BaseOp (κ × V), op.Pre (fun a b => lt a.1 b.1 = true) l →
      ∃ l', baseStep l op = some l' ∧ MapHistB lt dflt l' (op.mapApply lt l F) := by
  refine ⟨fun op hp => ?_, fun op hp => ?_⟩
  · obtain ⟨l', e, _⟩ := map_step (dflt := dflt) h op (mapB_rep h hh) hp
    exact ⟨l', e, hh.own op hp e⟩
  · obtain ⟨l', e, _⟩ := map_base_step h op (mapB_rep h hh) hp
    exact ⟨l', e, hh.base op hp e⟩
end

/-! ### Multisets and multimaps -/
section
variable {lt : κ → κ → Bool} {key : α → κ}

theorem ofKey_take (h : StrictWeak lt) {l : List α} (hl : KSorted lt key l) (n : Nat) (k : κ) :
    ofKey lt key k (l.take n) = (ofKey lt key k l).take (n - l.countP fun x => lt (key x) k) := by
  obtain ⟨lo, eq, hi, sp⟩ := split h hl k
  have elo : ∀ m, ofKey lt key k (lo.take m) = [] := fun m => ofKey_nil fun x hx he => by
    have := sp.lo x (List.mem_of_mem_take hx); rw [he.2] at this; cases this
  have ehi : ∀ m, ofKey lt key k (hi.take m) = [] := fun m => ofKey_nil fun x hx he => by
    have := sp.hi x (List.mem_of_mem_take hx); rw [he.1] at this; cases this
  have eeq : ∀ m, ofKey lt key k (eq.take m) = eq.take m := fun m => ofKey_all fun x hx =>
    sp.eq x (List.mem_of_mem_take hx)
  have hc : (l.countP fun x => lt (key x) k) = lo.length := by
    rw [sp.cat, List.countP_append, List.countP_append, List.countP_eq_length.2 (fun x hx => sp.lo x hx),
      List.countP_eq_zero.2 (fun x hx => by rw [(sp.eq x hx).2]; simp),
      List.countP_eq_zero.2 (fun x hx => by rw [h.asymm (sp.hi x hx)]; simp)]
    rfl
  have e2 : ofKey lt key k l = eq := by
    have := elo lo.length; have := ehi hi.length; have := eeq eq.length
    rw [List.take_length] at *
    rw [sp.cat, ofKey_append, ofKey_append]
    simp [*]
  rw [hc, e2]
  have e1 : l.take n = lo.take n ++ eq.take (n - lo.length) ++ hi.take (n - (lo ++ eq).length) := by
    rw [sp.cat, List.take_append, List.take_append]
  rw [e1, ofKey_append, ofKey_append, elo, ehi, eeq]
  simp

theorem multi_base_step (h : StrictWeak lt) {l : List α} {F : κ → List α} (op : BaseOp α)
    (hr : MultiRep lt key l F) (hp : op.Pre (fun a b => lt (key b) (key a) = false) l) :
    ∃ l', baseStep l op = some l' ∧ MultiRep lt key l' (op.multiApply lt key l F) := by
  obtain ⟨l', e, hl', el⟩ := base_list (R := fun a b => lt (key b) (key a) = false) hr.1 op hp
  refine ⟨l', e, hl', fun k => ?_⟩
  subst el
  cases op with
  | popBack =>
    have hne : l ≠ [] := hp
    have hpos := List.length_pos_iff.2 hne
    have hlast : l[l.length - 1]? = some (l[l.length - 1]'(by omega)) := List.getElem?_eq_getElem _
    show ofKey lt key k (l.take (l.length - 1)) = _
    have es := (at_split hlast).1
    generalize l[l.length - 1]'(by omega) = z at *
    rw [show l.length - 1 + 1 = l.length by omega, List.drop_length, List.append_nil] at es
    generalize l.take (l.length - 1) = a at *
    subst es
    have hs := hr.1
    unfold KSorted at hs
    rw [List.pairwise_append] at hs
    have hall : ∀ y ∈ a ++ [z], lt (key z) (key y) = false := by
      intro y hy
      rcases List.mem_append.1 hy with hy | hy
      · exact hs.2.2 y hy z (by simp)
      · rw [List.mem_singleton.1 hy]; exact h.irrefl _
    have hF : ∀ k', F k' ≠ [] → ∃ y ∈ a ++ [z], Equiv lt k' (key y) := by
      intro k' hk'
      rw [← hr.2] at hk'
      obtain ⟨y, hy⟩ := List.exists_mem_of_ne_nil _ hk'
      unfold ofKey at hy
      rw [List.mem_filter, decide_eq_true_eq] at hy
      exact ⟨y, hy⟩
    have hFz : F (key z) ≠ [] := by
      rw [← hr.2]
      intro hnil
      have : z ∈ ofKey lt key (key z) (a ++ [z]) := by
        unfold ofKey
        rw [List.mem_filter]
        exact ⟨by simp, decide_eq_true ⟨h.irrefl _, h.irrefl _⟩⟩
      rw [hnil] at this
      cases this
    have hk := hr.2 k
    rw [ofKey_append] at hk
    simp only [BaseOp.multiApply]
    by_cases heq : Equiv lt k (key z)
    · have hz : ofKey lt key k [z] = [z] := ofKey_all fun x hx => by rw [List.mem_singleton.1 hx]; exact heq
      rw [hz] at hk
      rw [if_neg, ← hk, List.dropLast_concat]
      rintro ⟨k', hk', hlt⟩
      obtain ⟨y, hy, he⟩ := hF k' hk'
      have g1 := hall y hy
      have g2 : lt (key z) k' = true := h.lt_of_le_of_lt heq.1 hlt
      have g3 : lt (key z) (key y) = true := h.lt_of_lt_of_le g2 he.2
      rw [g1] at g3; cases g3
    · have hz : ofKey lt key k [z] = [] := ofKey_nil fun x hx => by rw [List.mem_singleton.1 hx]; exact heq
      rw [hz, List.append_nil] at hk
      by_cases hlt : lt k (key z) = true
      · rw [if_pos ⟨key z, hFz, hlt⟩, hk]
      · have hlt' : lt k (key z) = false := by simpa using hlt
        have hgt : lt (key z) k = true := by
          cases hg : lt (key z) k with
          | true => rfl
          | false => exact absurd ⟨hlt', hg⟩ heq
        have hnil : F k = [] := by
          apply Classical.byContradiction
          intro hk'
          obtain ⟨y, hy, he⟩ := hF k hk'
          have g1 := hall y hy
          have g3 : lt (key z) (key y) = true := h.lt_of_lt_of_le hgt he.2
          rw [g1] at g3; cases g3
        rw [hk, hnil]
        simp
  | resize n d =>
    show ofKey lt key k (l.take n) = _
    rw [ofKey_take h hr.1, hr.2]
    rfl
  | write i v => rfl
  | load vs => rfl

theorem multiB_rep (h : StrictWeak lt) {isMap : Bool} {l : List α} {F : κ → List α}
    (hh : MultiHistB lt key isMap l F) : MultiRep lt key l F := by
  induction hh with
  | nil => exact ⟨List.Pairwise.nil, fun _ => rfl⟩
  | own op _ hp he ih =>
    obtain ⟨l', e, r⟩ := multi_step (isMap := isMap) h op ih hp
    rw [he] at e; cases e; exact r
  | base op _ hp he ih =>
    obtain ⟨l', e, r⟩ := multi_base_step h op ih hp
    rw [he] at e; cases e; exact r

/-- **C87** the same for multisets and multimaps: sorted by key, and for every key the entries in order of insertion;
`pop_back` removes the newest entry of the greatest key, `resize (n)` keeps the first `n` entries. -/
theorem multi_base_history_partial (h : StrictWeak lt) {isMap : Bool} {l : List α} {F : κ → List α}
    (hh : MultiHistB lt key isMap l F) :
    l.Pairwise (fun a b => lt (key b) (key a) = false) ∧
    ∀ k, (l.filter fun x => decide (Equiv lt k (key x))) = F k := multiB_rep h hh

/-- **C87** no such call is undefined after any history. -/
theorem multi_base_progress (h : StrictWeak lt) {isMap : Bool} {l : List α} {F : κ → List α}
    (hh : MultiHistB lt key isMap l F) :
    (∀ op : MultiOp α κ, op.Pre l →
      ∃ l', multiStep lt key isMap l op = some l' ∧ MultiHistB lt key isMap l' (op.apply lt key l F)) ∧
    ∀ op : BaseOp α, op.Pre (fun a b => lt (key b) (key a) = false) l →
      ∃ l', baseStep l op = some l' ∧ MultiHistB lt key isMap l' (op.multiApply lt key l F) := by
  refine ⟨fun op hp => ?_, fun op hp => ?_⟩
  · obtain ⟨l', e, _⟩ := multi_step (isMap := isMap) h op (multiB_rep h hh) hp
    exact ⟨l', e, hh.own op hp e⟩
  · obtain ⟨l', e, _⟩ := multi_base_step h op (multiB_rep h hh) hp
    exact ⟨l', e, hh.base op hp e⟩
end

/-! ### What the inherited interface can break -/

/-- **C87 (violated)** growing a set with `resize`: for every set that is not empty and whose greatest element is not
below the value filled in, and for every set grown by two or more, the result is not a set. -/
theorem set_grow_violated {lt : α → α → Bool} (h : StrictWeak lt) (l : List α) (n : Nat) (d : α) (hn : l.length < n)
    (hd : l.length + 2 ≤ n ∨ ∃ x ∈ l, lt x d = false) :
    ∃ l', baseStep l (.resize n d) = some l' ∧ ¬ l'.Pairwise (fun a b => lt a b = true) := by
  refine ⟨l ++ List.replicate (n - l.length) d, by rw [baseStep, if_neg (by omega)], fun hp => ?_⟩
  rw [List.pairwise_append] at hp
  obtain ⟨_, h2, h3⟩ := hp
  rcases hd with hd | ⟨x, hx, hd⟩
  · obtain ⟨m, hm⟩ : ∃ m, n - l.length = m + 2 := ⟨n - l.length - 2, by omega⟩
    rw [hm, List.replicate_succ, List.replicate_succ, List.pairwise_cons] at h2
    have := h2.1 d (by simp)
    rw [h.irrefl] at this; cases this
  · have := h3 x hx d (List.mem_replicate.2 ⟨by omega, rfl⟩)
    rw [hd] at this; cases this

/-- **C87 (violated)** after growing a set that is not empty and holds only elements above `d`, the elements filled in
are there when the set is iterated, but `find` does not find them. -/
theorem set_grow_find_violated [DecidableEq α] {lt : α → α → Bool} (h : StrictWeak lt) (l : List α) (n : Nat) (d : α)
    (hne : l ≠ []) (hn : l.length < n) (hd : ∀ x ∈ l, lt d x = true) :
    ∃ l', baseStep l (.resize n d) = some l' ∧ d ∈ l' ∧ findEq lt id l' d = some l'.length := by
  refine ⟨l ++ List.replicate (n - l.length) d, by rw [baseStep, if_neg (by omega)], ?_, ?_⟩
  · exact List.mem_append.2 (Or.inr (List.mem_replicate.2 ⟨by omega, rfl⟩))
  · have hall : ∀ x ∈ l ++ List.replicate (n - l.length) d, lt x d = false := by
      intro x hx
      rcases List.mem_append.1 hx with hx | hx
      · exact h.asymm (hd x hx)
      · rw [(List.mem_replicate.1 hx).2]; exact h.irrefl _
    obtain ⟨x, r, rfl⟩ := List.exists_cons_of_ne_nil hne
    generalize hm : (x :: r) ++ List.replicate (n - (x :: r).length) d = m at *
    have hx : m[0]? = some x := by rw [← hm]; rfl
    have hpos : 0 < m.length := by rw [← hm]; simp
    obtain ⟨lo, hi, e1, l1, a1, a2⟩ := Search.lowerBound_partitioned (fun x k => lt (id x) k) [] m [] d
      (List.pairwise_of_forall_mem_list fun a ha b hb hlt => by
        have := hall b hb; simp only [id] at hlt; rw [this] at hlt; cases hlt)
    have hlo : lo = [] := by
      cases lo with
      | nil => rfl
      | cons y ys =>
        have g1 := a1 y (by simp)
        have g2 := hall y (by rw [e1]; simp)
        simp only [id] at g1
        rw [g2] at g1; cases g1
    subst hlo
    simp only [List.nil_append, List.append_nil, List.length_nil, Nat.zero_add, Nat.add_zero] at l1
    unfold findEq lb
    rw [l1]
    simp only [rd]
    rw [if_neg (by omega), hx]
    simp only
    have hne : x ≠ d := by
      intro e
      have := hd x (by simp)
      rw [e, h.irrefl] at this; cases this
    rw [if_neg (show ¬ id x = d from hne)]

/-- **C87 (violated)** growing a multiset or multimap: if some key is above that of the value filled in, the result is
not sorted. -/
theorem multi_grow_violated {lt : κ → κ → Bool} {key : α → κ} (l : List α) (n : Nat) (d : α) (hn : l.length < n)
    (hd : ∃ x ∈ l, lt (key d) (key x) = true) :
    ∃ l', baseStep l (.resize n d) = some l' ∧ ¬ l'.Pairwise (fun a b => lt (key b) (key a) = false) := by
  refine ⟨l ++ List.replicate (n - l.length) d, by rw [baseStep, if_neg (by omega)], fun hp => ?_⟩
  rw [List.pairwise_append] at hp
  obtain ⟨x, hx, hd⟩ := hd
  have := hp.2.2 x hx d (List.mem_replicate.2 ⟨by omega, rfl⟩)
  rw [hd] at this; cases this

/-- **C87 (violated)** writing through `operator[]` or an iterator a value that another position of the set holds:
the result is not a set. -/
theorem set_write_violated {lt : α → α → Bool} (h : StrictWeak lt) {l : List α} {i j : Nat} {v : α}
    (hi : i < l.length) (hj : l[j]? = some v) (hij : i ≠ j) :
    ∃ l', baseStep l (.write i v) = some l' ∧ ¬ l'.Pairwise (fun a b => lt a b = true) := by
  refine ⟨l.set i v, wr_eq_some _ _ _ hi, fun hp => ?_⟩
  obtain ⟨hjl, ej⟩ := List.getElem?_eq_some_iff.1 hj
  have e1 : (l.set i v)[i]'(by simpa using hi) = v := List.getElem_set_self _
  have e2 : (l.set i v)[j]'(by simpa using hjl) = v := by rw [List.getElem_set_ne hij]; exact ej
  have key := fun (a b : Nat) (ha) (hb) hab => List.pairwise_iff_getElem.1 hp a b ha hb hab
  have hlt : lt v v = true := by
    rcases Nat.lt_or_ge i j with g | g
    · have := key i j (by simpa using hi) (by simpa using hjl) g
      rwa [e1, e2] at this
    · have := key j i (by simpa using hjl) (by simpa using hi) (by omega)
      rwa [e1, e2] at this
  rw [h.irrefl] at hlt; cases hlt

/-- **C87 (violated)** reading a set from a stream takes the elements as they come: a stream in which some element is
not above an earlier one gives an object that is not a set. -/
theorem set_load_violated {lt : α → α → Bool} (l vs : List α) {i j : Nat} {a b : α} (hij : i < j)
    (ha : vs[i]? = some a) (hb : vs[j]? = some b) (hab : lt a b = false) :
    ∃ l', baseStep l (.load vs) = some l' ∧ ¬ l'.Pairwise (fun a b => lt a b = true) := by
  refine ⟨vs, rfl, fun hp => ?_⟩
  obtain ⟨hi, ei⟩ := List.getElem?_eq_some_iff.1 ha
  obtain ⟨hj, ej⟩ := List.getElem?_eq_some_iff.1 hb
  have := List.pairwise_iff_getElem.1 hp i j hi hj hij
  rw [ei, ej, hab] at this; cases this

/-! ### The hypotheses are met -/

/-- A set grown to five elements, cut to three, its largest popped, a middle element replaced. -/
example : ∃ l S, SetHistB nlt l S ∧ S 3 ∧ S 4 ∧ ¬ S 5 ∧ ¬ S 9 := by
  have pw : ∀ vs : List Nat, vs = [3, 5, 7, 9] → vs.Pairwise (fun a b => nlt a b = true) := by
    rintro _ rfl; decide
  have h1 := SetHistB.base (.load [3, 5, 7, 9]) (SetHistB.nil (lt := nlt)) (pw _ rfl) rfl
  have h2 := h1.base (.resize 3 0) (show (3 : Nat) ≤ _ by decide) rfl
  have h3 := h2.base .popBack (by show _ ≠ _; decide) rfl
  have h4 := h3.base (.write 1 4) ⟨by decide, by decide, by decide⟩ rfl
  have hr := set_base_history_partial nlt_linear h4
  exact ⟨_, _, h4, (hr.2 3).1 (by decide), (hr.2 4).1 (by decide),
    fun hs => absurd ((hr.2 5).2 hs) (by decide), fun hs => absurd ((hr.2 9).2 hs) (by decide)⟩

example : ∃ l F, MapHistB nlt (0 : Nat) l F ∧ F 1 = some 4 ∧ F 2 = none := by
  have h1 := MapHistB.base (.load [(1, 4), (2, 8)]) (MapHistB.nil (lt := nlt) (dflt := 0))
    (show List.Pairwise _ _ by decide) rfl
  have h2 := h1.base .popBack (by show _ ≠ _; decide) rfl
  have hr := map_base_history_partial nlt_linear h2
  refine ⟨_, _, h2, (hr.2 1 4).1 (by decide), ?_⟩
  cases hF : BaseOp.mapApply nlt [(1, 4), (2, 8)] .popBack
      (BaseOp.mapApply nlt [] (.load [(1, 4), (2, 8)]) fun _ => none) 2 with
  | none => rfl
  | some v =>
    have := (hr.2 2 v).2 hF
    simp at this

example : ∃ l F, MultiHistB nlt (Prod.fst : Nat × Nat → Nat) true l F ∧ F 2 = [(2, 7)] := by
  have h1 := MultiHistB.base (.load [(1, 4), (2, 7), (2, 8)])
    (MultiHistB.nil (lt := nlt) (key := (Prod.fst : Nat × Nat → Nat)) (isMap := true))
    (show List.Pairwise _ _ by decide) rfl
  have h2 := h1.base .popBack (by show _ ≠ _; decide) rfl
  have hr := multi_base_history_partial nlt_linear.toStrictWeak h2
  exact ⟨_, _, h2, (hr.2 2).symm.trans (by decide)⟩

example : ∃ l', baseStep [5, 7] (.resize 4 0) = some l' ∧ (0 : Nat) ∈ l' ∧ findEq nlt id l' 0 = some l'.length :=
  set_grow_find_violated nlt_linear.toStrictWeak [5, 7] 4 0 (by decide) (by decide) (by decide)

example : ∃ l', baseStep [5, 7] (.write 0 7) = some l' ∧ ¬ l'.Pairwise (fun a b => nlt a b = true) :=
  set_write_violated nlt_linear.toStrictWeak (j := 1) (by decide) rfl (by decide)

end Ustl.Assoc
