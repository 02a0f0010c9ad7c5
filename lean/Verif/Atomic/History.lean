import Verif.Atomic.Model
import Mathlib.Data.List.Forall2
/-
# C68: what a history of an atomic object must look like, whatever the schedule
-/
namespace Ustl.Atomic
variable {b : Nat}

/-! ## Specification -/

/-- How much a call adds to the object, if that does not depend on what it holds. -/
def Adds : Call b → BitVec b → Prop
  | .fetchAdd v, d | .addFetch v, d | .addAssign v, d => d = v
  | .fetchSub v, d | .subFetch v, d | .subAssign v, d => d = 0 - v
  | .preInc, d => d = 1
  | .preDec, d => d = 0 - 1
  | .load, d | .conv, d => d = 0
  | _, _ => False

/-- The sum of a list of words. -/
def total : List (BitVec b) → BitVec b
  | [] => 0
  | d :: ds => d + total ds

/-- What an adding call returns, to a caller that looks, when the object held `w`: the old value
    for `fetch_…` and reads, the new value for `…_fetch`. -/
def Returns : Call b → BitVec b → BitVec b → Prop
  | .fetchAdd _, w, r | .fetchSub _, w, r | .load, w, r | .conv, w, r => r = w
  | .addFetch v, w, r => r = w + v
  | .subFetch v, w, r => r = w - v
  | _, _, _ => True

/-! ## Sums -/

theorem does_adds {c : Call b} {d w w' : BitVec b} {r : Ret b} (ha : Adds c d)
    (h : Builtin.Does c.code w r w') : w' = w + d ∧ Returns c w r.val := by
  cases c <;> simp only [Adds] at ha <;> try exact ha.elim
  all_goals
    subst ha
    simp only [Call.code] at h
    cases h
    refine ⟨?_, ?_⟩
    · simp [Fn.ap, BitVec.sub_eq_add_neg]
    · simp [Returns, Fn.ap]

/-- **C68**: no update is lost.  Whatever the schedule, an object on which every call adds,
    subtracts, counts up or down, or reads, ends up with its first value plus all that was added
    minus all that was subtracted, modulo `2^b`. -/
theorem adds_total {w w' : BitVec b} {es : List (Event b)} (h : Hist w es w')
    {ds : List (BitVec b)} (hd : List.Forall₂ (fun e d => Adds e.call d) es ds) :
    w' = w + total ds := by
  induction h generalizing ds with
  | nil w => cases hd; simp [total]
  | cons hs _ ih =>
    cases hd with
    | cons ha hd =>
      rw [ih hd, (does_adds ha hs).1]
      simp [total, BitVec.add_assoc]

/-- **C68**: and every call sees the sum of what took effect before it: nothing of what came
    before is missing and nothing of what comes after is there yet. -/
theorem adds_seen {w w' : BitVec b} {pre post : List (Event b)} {e : Event b}
    (h : Hist w (pre ++ e :: post) w') {ds : List (BitVec b)} {d : BitVec b}
    (hd : List.Forall₂ (fun e d => Adds e.call d) pre ds) (he : Adds e.call d) :
    Returns e.call (w + total ds) e.ret.val := by
  induction pre generalizing w ds with
  | nil =>
    cases hd
    cases h with
    | cons hs _ =>
      have := (does_adds he hs).2
      simpa [total] using this
  | cons a pre ih =>
    cases hd with
    | cons ha hd =>
      cases h with
      | cons hs ht =>
        have := ih ht hd
        rw [(does_adds ha hs).1] at this
        simpa [total, BitVec.add_assoc] using this

/-- Two threads, `a += 3` and `a.fetch_sub (1)`, then a read. -/
example : ∃ es : List (Event 8), es.length = 3 ∧ Hist 250 es 252 ∧
    List.Forall₂ (fun e d => Adds e.call d) es [3, 255, 0] :=
  ⟨[⟨0, .addAssign 3, ⟨253, true⟩⟩, ⟨1, .fetchSub 1, ⟨253, true⟩⟩, ⟨0, .conv, ⟨252, true⟩⟩], rfl,
    .cons (.opFetch .add 3 250) (.cons (.fetchOp .sub 1 253) (.cons (.loadN 252) (.nil 252))),
    .cons rfl (.cons rfl (.cons rfl .nil))⟩

/-! ## Tickets -/

/-- The calls of a history that are `fetch_add (1)`. -/
def draws (es : List (Event b)) : List (Event b) := es.filter fun e => e.call = .fetchAdd 1

/-- **C68**: tickets.  If the calls on an object are `fetch_add (1)` and reads, by any threads in
    any order, then the `k`-th `fetch_add` to take effect returns the first value plus `k`. -/
theorem tickets {w w' : BitVec b} {es : List (Event b)} (h : Hist w es w')
    (hc : ∀ e ∈ es, e.call = .fetchAdd 1 ∨ e.call = .load) :
    (draws es).map (·.ret.val) =
      (List.range (draws es).length).map fun k => w + BitVec.ofNat b k := by
  induction h with
  | nil w => rfl
  | @cons w e w' es w'' hs _ ih =>
    have ih := ih fun e he => hc e (List.mem_cons_of_mem _ he)
    rcases hc e (List.mem_cons_self ..) with he | he
    · have hd : draws (e :: es) = e :: draws es := by simp [draws, he]
      rw [he] at hs
      cases hr : e.ret with
      | mk rv rok =>
      rw [hr] at hs
      simp only [Call.code] at hs
      cases hs
      rw [hd, List.map_cons, ih, List.length_cons, List.range_succ_eq_map, List.map_cons,
        List.map_map, hr]
      congr 1
      · simp
      · apply List.map_congr_left
        intro k _
        simp only [Fn.ap, Function.comp]
        apply BitVec.eq_of_toNat_eq
        simp [BitVec.toNat_add, Nat.add_assoc, Nat.add_comm 1]
    · have hd : draws (e :: es) = draws es := by simp [draws, he]
      rw [he] at hs
      cases hr : e.ret with
      | mk rv rok =>
      rw [hr] at hs
      simp only [Call.code] at hs
      cases hs
      rw [hd, ih]

/-- **C68**: so that no two of up to `2^b` calls get the same ticket. -/
theorem tickets_distinct {w w' : BitVec b} {es : List (Event b)} (h : Hist w es w')
    (hc : ∀ e ∈ es, e.call = .fetchAdd 1 ∨ e.call = .load) (hn : (draws es).length ≤ 2 ^ b) :
    ((draws es).map (·.ret.val)).Nodup := by
  rw [tickets h hc]
  rw [List.Nodup, List.pairwise_map]
  refine List.Pairwise.imp_of_mem ?_ List.pairwise_lt_range
  intro i j hi hj hij he
  have hi := List.mem_range.1 hi
  have hj := List.mem_range.1 hj
  have := congrArg (fun v => (v - w).toNat) he
  simp only [BitVec.add_comm w, BitVec.add_sub_cancel, BitVec.toNat_ofNat] at this
  rw [Nat.mod_eq_of_lt (by omega), Nat.mod_eq_of_lt (by omega)] at this
  omega

example : Hist (b := 8) 255 [⟨0, .fetchAdd 1, ⟨255, true⟩⟩, ⟨1, .load, ⟨0, true⟩⟩,
    ⟨1, .fetchAdd 1, ⟨0, true⟩⟩] 1 :=
  .cons (.fetchOp .add 1 255) (.cons (.loadN 0) (.cons (.fetchOp .add 1 0) (.nil 1)))

/-- **C68**: `++a` gives no ticket.  It returns a reference to the object, and reading the value
    through it is a second operation: two threads that each evaluate `T n = ++a` can both get 2. -/
theorem pre_increment_violated :
    ∃ es : List (Event 32), Hist 0 es 2 ∧
      es.map (fun e => (e.tid, e.call)) = [(0, .preInc), (1, .preInc), (0, .conv), (1, .conv)] ∧
      (es.filter fun e => e.call = .conv).map (·.ret.val) = [2, 2] :=
  ⟨[⟨0, .preInc, ⟨1, true⟩⟩, ⟨1, .preInc, ⟨2, true⟩⟩, ⟨0, .conv, ⟨2, true⟩⟩, ⟨1, .conv, ⟨2, true⟩⟩],
    .cons (.opFetch .add 1 0) (.cons (.opFetch .add 1 1) (.cons (.loadN 2) (.cons (.loadN 2) (.nil 2)))),
    rfl, rfl⟩

/-! ## The last reference -/

/-- **C68**: reference counting.  If `n` holders each call `sub_fetch (1)` on a count of `n`, in
    any order, exactly one of them gets 0, and it is the last to take effect. -/
theorem last_reference {w w' : BitVec b} {es : List (Event b)} (h : Hist w es w')
    (hc : ∀ e ∈ es, e.call = .subFetch 1) (hn : es.length = w.toNat) (hpos : es ≠ []) :
    w' = 0 ∧ ∃ pre e, es = pre ++ [e] ∧ e.ret.val = 0 ∧ ∀ x ∈ pre, x.ret.val ≠ 0 := by
  induction h with
  | nil w => exact absurd rfl hpos
  | @cons w e w' es w'' hs ht ih =>
    have he := hc e (List.mem_cons_self ..)
    rw [he] at hs
    cases hr : e.ret with
    | mk rv rok =>
    rw [hr] at hs
    simp only [Call.code] at hs
    cases hs
    simp only [Fn.ap, List.length_cons] at *
    have hlt := w.isLt
    have hw : (w - 1).toNat = es.length := by
      have hb : 1 < 2 ^ b ∨ b = 0 := by
        rcases Nat.eq_zero_or_pos b with hb | hb
        · exact .inr hb
        · exact .inl (Nat.one_lt_two_pow (by omega))
      rcases hb with hb | hb
      · have h1 : (1 : BitVec b).toNat = 1 := by
          show 1 % 2 ^ b = 1
          exact Nat.mod_eq_of_lt hb
        rw [BitVec.toNat_sub, h1]
        have : 2 ^ b - 1 + w.toNat = es.length + 2 ^ b := by omega
        rw [this, Nat.add_mod_right, Nat.mod_eq_of_lt (by omega)]
      · subst hb
        have : w.toNat = 0 := by omega
        omega
    cases es with
    | nil =>
      cases ht
      have h0 : w - 1 = 0 := BitVec.eq_of_toNat_eq (by simpa using hw)
      exact ⟨h0, [], e, rfl, by rw [hr]; exact h0, by simp⟩
    | cons a es =>
      obtain ⟨hw0, pre, l, hpl, hl, hpre⟩ :=
        ih (fun e he => hc e (List.mem_cons_of_mem _ he)) hw.symm (by simp)
      refine ⟨hw0, e :: pre, l, by rw [hpl]; rfl, hl, ?_⟩
      intro x hx
      rcases List.mem_cons.1 hx with hx | hx
      · subst hx
        rw [hr]
        intro h0
        have h0 : w - 1 = 0 := h0
        rw [h0] at hw
        simp at hw
      · exact hpre x hx

example : Hist (b := 8) 2 [⟨1, .subFetch 1, ⟨1, true⟩⟩, ⟨0, .subFetch 1, ⟨0, true⟩⟩] 0 :=
  .cons (.opFetch .sub 1 2) (.cons (.opFetch .sub 1 1) (.nil 0))

/-! ## Bits -/

/-- The calls that set bits, and which they set. -/
def Sets : Call b → BitVec b → Prop
  | .fetchOr v, m | .orFetch v, m | .orAssign v, m => m = v
  | .load, m | .conv, m => m = 0
  | _, _ => False

/-- The calls that mask bits, and which they keep. -/
def Keeps : Call b → BitVec b → Prop
  | .fetchAnd v, m | .andFetch v, m | .andAssign v, m => m = v
  | .load, m | .conv, m => m = BitVec.allOnes b
  | _, _ => False

/-- The calls that flip bits, and which they flip. -/
def Flips : Call b → BitVec b → Prop
  | .fetchXor v, m | .xorFetch v, m | .xorAssign v, m => m = v
  | .load, m | .conv, m => m = 0
  | _, _ => False

/-- **C68**: setting bits from many threads: a bit is set in the end exactly when it was set in
    the beginning or some call set it. -/
theorem sets_total {w w' : BitVec b} {es : List (Event b)} (h : Hist w es w')
    {ms : List (BitVec b)} (hm : List.Forall₂ (fun e m => Sets e.call m) es ms) (i : Nat) :
    w'.getLsbD i = true ↔ w.getLsbD i = true ∨ ∃ m ∈ ms, m.getLsbD i = true := by
  induction h generalizing ms with
  | nil w => cases hm; simp
  | @cons w e w' es w'' hs _ ih =>
    cases hm with
    | @cons _ m _ ms ha hm =>
      have hw : w' = w ||| m := by
        cases hcall : e.call <;> rw [hcall] at ha hs <;> simp only [Sets] at ha <;>
          try exact ha.elim
        all_goals
          subst ha
          simp only [Call.code] at hs
          generalize e.ret = r at hs
          cases hs
          simp [Fn.ap]
      rw [ih hm, hw]
      simp [or_assoc]

/-- **C68**: clearing bits from many threads: a bit is set in the end exactly when it was set in
    the beginning and every call kept it. -/
theorem keeps_total {w w' : BitVec b} {es : List (Event b)} (h : Hist w es w')
    {ms : List (BitVec b)} (hm : List.Forall₂ (fun e m => Keeps e.call m) es ms) (i : Nat) :
    w'.getLsbD i = true ↔ w.getLsbD i = true ∧ ∀ m ∈ ms, m.getLsbD i = true := by
  induction h generalizing ms with
  | nil w => cases hm; simp
  | @cons w e w' es w'' hs _ ih =>
    cases hm with
    | @cons _ m _ ms ha hm =>
      have hw : w' = w &&& m := by
        cases hcall : e.call <;> rw [hcall] at ha hs <;> simp only [Keeps] at ha <;>
          try exact ha.elim
        all_goals
          subst ha
          simp only [Call.code] at hs
          generalize e.ret = r at hs
          cases hs
          simp [Fn.ap]
      rw [ih hm, hw]
      simp [and_assoc]

/-- **C68**: flipping bits from many threads: a bit changes in the end exactly when an odd number
    of the calls flip it. -/
theorem flips_total {w w' : BitVec b} {es : List (Event b)} (h : Hist w es w')
    {ms : List (BitVec b)} (hm : List.Forall₂ (fun e m => Flips e.call m) es ms) (i : Nat) :
    (w'.getLsbD i ≠ w.getLsbD i) ↔ (ms.filter (·.getLsbD i)).length % 2 = 1 := by
  induction h generalizing ms with
  | nil w => cases hm; simp
  | @cons w e w' es w'' hs _ ih =>
    cases hm with
    | @cons _ m _ ms ha hm =>
      have hw : w' = w ^^^ m := by
        cases hcall : e.call <;> rw [hcall] at ha hs <;> simp only [Flips] at ha <;>
          try exact ha.elim
        all_goals
          subst ha
          simp only [Call.code] at hs
          generalize e.ret = r at hs
          cases hs
          simp [Fn.ap]
      have ih := ih hm
      have hb : w'.getLsbD i = (w.getLsbD i ^^ m.getLsbD i) := by rw [hw]; simp
      rw [hb] at ih
      rw [List.filter_cons]
      cases h1 : m.getLsbD i <;> cases h2 : w.getLsbD i <;> cases h3 : w''.getLsbD i <;>
        simp [h1, h2, h3] at ih ⊢ <;> omega

example : Hist (b := 4) 0b0011 [⟨0, .orAssign 0b0100, ⟨0b0111, true⟩⟩,
    ⟨1, .fetchOr 0b0001, ⟨0b0111, true⟩⟩] 0b0111 :=
  .cons (.opFetch .or 4 3) (.cons (.fetchOp .or 1 7) (.nil 7))
example : Hist (b := 4) 0b0011 [⟨0, .andAssign 0b0110, ⟨0b0010, true⟩⟩] 0b0010 :=
  .cons (.opFetch .and 6 3) (.nil 2)
example : Hist (b := 4) 0b0011 [⟨0, .xorFetch 0b0110, ⟨0b0101, true⟩⟩,
    ⟨1, .fetchXor 0b0110, ⟨0b0101, true⟩⟩] 0b0011 :=
  .cons (.opFetch .xor 6 3) (.cons (.fetchOp .xor 6 5) (.nil 3))

/-- **C68**: claiming a bit.  If the calls are all `fetch_or`, then of those that set bit `i`, on an
    object where it is clear, exactly the first to take effect sees it clear. -/
theorem claim_once {w w' : BitVec b} {es : List (Event b)} (h : Hist w es w') (i : Nat)
    (hc : ∀ e ∈ es, ∃ m, e.call = .fetchOr m) :
    let claims := es.filter fun e => match e.call with | .fetchOr m => m.getLsbD i | _ => false
    claims.map (fun e => e.ret.val.getLsbD i) =
      (List.range claims.length).map fun k => w.getLsbD i || decide (k ≠ 0) := by
  induction h with
  | nil w => rfl
  | @cons w e w' es w'' hs _ ih =>
    have ih := ih fun e he => hc e (List.mem_cons_of_mem _ he)
    obtain ⟨m, he⟩ := hc e (List.mem_cons_self ..)
    cases hr : e.ret with
    | mk rv rok =>
    rw [he, hr] at hs
    simp only [Call.code] at hs
    cases hs
    simp only [Fn.ap] at ih
    rw [List.filter_cons]
    simp only [he]
    cases hm : m.getLsbD i with
    | false =>
      simp only [Bool.false_eq_true, if_false]
      rw [ih]
      simp [hm]
    | true =>
      simp only [if_true]
      rw [List.map_cons, ih, List.length_cons, List.range_succ_eq_map, List.map_cons, List.map_map,
        hr]
      congr 1
      · simp
      · apply List.map_congr_left
        intro k _
        simp [hm]

example : Hist (b := 8) 4 [⟨0, .fetchOr 1, ⟨4, true⟩⟩, ⟨1, .fetchOr 3, ⟨5, true⟩⟩] 7 :=
  .cons (.fetchOp .or 1 4) (.cons (.fetchOp .or 3 5) (.nil 7))

/-! ## Exchanging tokens -/

/-- **C68**: `exchange` neither loses nor copies a value: what was put in, with the first value of
    the object, is what was taken out, with its last. -/
theorem exchange_conserves {w w' : BitVec b} {es : List (Event b)} (h : Hist w es w')
    {vs : List (BitVec b)} (hv : List.Forall₂ (fun e v => e.call = .exchange v) es vs) :
    (w :: vs).Perm (w' :: es.map (·.ret.val)) := by
  induction h generalizing vs with
  | nil w => cases hv; exact .refl _
  | @cons w e w' es w'' hs _ ih =>
    cases hv with
    | @cons _ v _ vs he hv =>
      cases hr : e.ret with
      | mk rv rok =>
      rw [he, hr] at hs
      simp only [Call.code] at hs
      cases hs
      have := ih hv
      rw [List.map_cons, hr]
      exact (this.cons _).trans (.swap ..)

example : Hist (b := 8) 1 [⟨0, .exchange 2, ⟨1, true⟩⟩, ⟨1, .exchange 3, ⟨2, true⟩⟩] 3 :=
  .cons (.exchangeN 2 1) (.cons (.exchangeN 3 2) (.nil 3))

/-! ## Compare and exchange -/

/-- **C68**: compare-exchange does what it says.  If it reports success, the object held the
    expected value and now holds the desired one; if it reports failure, the object is unchanged
    and the caller's `expected` now has what it holds; and only the weak form may fail when the
    object holds the expected value. -/
theorem compare_exchange {w w' e d : BitVec b} {weak : Bool} {t : Nat} {r : Ret b}
    (h : Hist w [⟨t, if weak then .compareExchangeWeak e d else .compareExchangeStrong e d, r⟩] w') :
    (r.ok = true ↔ w = e ∧ w' = d ∧ r = ⟨e, true⟩) ∧
    (r.ok = false ↔ w' = w ∧ r = ⟨w, false⟩) ∧ (r.ok = false → weak = false → w ≠ e) := by
  cases h with
  | cons hs ht =>
  cases ht
  have hcode : Call.code (if weak then .compareExchangeWeak e d else .compareExchangeStrong e d)
      = Builtin.casN e d weak := by cases weak <;> rfl
  rw [hcode] at hs
  cases hs <;> simp_all

example : Hist (b := 8) 5 [⟨0, if false then .compareExchangeWeak 4 9 else .compareExchangeStrong 4 9,
    ⟨5, false⟩⟩] 5 := .cons (.casMiss 4 9 false 5 (by decide)) (.nil 5)

theorem all_missed {u v e : BitVec b} {l : List (Event b)} {q : List (BitVec b)} (h : Hist u l v)
    (hq : List.Forall₂ (fun x d => d ≠ e ∧ (x.call = .compareExchangeWeak e d ∨
      x.call = .compareExchangeStrong e d)) l q) (hf : ∀ y ∈ l, y.ret.ok = false) :
    v = u ∧ ∀ y ∈ l, y.ret.val = u := by
  induction h generalizing q with
  | nil => simp
  | @cons u1 y1 u2 l1 u3 hy1 _ ih1 =>
    cases hq with
    | @cons _ d3 _ q hq1 hq2 =>
    have ih := ih1 hq2 fun y hy => hf y (List.mem_cons_of_mem _ hy)
    have hf := hf y1 (List.mem_cons_self ..)
    have : ∃ k, Builtin.Does (.casN e d3 k) u1 y1.ret u2 := by
      rcases hq1.2 with h | h
      · exact ⟨true, by rw [h] at hy1; exact hy1⟩
      · exact ⟨false, by rw [h] at hy1; exact hy1⟩
    obtain ⟨k, this⟩ := this
    have h1 : u2 = u1 ∧ y1.ret.val = u1 := by
      generalize y1.ret = r at this hf
      cases this <;> simp_all
    obtain ⟨h1, h2⟩ := h1
    subst h1
    refine ⟨ih.1, fun y hy => ?_⟩
    rcases List.mem_cons.1 hy with rfl | hy
    · exact h2
    · exact ih.2 y hy

/-- **C68**: one winner.  If threads race to replace `e` by values other than `e`, at most one
    compare-exchange succeeds, and the object ends with the value of the one that did; if one of
    them is a strong one, and the object held `e`, then one did. -/
theorem one_winner {w w' e : BitVec b} {es : List (Event b)} (h : Hist w es w')
    {ds : List (BitVec b)}
    (hd : List.Forall₂ (fun x d => d ≠ e ∧ (x.call = .compareExchangeWeak e d ∨
      x.call = .compareExchangeStrong e d)) es ds) :
    ((∀ x ∈ es, x.ret.ok = false) ∧ w' = w ∧
        (w = e → ∀ x ∈ es, ∀ d, x.call ≠ .compareExchangeStrong e d)) ∨
    (w = e ∧ ∃ pre x post, es = pre ++ x :: post ∧ x.ret.ok = true ∧
      (x.call = .compareExchangeWeak e w' ∨ x.call = .compareExchangeStrong e w') ∧
      (∀ y ∈ pre ++ post, y.ret.ok = false) ∧ (∀ y ∈ post, y.ret.val = w')) := by
  induction h generalizing ds with
  | nil w => exact .inl ⟨by simp, rfl, by simp⟩
  | @cons w x w' es w'' hs ht ih =>
    cases hd with
    | @cons _ d _ ds hx hd =>
    have ih := ih hd
    obtain ⟨hde, hx⟩ := hx
    have hcode : ∃ k, Builtin.Does (.casN e d k) w x.ret w' ∧
        (k = false ∨ x.call = .compareExchangeWeak e d) := by
      rcases hx with hx | hx
      · exact ⟨true, by rw [hx] at hs; exact hs, .inr hx⟩
      · exact ⟨false, by rw [hx] at hs; exact hs, .inl rfl⟩
    obtain ⟨k, hs', hk⟩ := hcode
    generalize hrr : x.ret = r at hs'
    have miss : x.ret.ok = false → w' = w → (w = e → ∀ d, x.call ≠ .compareExchangeStrong e d) →
        ((∀ y ∈ x :: es, y.ret.ok = false) ∧ w'' = w ∧
          (w = e → ∀ y ∈ x :: es, ∀ d, y.call ≠ .compareExchangeStrong e d)) ∨
        (w = e ∧ ∃ pre y post, x :: es = pre ++ y :: post ∧ y.ret.ok = true ∧
          (y.call = .compareExchangeWeak e w'' ∨ y.call = .compareExchangeStrong e w'') ∧
          (∀ z ∈ pre ++ post, z.ret.ok = false) ∧ (∀ z ∈ post, z.ret.val = w'')) := by
      intro hf hw hns
      rcases ih with ⟨h1, h2, h3⟩ | ⟨h1, pre, y, post, h2, h3, h4, h5, h6⟩
      · refine .inl ⟨?_, h2.trans hw, ?_⟩
        · intro y hy
          rcases List.mem_cons.1 hy with rfl | hy
          · exact hf
          · exact h1 y hy
        · intro hwe y hy
          rcases List.mem_cons.1 hy with rfl | hy
          · exact hns hwe
          · exact h3 (hw.trans hwe) y hy
      · refine .inr ⟨hw ▸ h1, x :: pre, y, post, by rw [h2]; rfl, h3, h4, ?_, h6⟩
        intro z hz
        rcases List.mem_cons.1 (List.cons_append ▸ hz) with rfl | hz
        · exact hf
        · exact h5 z hz
    cases hs' with
    | casHit =>
      refine .inr ⟨rfl, [], x, es, rfl, by rw [hrr], ?_, ?_⟩
      · rcases ih with ⟨_, h2, _⟩ | ⟨h1, _⟩
        · rw [h2]; exact hx
        · exact absurd h1 hde
      · have hall : (∀ y ∈ es, y.ret.ok = false) ∧ w'' = w' := by
          rcases ih with ⟨h1, h2, _⟩ | ⟨h1, _⟩
          · exact ⟨h1, h2⟩
          · exact absurd h1 hde
        refine ⟨hall.1, ?_⟩
        rw [hall.2]
        exact (all_missed ht hd hall.1).2
    | casMiss _ _ _ _ hne => exact miss (by rw [hrr]) rfl (fun h => absurd h hne)
    | casSpurious =>
      refine miss (by rw [hrr]) rfl ?_
      intro _ d2 h2
      rcases hk with hk | hk
      · cases hk
      · rw [hk] at h2; cases h2

/-- Three threads elect a leader; the first attempt fails without cause. -/
example : Hist (b := 8) 0 [⟨0, .compareExchangeWeak 0 1, ⟨0, false⟩⟩,
    ⟨1, .compareExchangeStrong 0 2, ⟨0, true⟩⟩, ⟨2, .compareExchangeWeak 0 3, ⟨2, false⟩⟩] 2 :=
  .cons (.casSpurious 0 1) (.cons (.casHit 0 2 false) (.cons (.casMiss 0 3 true 2 (by decide)) (.nil 2)))

/-! ## Every call, in every history -/

/-- What the object holds after one call, if it held `x` before (C++14 atomics.types.operations). A compare-exchange
    that failed leaves it alone. -/
def after (e : Event b) (x : BitVec b) : BitVec b :=
  match e.call with
  | .store v | .assign v | .exchange v => v
  | .load | .conv => x
  | .compareExchangeWeak _ d | .compareExchangeStrong _ d => if e.ret.ok then d else x
  | .fetchAdd v | .addFetch v | .addAssign v => x + v
  | .fetchSub v | .subFetch v | .subAssign v => x - v
  | .fetchAnd v | .andFetch v | .andAssign v => x &&& v
  | .fetchOr v | .orFetch v | .orAssign v => x ||| v
  | .fetchXor v | .xorFetch v | .xorAssign v => x ^^^ v
  | .preInc => x + 1
  | .preDec => x - 1

/-- The calls that give the caller the value from before: the loads, the `fetch_` forms, exchange, and
    compare-exchange (in `expected`). -/
def SeesOld : Call b → Prop
  | .load | .conv | .exchange _ | .fetchAdd _ | .fetchSub _ | .fetchAnd _ | .fetchOr _ | .fetchXor _
  | .compareExchangeWeak .. | .compareExchangeStrong .. => True
  | _ => False

/-- The calls that give the caller the value from after: the `_fetch` forms. -/
def SeesNew : Call b → Prop
  | .addFetch _ | .subFetch _ | .andFetch _ | .orFetch _ | .xorFetch _ => True
  | _ => False

/-- **C68**: in any history, with any number of threads and any mixture of calls, the object holds at each moment what
    the calls that took effect so far make of the initial value, one after the other, and a call that returns a value
    returns the one from just before it, or just after it, as its name says. -/
theorem every_call {w w' : BitVec b} {es : List (Event b)} (h : Hist w es w') :
    w' = es.foldl (fun x e => after e x) w ∧
    ∀ pre e post, es = pre ++ e :: post →
      (SeesOld e.call → e.ret.val = pre.foldl (fun x e => after e x) w) ∧
      (SeesNew e.call → e.ret.val = (pre ++ [e]).foldl (fun x e => after e x) w) := by
  induction h with
  | nil => exact ⟨rfl, fun pre e post h => by simp at h⟩
  | @cons w x w1 es w2 hs _ ih =>
    have key : w1 = after x w ∧ (SeesOld x.call → x.ret.val = w) ∧ (SeesNew x.call → x.ret.val = w1) := by
      obtain ⟨t, c, r⟩ := x
      cases c <;> cases hs <;> simp [after, SeesOld, SeesNew, Fn.ap]
    obtain ⟨rfl, ho, hn⟩ := key
    refine ⟨ih.1, fun pre e post heq => ?_⟩
    cases pre with
    | nil =>
      simp only [List.nil_append, List.cons.injEq] at heq
      obtain ⟨rfl, rfl⟩ := heq
      exact ⟨ho, hn⟩
    | cons y pre =>
      simp only [List.cons_append, List.cons.injEq] at heq
      obtain ⟨rfl, rfl⟩ := heq
      exact ih.2 pre e post rfl

example : Hist (b := 8) 6 [⟨0, .fetchAnd 3, ⟨6, true⟩⟩, ⟨1, .assign 9, ⟨9, true⟩⟩, ⟨0, .xorFetch 1, ⟨8, true⟩⟩] 8 :=
  .cons (.fetchOp .and 3 6) (.cons (.storeN 9 2) (.cons (.opFetch .xor 1 9) (.nil 8)))

end Ustl.Atomic
