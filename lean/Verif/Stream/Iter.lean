import Verif.Stream.IterModel
import Verif.Stream.Props
/-! # C69: reading a binary stream through `istream_iterator` -/
namespace Ustl.Stream
variable {junk : List Byte} {t : Ty}

/-- The block at `s` holds the values `vs`, as they are written one after another, from the current position on, and
then `tail`. -/
structure Holds (s : IS) (vs : List (Val t)) (tail : List Byte) : Prop where
  pos : s.pos ≤ s.buf.length
  small : s.buf.length + 8 ≤ W
  bytes : s.buf.drop s.pos = encAll (enc t) vs s.pos ++ tail

/-- The values can be written, and every size check made when they are read back passes (see C38; always so for
integers, strings, and fixed-size arrays of them). -/
def ReadsBack (vs : List (Val t)) (p r : Nat) : Prop :=
  WfTy t ∧ (∀ v ∈ vs, Okv t v) ∧ chkAll (chk t) (enc t) vs p r

theorem okv_of {t : Ty} {v : Val t} (h : @decide (Okv t v) (decOkv t v) = true) : Okv t v :=
  @of_decide_eq_true _ (decOkv t v) h

theorem okv_shape : ∀ (t : Ty) (v : Val t), Okv t v → Shape t v
  | .int _, _, _ => trivial
  | .bool, _, _ => trivial
  | .raw _ _, _, _ => trivial
  | .str, _, _ => trivial
  | .blk, _, _ => trivial
  | .pair a b, _, h => ⟨okv_shape a _ (okv_pair h).1, okv_shape b _ (okv_pair h).2⟩
  | .arr _ t, _, h => ⟨(okv_arr h).1, fun x hx => okv_shape t x ((okv_arr h).2 x hx)⟩
  | .vec t, _, h => fun x hx => okv_shape t x ((okv_vec h).2 x hx)

theorem Holds.len {s : IS} {vs : List (Val t)} {tail : List Byte} (h : Holds s vs tail) :
    s.remaining = (encAll (enc t) vs s.pos).length + tail.length := by
  rw [IS.remaining_eq h.pos (by have := h.small; omega)]
  have := congrArg List.length h.bytes
  rw [List.length_drop, List.length_append] at this
  exact this

/-- What `Read ()` does when a value follows and the value before it was not bigger than what remains. -/
theorem next_value {it : Itr t} {s : IS} {v : Val t} {vs : List (Val t)} {tail : List Byte} (hon : it.on = true)
    (hsh : Shape t it.v) (h : Holds s (v :: vs) tail) (hf : ReadsBack (v :: vs) s.pos tail.length)
    (hrs : ss t it.v ≤ s.remaining) :
    it.next junk s = .ret ⟨true, v⟩ { s with pos := s.pos + (enc t v s.pos).length } := by
  unfold Itr.next
  rw [if_neg (by rw [hon]; simp), if_neg (by omega)]
  unfold Itr.fetch
  obtain ⟨hw, hv, hc⟩ := hf
  have hr := read_reads junk t it.v v s.pos _ hw (hv v (List.mem_cons_self ..)) hsh hc.1
  have hlen := h.pos
  have := hr s (s.buf.take s.pos) (encAll (enc t) vs (s.pos + (enc t v s.pos).length) ++ tail)
    (by
      have hb := h.bytes
      rw [encAll, List.append_assoc] at hb
      rw [← hb, List.take_append_drop])
    (by rw [List.length_take]; omega) rfl (by rw [List.length_append]; omega) h.small
  rw [M.bind_ret this]
  rfl

theorem Holds.tail {s : IS} {v : Val t} {vs : List (Val t)} {tl : List Byte} (h : Holds s (v :: vs) tl) :
    Holds { s with pos := s.pos + (enc t v s.pos).length } vs tl := by
  have hb := h.bytes
  rw [encAll, List.append_assoc] at hb
  have hl := congrArg List.length hb
  simp only [List.length_append, List.length_drop] at hl
  have := h.pos
  refine ⟨?_, h.small, ?_⟩
  · show s.pos + (enc t v s.pos).length ≤ s.buf.length
    omega
  · show s.buf.drop (s.pos + (enc t v s.pos).length) = _
    rw [← List.drop_drop, hb, List.drop_left]

theorem ReadsBack.tail {v : Val t} {vs : List (Val t)} {p r : Nat} (h : ReadsBack (v :: vs) p r) :
    ReadsBack vs (p + (enc t v p).length) r :=
  ⟨h.1, fun x hx => h.2.1 x (List.mem_cons_of_mem _ hx), h.2.2.2⟩

/-- The state of the stream after a failed check for more bytes. -/
def IS.starved (s : IS) : IS := { s with ios := (s.ios.overrun s.remaining).1 }

theorem starved_fail (s : IS) : s.starved.ios.fail = true := by
  unfold IS.starved Ios.overrun Ios.fail
  generalize s.remaining % 2 ^ 32 = r
  have hbit : ∀ v, v &&& 4 = 4 → (s.ios.state ||| v) &&& 5 ≠ 0 := by
    intro v hv h0
    have h1 : ((s.ios.state ||| v) &&& 5) &&& 4 = 0 := by rw [h0]; simp
    rw [Nat.and_assoc, show (5 : Nat) &&& 4 = 4 by decide, Nat.and_or_distrib_right, hv] at h1
    have : (s.ios.state &&& 4 ||| 4).testBit 2 = false := by rw [h1]; simp
    rw [Nat.testBit_or] at this
    simp [show Nat.testBit 4 2 = true by decide] at this
  simp only [decide_eq_true_eq]
  split <;> exact hbit _ (by decide)

/-- What `Read ()` does when less remains than the value before took, and nothing is to be thrown: the end. -/
theorem next_short {it : Itr t} {s : IS} (hon : it.on = true) (hrs : s.remaining < ss t it.v)
    (hx : s.ios.exc &&& 6 = 0) : it.next junk s = .ret ⟨false, it.v⟩ s.starved := by
  unfold Itr.next
  rw [if_neg (by rw [hon]; simp), if_pos hrs]
  generalize ss t it.v = k at hrs
  have hx4 : s.ios.exc &&& 4 = 0 := by
    rw [show (4 : Nat) = 6 &&& 4 by decide, ← Nat.and_assoc, hx, Nat.zero_and]
  have hv : IS.verify k s = .ret false s.starved := by
    unfold IS.verify
    rw [if_neg (by omega)]
    unfold IS.starved IS.over Ios.overrun
    generalize s.remaining % 2 ^ 32 = r
    by_cases hr : r ≠ 0
    · simp [hr, hx4]
    · simp only [if_neg hr, hx]; rfl
  have hu : IS.underflow k s = .ret s.remaining s.starved := by
    exact M.bind_ret hv
  rw [M.bind_ret hu]
  unfold Itr.judge
  rw [if_pos hrs]; rfl

/-- And when `failbit` is to be thrown: the exception. -/
theorem next_throws {it : Itr t} {s : IS} (hon : it.on = true) (hrs : s.remaining < ss t it.v)
    (hx : s.ios.exc &&& 4 ≠ 0) : ∃ s', it.next junk s = .exn s' := by
  unfold Itr.next
  rw [if_neg (by rw [hon]; simp), if_pos hrs]
  generalize ss t it.v = k at hrs
  obtain ⟨s', hs'⟩ := IS.over_exn false s.remaining hx
  have hv : IS.verify k s = .exn s' := by
    unfold IS.verify
    rw [if_neg (by omega), hs']
  have hu : IS.underflow k s = .exn s' := M.bind_exn hv
  exact ⟨s', M.bind_exn hu⟩

theorem at_stop {it : Itr t} {s : IS} : it.eq (Itr.stop t) s = !it.on := by
  cases h : it.on <;> simp [Itr.eq, Itr.stop, h]

/-- The position behind the values. -/
def endPos (vs : List (Val t)) (p : Nat) : Nat := p + (encAll (enc t) vs p).length

theorem endPos_cons (v : Val t) (vs : List (Val t)) (p : Nat) :
    endPos (v :: vs) p = endPos vs (p + (enc t v p).length) := by
  unfold endPos
  rw [encAll, List.length_append, Nat.add_assoc]

/-- Every value has the same stream size `k`, and takes at least that. -/
def Same (k : Nat) (vs : List (Val t)) : Prop := ∀ v ∈ vs, ss t v = k ∧ ∀ p, k ≤ (enc t v p).length

theorem copies_same {k : Nat} {tail : List Byte} :
    ∀ (vs : List (Val t)) (it : Itr t) (s : IS), it.on = true → Okv t it.v → ss t it.v = k →
      Holds s vs tail → ReadsBack vs s.pos tail.length → Same k vs → tail.length < k →
      (s.ios.exc &&& 6 = 0 → Copies junk it s (it.v :: vs)
        (.ret () { s with pos := endPos vs s.pos, ios := (s.ios.overrun tail.length).1 })) ∧
      (s.ios.exc &&& 4 ≠ 0 → ∃ s', Copies junk it s (it.v :: vs) (.exn s')) := by
  intro vs
  induction vs with
  | nil =>
    intro it s hon hv hs hh hf hsm ht
    have hlen := hh.len
    have hr : s.remaining = tail.length := by rw [hlen]; simp [encAll]
    refine ⟨fun hx => ?_, fun hx => ?_⟩
    · refine .more (by rw [at_stop, hon]; rfl) (next_short hon (by omega) hx) ?_
      have : ({ s with pos := endPos ([] : List (Val t)) s.pos, ios := (s.ios.overrun tail.length).1 } : IS)
          = s.starved := by
        unfold IS.starved endPos
        rw [hr]; rfl
      rw [this]
      exact .done (by rw [at_stop]; rfl)
    · obtain ⟨s', h'⟩ := next_throws (junk := junk) hon (by omega) hx
      exact ⟨s', .thrown (by rw [at_stop, hon]; rfl) h'⟩
  | cons v vs ih =>
    intro it s hon hv hs hh hf hsm ht
    have hlen := hh.len
    have hvk := hsm v (List.mem_cons_self ..)
    have hge : k ≤ s.remaining := by
      rw [hlen, encAll, List.length_append]
      have := hvk.2 s.pos
      omega
    have hn := next_value (junk := junk) hon (okv_shape t _ hv) hh hf (by omega)
    have h2 := ih ⟨true, v⟩ { s with pos := s.pos + (enc t v s.pos).length } rfl
      (hf.2.1 v (List.mem_cons_self ..)) hvk.1 hh.tail hf.tail (fun x hx => hsm x (List.mem_cons_of_mem _ hx)) ht
    refine ⟨fun hx => ?_, fun hx => ?_⟩
    · have h3 := h2.1 hx
      rw [endPos_cons]
      exact .more (by rw [at_stop, hon]; rfl) hn h3
    · obtain ⟨s', h3⟩ := h2.2 hx
      exact ⟨s', .more (by rw [at_stop, hon]; rfl) hn h3⟩

/-- **C69** copying the values of a stream through an `istream_iterator`, when they all have the same stream size
(integers, booleans, fixed-size arrays of them, ...) and nothing is to be thrown: it stores exactly the values, in
order, and stops behind the last, leaving the bytes that are too few for another value unread, with `failbit` set. -/
theorem iter_copy (k : Nat) (s : IS) (vs : List (Val t)) (tail : List Byte) (h0 : Okv t (dflt t))
    (hd : ss t (dflt t) = k) (hh : Holds s vs tail) (hf : ReadsBack vs s.pos tail.length) (hs : Same k vs)
    (ht : tail.length < k) (hx : s.ios.exc &&& 6 = 0) :
    ∃ i, i.fail = true ∧
      CopiesAll junk t s vs (.ret () { s with pos := s.pos + (encAll (enc t) vs s.pos).length, ios := i }) := by
  refine ⟨(s.ios.overrun tail.length).1, ?_, ?_⟩
  · have := starved_fail { buf := tail, pos := 0, ios := s.ios : IS }
    have hr : IS.remaining { buf := tail, pos := 0, ios := s.ios } = tail.length := by
      have hl := hh.len
      have := hh.small
      have := IS.remaining_eq hh.pos (by omega)
      exact (IS.remaining_eq (s := { buf := tail, pos := 0, ios := s.ios }) (Nat.zero_le _)
        (by show tail.length < W; omega))
    unfold IS.starved at this
    rw [hr] at this
    exact this
  · cases vs with
    | nil =>
      have hr : s.remaining = tail.length := by rw [hh.len]; simp [encAll]
      have h := next_short (junk := junk) (it := ⟨true, dflt t⟩) rfl (show s.remaining < ss t (dflt t) by omega) hx
      have e : s.starved = { s with pos := s.pos + (encAll (enc t) ([] : List (Val t)) s.pos).length, ios := (s.ios.overrun tail.length).1 } := by
        unfold IS.starved; rw [hr]; rfl
      rw [e] at h
      exact .made h (.done (by rw [at_stop]; rfl))
    | cons v vs =>
      have hvk := hs v (List.mem_cons_self ..)
      have hge : k ≤ s.remaining := by
        rw [hh.len, encAll, List.length_append]
        have := hvk.2 s.pos
        omega
      have hn := next_value (junk := junk) (it := ⟨true, dflt t⟩) rfl (okv_shape t _ h0) hh hf
        (show ss t (dflt t) ≤ s.remaining by omega)
      have h2 := (copies_same (junk := junk) vs ⟨true, v⟩ { s with pos := s.pos + (enc t v s.pos).length } rfl
        (hf.2.1 v (List.mem_cons_self ..)) hvk.1 hh.tail hf.tail
        (fun x hx => hs x (List.mem_cons_of_mem _ hx)) ht).1 hx
      have e := endPos_cons v vs s.pos
      unfold endPos at e h2
      rw [e]
      exact .made hn h2

/-- Three 2-byte integers and an odd byte. -/
example : ∃ i, i.fail = true ∧ CopiesAll [] (.int 2) { buf := [1, 0, 2, 1, 255, 255, 9], ios := { exc := 0 } }
    [(1 : Nat), (258 : Nat), (65535 : Nat)] (.ret () { buf := [1, 0, 2, 1, 255, 255, 9], pos := 6, ios := i }) :=
  iter_copy (t := .int 2) 2 { buf := [1, 0, 2, 1, 255, 255, 9], ios := { exc := 0 } }
    [(1 : Nat), (258 : Nat), (65535 : Nat)] [9] (show (0 : Nat) < 256 ^ 2 by decide) rfl
    ⟨by decide, by simp [W], by decide⟩
    ⟨by simp [WfTy, Grain], by
      intro v hv
      rcases List.mem_cons.1 hv with rfl | hv
      · exact okv_of rfl
      rcases List.mem_cons.1 hv with rfl | hv
      · exact okv_of rfl
      rcases List.mem_cons.1 hv with rfl | hv
      · exact okv_of rfl
      exact absurd hv List.not_mem_nil, by simp [chkAll, chk]⟩
    (by intro v _; exact ⟨rfl, fun p => Nat.le_of_eq (leBytes_length 2 v).symm⟩)
    (by decide) (by decide)

/-- **C69** with the exceptions a stream throws by default, the same copy never returns: it stores exactly the values, and
then throws `stream_bounds_exception`, because `underflow` of a plain `istream` reports an overrun. -/
theorem iter_end_violated (k : Nat) (s : IS) (vs : List (Val t)) (tail : List Byte) (h0 : Okv t (dflt t))
    (hd : ss t (dflt t) = k) (hh : Holds s vs tail) (hf : ReadsBack vs s.pos tail.length) (hs : Same k vs)
    (ht : tail.length < k) (hx : s.ios.exc &&& 4 ≠ 0) : ∃ s', CopiesAll junk t s vs (.exn s') := by
  cases vs with
  | nil =>
    have hr : s.remaining = tail.length := by rw [hh.len]; simp [encAll]
    obtain ⟨s', h⟩ := next_throws (junk := junk) (it := ⟨true, dflt t⟩) rfl
      (show s.remaining < ss t (dflt t) by omega) hx
    exact ⟨s', .thrown h⟩
  | cons v vs =>
    have hvk := hs v (List.mem_cons_self ..)
    have hge : k ≤ s.remaining := by
      rw [hh.len, encAll, List.length_append]
      have := hvk.2 s.pos
      omega
    have hn := next_value (junk := junk) (it := ⟨true, dflt t⟩) rfl (okv_shape t _ h0) hh hf
      (show ss t (dflt t) ≤ s.remaining by omega)
    obtain ⟨s', h2⟩ := (copies_same (junk := junk) vs ⟨true, v⟩ { s with pos := s.pos + (enc t v s.pos).length } rfl
      (hf.2.1 v (List.mem_cons_self ..)) hvk.1 hh.tail hf.tail
      (fun x hx => hs x (List.mem_cons_of_mem _ hx)) ht).2 hx
    exact ⟨s', .made hn h2⟩

/-- The outcome of a copy is determined by the stream. -/
theorem Copies.det {it : Itr t} {s : IS} {vs ws : List (Val t)} {o p : Out IS Unit} (h : Copies junk it s vs o)
    (h' : Copies junk it s ws p) : vs = ws ∧ o = p := by
  induction h generalizing ws p with
  | done e =>
    cases h' with
    | done => exact ⟨rfl, rfl⟩
    | more e' => rw [e] at e'; cases e'
    | thrown e' => rw [e] at e'; cases e'
    | out e' => rw [e] at e'; cases e'
  | more e n _ ih =>
    cases h' with
    | done e' => rw [e] at e'; cases e'
    | more e' n' h' =>
      rw [n] at n'; injection n' with n1 n2
      subst n1; subst n2
      obtain ⟨rfl, rfl⟩ := ih h'
      exact ⟨rfl, rfl⟩
    | thrown e' n' => rw [n] at n'; cases n'
    | out e' n' => rw [n] at n'; cases n'
  | thrown e n =>
    cases h' with
    | done e' => rw [e] at e'; cases e'
    | more e' n' h' => rw [n] at n'; cases n'
    | thrown e' n' => rw [n] at n'; injection n' with n'; subst n'; exact ⟨rfl, rfl⟩
    | out e' n' => rw [n] at n'; cases n'
  | out e n =>
    cases h' with
    | done e' => rw [e] at e'; cases e'
    | more e' n' h' => rw [n] at n'; cases n'
    | thrown e' n' => rw [n] at n'; cases n'
    | out e' n' => exact ⟨rfl, rfl⟩

/-- **C69** one copy has one outcome, so `iter_copy` and `iter_end_violated` say all that can happen. -/
theorem iter_copy_unique {s : IS} {vs ws : List (Val t)} {o p : Out IS Unit} (h : CopiesAll junk t s vs o)
    (h' : CopiesAll junk t s ws p) : vs = ws ∧ o = p := by
  cases h with
  | made n c =>
    cases h' with
    | made n' c' => rw [n] at n'; injection n' with n1 n2; subst n1; subst n2; exact c.det c'
    | thrown n' => rw [n] at n'; cases n'
    | out n' => rw [n] at n'; cases n'
  | thrown n =>
    cases h' with
    | made n' => rw [n] at n'; cases n'
    | thrown n' => rw [n] at n'; injection n' with n'; subst n'; exact ⟨rfl, rfl⟩
    | out n' => rw [n] at n'; cases n'
  | out n =>
    cases h' with
    | made n' => rw [n] at n'; cases n'
    | thrown n' => rw [n] at n'; cases n'
    | out n' => exact ⟨rfl, rfl⟩

/-! ## Types whose values differ in size -/

theorem copies_prefix (hpos : ∀ v : Val t, 0 < ss t v) :
    ∀ (vs : List (Val t)) (it : Itr t) (s : IS), it.on = true → Okv t it.v →
      Holds s vs [] → ReadsBack vs s.pos 0 → s.ios.exc &&& 6 = 0 →
      ∃ ws s', ws <+: vs ∧ Copies junk it s (it.v :: ws) (.ret () s') := by
  intro vs
  induction vs with
  | nil =>
    intro it s hon hv hh hf hx
    have hr : s.remaining = 0 := by rw [hh.len]; simp [encAll]
    have := hpos it.v
    exact ⟨[], _, List.prefix_rfl, .more (by rw [at_stop, hon]; rfl) (next_short hon (by omega) hx)
      (.done (by rw [at_stop]; rfl))⟩
  | cons v vs ih =>
    intro it s hon hv hh hf hx
    rcases Nat.lt_or_ge s.remaining (ss t it.v) with hlt | hge
    · exact ⟨[], _, List.nil_prefix, .more (by rw [at_stop, hon]; rfl) (next_short hon hlt hx)
        (.done (by rw [at_stop]; rfl))⟩
    · have hn := next_value (junk := junk) hon (okv_shape t _ hv) hh hf hge
      obtain ⟨ws, s', hw, h2⟩ := ih ⟨true, v⟩ { s with pos := s.pos + (enc t v s.pos).length } rfl
        (hf.2.1 v (List.mem_cons_self ..)) hh.tail hf.tail hx
      exact ⟨v :: ws, s', by simpa using hw, .more (by rw [at_stop, hon]; rfl) hn h2⟩

/-- **C69** for any type: what a copy stores are the values of the stream, in order, from the first on; none is invented
and none is skipped.  What is missing: that it does not stop early (`iter_early_violated`). -/
theorem iter_prefix_partial (hpos : ∀ v : Val t, 0 < ss t v) (s : IS) (vs : List (Val t)) (h0 : Okv t (dflt t))
    (hh : Holds s vs []) (hf : ReadsBack vs s.pos 0) (hx : s.ios.exc &&& 6 = 0) :
    ∃ ws s', ws <+: vs ∧ CopiesAll junk t s ws (.ret () s') := by
  rcases Nat.lt_or_ge s.remaining (ss t (dflt t)) with hlt | hge
  · exact ⟨[], _, List.nil_prefix, .made (next_short (it := ⟨true, dflt t⟩) rfl hlt hx)
      (.done (by rw [at_stop]; rfl))⟩
  · cases vs with
    | nil =>
      have hr : s.remaining = 0 := by rw [hh.len]; simp [encAll]
      have := hpos (dflt t)
      omega
    | cons v vs =>
      have hn := next_value (junk := junk) (it := ⟨true, dflt t⟩) rfl (okv_shape t _ h0) hh hf hge
      obtain ⟨ws, s', hw, h2⟩ := copies_prefix (junk := junk) hpos vs ⟨true, v⟩
        { s with pos := s.pos + (enc t v s.pos).length } rfl
        (hf.2.1 v (List.mem_cons_self ..)) hh.tail hf.tail hx
      exact ⟨v :: ws, s', by simpa using hw, .made hn h2⟩

/-- **C69** a copy of strings stops early: the size asked for is that of the string read before.  Of a stream that holds
"abcdef" and "x", the second, two bytes long, is never read, since seven are asked for. -/
theorem iter_early_violated : ∃ s', CopiesAll (List.replicate 8 0) .str
    { buf := [6, 97, 98, 99, 100, 101, 102, 1, 120], ios := { exc := 0 } } [([97, 98, 99, 100, 101, 102] : List Byte)]
    (.ret () s') ∧
    Holds (t := .str) { buf := [6, 97, 98, 99, 100, 101, 102, 1, 120], ios := { exc := 0 } }
      [([97, 98, 99, 100, 101, 102] : List Byte), ([120] : List Byte)] [] := by
  have hh : Holds (t := .str) { buf := [6, 97, 98, 99, 100, 101, 102, 1, 120], ios := { exc := 0 } }
      [([97, 98, 99, 100, 101, 102] : List Byte), ([120] : List Byte)] [] :=
    ⟨by decide, by simp [W], by decide +kernel⟩
  have hf : ReadsBack (t := .str) [([97, 98, 99, 100, 101, 102] : List Byte), ([120] : List Byte)] 0 0 :=
    ⟨trivial, by
      intro v hv
      rcases List.mem_cons.1 hv with rfl | hv
      · exact okv_of rfl
      rcases List.mem_cons.1 hv with rfl | hv
      · exact okv_of rfl
      exact absurd hv List.not_mem_nil, by simp [chkAll, chk]⟩
  have h1 := next_value (junk := List.replicate 8 0) (it := ⟨true, dflt .str⟩) rfl trivial hh hf
    (by rw [hh.len]; decide +kernel)
  have hh2 := hh.tail
  have h2 := next_short (junk := List.replicate 8 0) (t := .str)
    (it := ⟨true, ([97, 98, 99, 100, 101, 102] : List Byte)⟩) rfl (by rw [hh2.len]; decide +kernel)
    (by decide)
  exact ⟨_, .made h1 (.more (by rw [at_stop]; rfl) h2 (.done (by rw [at_stop]; rfl))), hh⟩

/-! ## Moving about -/

theorem seek_ok {s : IS} {p : Nat} (h : p ≤ s.buf.length) : IS.seek p s = .ret () { s with pos := p } := by
  unfold IS.seek
  rw [if_neg (by omega)]

theorem Holds.drop {k : Nat} : ∀ (j : Nat) (vs : List (Val t)) (s : IS) (tail : List Byte), j ≤ vs.length →
    (∀ x ∈ vs, ∀ p, (enc t x p).length = k) → Holds s vs tail → ReadsBack vs s.pos tail.length →
    Holds { s with pos := s.pos + j * k } (vs.drop j) tail ∧ ReadsBack (vs.drop j) (s.pos + j * k) tail.length := by
  intro j
  induction j with
  | zero => intro vs s tail _ _ h hf; simpa using ⟨h, hf⟩
  | succ j ih =>
    intro vs s tail hj hl h hf
    cases vs with
    | nil => simp at hj
    | cons v vs =>
      have e := hl v (List.mem_cons_self ..) s.pos
      have h1 := h.tail
      have h2 := hf.tail
      rw [e] at h1 h2
      have := ih vs { s with pos := s.pos + k } tail (by simpa using hj)
        (fun x hx => hl x (List.mem_cons_of_mem _ hx)) h1 h2
      have ea : s.pos + k + j * k = s.pos + (j + 1) * k := by rw [Nat.add_mul, Nat.one_mul]; omega
      rw [List.drop_succ_cons, ← ea]
      exact this

/-- **C69** `i -= n` (and `--i`, with `n = 1`), on values that all take `k` bytes, stored from position `p` on: an iterator
that shows value number `i`, the stream being behind it, then shows value number `i - n`, with the stream behind that. -/
theorem iter_back (k p i n : Nat) (s : IS) (it : Itr t) (vs : List (Val t)) (tail : List Byte) (hi : i < vs.length)
    (hn : n ≤ i) (hon : it.on = true) (hv : it.v = vs[i]) (hp : s.pos = p + (i + 1) * k)
    (hh : Holds { s with pos := p } vs tail) (hf : ReadsBack vs p tail.length)
    (hk : ∀ x ∈ vs, ss t x = k ∧ ∀ p, (enc t x p).length = k) :
    it.backBy junk n s = .ret ⟨true, vs[i - n]⟩ { s with pos := p + (i - n + 1) * k } := by
  unfold Itr.backBy
  rw [if_neg (by rw [hon]; simp)]
  have hmem : vs[i] ∈ vs := List.getElem_mem hi
  have hvk : ss t it.v = k := by rw [hv]; exact (hk _ hmem).1
  have hsm : s.buf.length + 8 ≤ W := hh.small
  have hle : (n + 1) * k ≤ (i + 1) * k := Nat.mul_le_mul_right k (by omega)
  have hd : (i - n) * k + (n + 1) * k = (i + 1) * k := by rw [← Nat.add_mul]; congr 1; omega
  obtain ⟨h1, h2⟩ := Holds.drop (i - n) vs { s with pos := p } tail (by omega) (fun x hx => (hk x hx).2) hh hf
  have hpl : p + (i - n) * k ≤ s.buf.length := h1.pos
  have hu : u64 ((s.pos : Int) - ((n + 1) * ss t it.v : Nat)) = p + (i - n) * k := by
    rw [hvk, hp]
    unfold u64
    rw [← Int.ofNat_sub (by omega)]
    have hlt : p + (i + 1) * k - (n + 1) * k < W := by omega
    rw [← Int.natCast_emod, Nat.mod_eq_of_lt hlt, Int.toNat_natCast]
    omega
  rw [hu, M.bind_ret (seek_ok hpl)]
  have hdc : vs.drop (i - n) = vs[i - n] :: vs.drop (i - n + 1) := List.drop_eq_getElem_cons (by omega)
  rw [hdc] at h1 h2
  have hx := (hk vs[i - n] (List.getElem_mem _)).2 (p + (i - n) * k)
  have hsh : Shape t it.v := by rw [hv]; exact okv_shape t _ (hf.2.1 _ hmem)
  have := next_value (junk := junk) hon hsh h1 h2 (by
    rw [h1.len, encAll, List.length_append]
    show ss t it.v ≤ (enc t vs[i - n] (p + (i - n) * k)).length + _ + _
    rw [hx]
    omega)
  refine this.trans ?_
  show Out.ret _ ({ s with pos := p + (i - n) * k + (enc t vs[i - n] (p + (i - n) * k)).length } : IS) = _
  rw [hx, Nat.add_mul, Nat.one_mul, Nat.add_assoc]

/-- **C69** `--i` on an iterator that shows the first value, when nothing is to be thrown, moves it forward: the position
wraps around, the seek fails, and the read that follows takes the next value. -/
theorem iter_back_violated : ∃ s s' s'' : IS, ∃ i j : Itr (.int 1),
    s = { buf := [10, 20, 30], ios := { exc := 0 } } ∧ Itr.start [] (.int 1) s = .ret i s' ∧ i.v = (10 : Nat) ∧
    i.dec [] s' = .ret j s'' ∧ j.v = (20 : Nat) := by
  refine ⟨_, { buf := [10, 20, 30], pos := 1, ios := { exc := 0 } },
    { buf := [10, 20, 30], pos := 2, ios := { state := 4, exc := 0 } }, ⟨true, (10 : Nat)⟩, ⟨true, (20 : Nat)⟩, rfl,
    ?_, rfl, ?_, rfl⟩
  · have hh : Holds (t := .int 1) { buf := [10, 20, 30], ios := { exc := 0 } } [(10 : Nat), (20 : Nat), (30 : Nat)] [] :=
      ⟨by decide, by simp [W], by decide⟩
    have hf : ReadsBack (t := .int 1) [(10 : Nat), (20 : Nat), (30 : Nat)] 0 0 :=
      ⟨by simp [WfTy, Grain], by
        intro v hv
        rcases List.mem_cons.1 hv with rfl | hv
        · exact okv_of rfl
        rcases List.mem_cons.1 hv with rfl | hv
        · exact okv_of rfl
        rcases List.mem_cons.1 hv with rfl | hv
        · exact okv_of rfl
        exact absurd hv List.not_mem_nil, by simp [chkAll, chk]⟩
    exact next_value (junk := []) (it := ⟨true, dflt (.int 1)⟩) rfl trivial hh hf (by rw [hh.len]; decide)
  · have hh : Holds (t := .int 1) { buf := [10, 20, 30], pos := 1, ios := { state := 4, exc := 0 } } [(20 : Nat), (30 : Nat)] [] :=
      ⟨by decide, by simp [W], by decide⟩
    have hf : ReadsBack (t := .int 1) [(20 : Nat), (30 : Nat)] 1 0 :=
      ⟨by simp [WfTy, Grain], by
        intro v hv
        rcases List.mem_cons.1 hv with rfl | hv
        · exact okv_of rfl
        rcases List.mem_cons.1 hv with rfl | hv
        · exact okv_of rfl
        exact absurd hv List.not_mem_nil, by simp [chkAll, chk]⟩
    have hs : IS.seek (u64 (((1 : Nat) : Int) - (((1 + 1) * 1 : Nat) : Int)))
        { buf := [10, 20, 30], pos := 1, ios := { exc := 0 } } =
        .ret () { buf := [10, 20, 30], pos := 1, ios := { state := 4, exc := 0 } } := by
      have : u64 (((1 : Nat) : Int) - (((1 + 1) * 1 : Nat) : Int)) = W - 1 := by decide
      rw [this]
      unfold IS.seek
      rw [if_pos (by simp [W])]
      rfl
    have h2 := next_value (junk := []) (t := .int 1) (it := ⟨true, (10 : Nat)⟩) rfl trivial hh hf
      (by rw [hh.len]; decide)
    have e : ss (.int 1) (10 : Nat) = 1 := rfl
    unfold Itr.dec Itr.backBy
    rw [if_neg (by simp), e, M.bind_ret hs]
    exact h2

/-- **C69** `i += n`: the iterator then shows the value `n` after the one it showed. -/
theorem iter_forward (k : Nat) (tail : List Byte) : ∀ (vs : List (Val t)) (s : IS) (it : Itr t), it.on = true → Okv t it.v →
    ss t it.v = k → Holds s vs tail → ReadsBack vs s.pos tail.length → Same k vs →
    it.fwdBy junk vs.length s = .ret ⟨true, (it.v :: vs).getLast (by simp)⟩
      { s with pos := s.pos + (encAll (enc t) vs s.pos).length } := by
  intro vs
  induction vs with
  | nil =>
    intro s it hon hv hk hh hf hs
    show Out.ret it s = _
    cases it; cases hon; rfl
  | cons v vs ih =>
    intro s it hon hv hk hh hf hs
    have hvk := hs v (List.mem_cons_self ..)
    have hn := next_value (junk := junk) hon (okv_shape t _ hv) hh hf (by
      rw [hh.len, encAll, List.length_append]
      have := hvk.2 s.pos
      omega)
    show (it.next junk >>= Itr.fwdBy junk vs.length) s = _
    rw [M.bind_ret hn]
    rw [ih _ ⟨true, v⟩ rfl (hf.2.1 v (List.mem_cons_self ..)) hvk.1 hh.tail hf.tail
      (fun x hx => hs x (List.mem_cons_of_mem _ hx))]
    have e := endPos_cons v vs s.pos
    unfold endPos at e
    rw [e, List.getLast_cons (l := v :: vs) (by simp)]

/-- The values of the examples below. -/
theorem three_bytes : Holds (t := .int 1) { buf := [10, 20, 30], ios := { exc := 0 } }
    [(10 : Nat), (20 : Nat), (30 : Nat)] [] ∧ ReadsBack (t := .int 1) [(10 : Nat), (20 : Nat), (30 : Nat)] 0 0 :=
  ⟨⟨by decide, by simp [W], by decide⟩, by simp [WfTy, Grain], by
    intro v hv
    rcases List.mem_cons.1 hv with rfl | hv
    · exact okv_of rfl
    rcases List.mem_cons.1 hv with rfl | hv
    · exact okv_of rfl
    rcases List.mem_cons.1 hv with rfl | hv
    · exact okv_of rfl
    exact absurd hv List.not_mem_nil, by simp [chkAll, chk]⟩

/-- From the third value two back to the first. -/
example : Itr.backBy (t := .int 1) [] ⟨true, (30 : Nat)⟩ 2 { buf := [10, 20, 30], pos := 3, ios := { exc := 0 } } =
    .ret ⟨true, (10 : Nat)⟩ { buf := [10, 20, 30], pos := 1, ios := { exc := 0 } } :=
  iter_back (t := .int 1) (junk := []) 1 0 2 2 { buf := [10, 20, 30], pos := 3, ios := { exc := 0 } } ⟨true, (30 : Nat)⟩
    [(10 : Nat), (20 : Nat), (30 : Nat)] [] (by decide) (by decide) rfl rfl rfl three_bytes.1 three_bytes.2
    (fun v _ => ⟨rfl, fun _ => leBytes_length 1 v⟩)

/-- **C69** two iterators on one stream compare equal, and are 0 apart, wherever they are: both ask the stream for its
position, and neither remembers its own. -/
theorem iter_compare_violated (a b : Itr t) (ha : a.on = true) (hb : b.on = true) (s : IS) :
    a.eq b s = true ∧ a.diff b s = some 0 := by
  simp [Itr.eq, Itr.diff, ha, hb]

end Ustl.Stream
