import Verif.Stream.SizeLemmas
/-! # Binary streams: theorems for C38 and C39 -/
namespace Ustl.Stream

/-- Every value of the sequence starts at a position its type is aligned to. -/
def Starts : List Item → Nat → Prop
  | [], _ => True
  | ⟨t, v⟩ :: r, p => need t ∣ p ∧ Starts r (p + (enc t v p).length)

/-- The room behind that makes every size check of the sequence pass. -/
def slackItems : List Item → Nat
  | [] => 0
  | ⟨t, v⟩ :: r => max (slack t v) (slackItems r)

/-- The variables read into have the types of the values written. -/
inductive SameTypes : List Item → List Item → Prop
  /-- none -/
  | nil : SameTypes [] []
  /-- one more -/
  | cons {t : Ty} {old v : Val t} {os vs : List Item} (h : Shape t old) (r : SameTypes os vs) :
    SameTypes (⟨t, old⟩ :: os) (⟨t, v⟩ :: vs)

/-- The values of the property: well-formed types, expressible values. -/
def Okay (l : List Item) : Prop := ∀ i ∈ l, WfTy i.1 ∧ Okv i.1 i.2

/-- The format of a sequence. -/
def encItems : List Item → Nat → List Byte
  | [], _ => []
  | ⟨t, v⟩ :: r, p => enc t v p ++ encItems r (p + (enc t v p).length)

/-- Every size check of the sequence passes. -/
def chkItems : List Item → Nat → Nat → Prop
  | [], _, _ => True
  | ⟨t, v⟩ :: r, p, k => chk t v p (k + (encItems r (p + (enc t v p).length)).length) ∧
      chkItems r (p + (enc t v p).length) k

theorem writeItems_writes : ∀ (l : List Item), Okay l → Writes (writeItems l) (encItems l)
  | [], _ => Writes.pure
  | ⟨t, v⟩ :: r, h => Writes.seq (f := fun _ => writeItems r)
      (write_writes t v (h _ (List.mem_cons_self ..)).1 (h _ (List.mem_cons_self ..)).2)
      (writeItems_writes r (fun i hi => h i (List.mem_cons_of_mem _ hi)))

theorem readItems_reads (junk : List Byte) : ∀ {olds l : List Item} (p r : Nat), SameTypes olds l → Okay l →
    chkItems l p r → Reads (readItems junk olds) p (encItems l p) r l
  | _, _, p, r, .nil, _, _ => Reads.pure [] p r
  | _, _, p, r, .cons (t := t) (old := old) (v := v) (os := os) (vs := vs) hs hr, ho, hc => by
    have h1 := read_reads junk t old v p _ (ho _ (List.mem_cons_self ..)).1 (ho _ (List.mem_cons_self ..)).2 hs hc.1
    have h2 := readItems_reads junk (p + (enc t v p).length) r hr (fun i hi => ho i (List.mem_cons_of_mem _ hi)) hc.2
    exact Reads.seq (v := v) h1 (Reads.map (g := fun ys => (⟨t, v⟩ : Item) :: ys) h2)

theorem chkItems_good : ∀ (l : List Item) (p : Nat), Okay l → (∀ i ∈ l, Good i.1) → Starts l p →
    (encItems l p).length + 8 ≤ W → ∀ r, chkItems l p r
  | [], _, _, _, _, _, _ => trivial
  | ⟨t, v⟩ :: l, p, ho, hg, hs, hl, r => by
    have hl' : (enc t v p ++ encItems l (p + (enc t v p).length)).length + 8 ≤ W := hl
    rw [List.length_append] at hl'
    have f := fine t v p (ho _ (List.mem_cons_self ..)).1 (hg _ (List.mem_cons_self ..))
      (ho _ (List.mem_cons_self ..)).2 hs.1 (by omega)
    exact ⟨f.check _, chkItems_good l _ (fun i hi => ho i (List.mem_cons_of_mem _ hi))
      (fun i hi => hg i (List.mem_cons_of_mem _ hi)) hs.2 (by omega) r⟩

theorem chkItems_slack : ∀ (l : List Item) (p r : Nat), slackItems l ≤ r → chkItems l p r
  | [], _, _, _ => trivial
  | ⟨t, v⟩ :: l, p, r, h => by
    have h' : max (slack t v) (slackItems l) ≤ r := h
    exact ⟨slack_chk t v _ _ (by omega), chkItems_slack l _ _ (by omega)⟩

/-- If a sequence was written without an exception, everything fitted. -/
theorem writeItems_fits {l : List Item} {s s' : OS} (ho : Okay l) (hb : s.base % 8 = 0) (hl : s.buf.length + 8 ≤ W)
    (hp : s.pos ≤ s.buf.length) (he : s.ios.exc &&& 4 ≠ 0) (hw : writeItems l s = .ret () s') :
    s.pos + (encItems l s.pos).length ≤ s.buf.length ∧ s' = s.after (encItems l s.pos) := by
  obtain ⟨h1, h2⟩ := writeItems_writes l ho s hb (by omega) hp
  rcases Nat.lt_or_ge s.buf.length (s.pos + (encItems l s.pos).length) with h | h
  · obtain ⟨x, hx⟩ := h2 h he
    rw [hx] at hw; cases hw
  · refine ⟨h, ?_⟩
    have := h1 h
    rw [this] at hw
    injection hw with _ e
    exact e.symm

theorem toIS_buf {s : OS} {d : List Byte} (h : s.pos + d.length ≤ s.buf.length) :
    (s.after d).toIS.buf = s.buf.take s.pos ++ (d ++ []) := by
  unfold OS.toIS OS.after
  simp only [List.append_nil]
  have e : (s.buf.take s.pos ++ d).length = s.pos + d.length := by simp; omega
  rw [← e, List.take_left]

/-- **C38** round trip. Write any sequence of values to an `ostream` (with the default exception mask) over memory
aligned to 8, as allocated memory is, starting anywhere; if no exception was thrown, an `istream` over exactly the
bytes written, reading from the same place into variables of the same types holding anything, yields the same values
and stops where the writer stopped. The types are those without padding trouble (`Good`), and each value starts at
a position its type is aligned to. -/
theorem round_trip (items olds : List Item) (junk : List Byte) (s s' : OS) (hb : s.base % 8 = 0)
    (hl : s.buf.length + 8 ≤ W) (hp : s.pos ≤ s.buf.length) (he : s.ios.exc &&& 4 ≠ 0) (ho : Okay items)
    (hg : ∀ i ∈ items, Good i.1) (hs : Starts items s.pos) (ht : SameTypes olds items)
    (hw : writeItems items s = .ret () s') :
    readItems junk olds { s'.toIS with pos := s.pos } = .ret items { s'.toIS with pos := s'.pos } := by
  obtain ⟨h1, rfl⟩ := writeItems_fits ho hb hl hp he hw
  have hlen : (s.buf.take s.pos).length = s.pos := by simp; omega
  have hbuf := toIS_buf h1
  exact readItems_reads junk s.pos 0 ht ho (chkItems_good items s.pos ho hg hs (by omega) 0)
    { (s.after (encItems items s.pos)).toIS with pos := s.pos } _ [] hbuf hlen rfl (Nat.zero_le _)
    (by show (s.after (encItems items s.pos)).toIS.buf.length + 8 ≤ W
        rw [hbuf]; simp only [List.length_append, hlen, List.length_nil]; omega)

/-- **C38** round trip for every type, with room behind: the bytes written may lie in a longer block with any
contents behind them, and then the alignment of the values and the padding of the types do not matter, if the room
is at least `slackItems`. -/
theorem round_trip_room (items olds : List Item) (junk post : List Byte) (s s' : OS) (hb : s.base % 8 = 0)
    (hl : s.buf.length + post.length + 8 ≤ W) (hp : s.pos ≤ s.buf.length) (he : s.ios.exc &&& 4 ≠ 0)
    (ho : Okay items) (hr : slackItems items ≤ post.length) (ht : SameTypes olds items)
    (hw : writeItems items s = .ret () s') :
    readItems junk olds { buf := s'.buf.take s'.pos ++ post, pos := s.pos } =
      .ret items { buf := s'.buf.take s'.pos ++ post, pos := s'.pos } := by
  obtain ⟨h1, rfl⟩ := writeItems_fits ho hb (by omega) hp he hw
  have hlen : (s.buf.take s.pos).length = s.pos := by simp; omega
  have hbuf : (s.after (encItems items s.pos)).buf.take (s.after (encItems items s.pos)).pos ++ post =
      s.buf.take s.pos ++ (encItems items s.pos ++ post) := by
    have := toIS_buf h1
    unfold OS.toIS at this
    simp only [List.append_nil] at this
    rw [this, List.append_assoc]
  exact readItems_reads junk s.pos post.length ht ho (chkItems_slack items s.pos _ hr)
    { buf := (s.after (encItems items s.pos)).buf.take (s.after (encItems items s.pos)).pos ++ post, pos := s.pos }
    _ post hbuf hlen rfl (Nat.le_refl _)
    (by show (List.take _ _ ++ post).length + 8 ≤ W
        rw [hbuf]; simp only [List.length_append, hlen]; omega)

/-- The types of the examples: a map from strings to 32-bit integers, a vector of vectors of 16-bit integers, a
vector of 64-bit integers, a boolean, a memory block. -/
def exItems : List Item :=
  [⟨.vec (.pair .str (.int 4)), [([0x61], (7 : Nat)), ([], (8 : Nat))]⟩,
   ⟨.vec (.vec (.int 2)), [[(1 : Nat), (2 : Nat), (3 : Nat)], []]⟩,
   ⟨.vec (.int 8), [(5 : Nat)]⟩, ⟨.bool, true⟩]

instance decStarts : (l : List Item) → (p : Nat) → Decidable (Starts l p)
  | [], _ => isTrue trivial
  | ⟨_, _⟩ :: r, _ => @instDecidableAnd _ _ inferInstance (decStarts r _)

example : Okay exItems ∧ (∀ i ∈ exItems, Good i.1) ∧ Starts exItems 0 := by
  unfold Okay
  decide +kernel

example : ∃ s', writeItems exItems { buf := List.replicate 80 0 } = .ret () s' := by
  have h : Okay exItems := by unfold Okay; decide +kernel
  have := (writeItems_writes exItems h { buf := List.replicate 80 0 } rfl (by simp [W]) (by simp)).1
    (by simp only [List.length_replicate]; decide +kernel)
  exact ⟨_, this⟩

/-- `stream_size_of` is exact: **C39**. A value written at a position its type is aligned to advances the position
by exactly `stream_size_of`, for every type without padding trouble; so a buffer of that size never overruns. -/
theorem stream_size_exact (t : Ty) (v : Val t) (s : OS) (hb : s.base % 8 = 0) (hl : s.buf.length + 8 ≤ W)
    (hp : s.pos + ss t v ≤ s.buf.length) (ht : WfTy t) (hv : Okv t v) (hg : Good t) (hn : need t ∣ s.pos)
    (hw : (enc t v s.pos).length + 8 ≤ W) :
    ∃ s', write t v s = .ret () s' ∧ s'.pos = s.pos + ss t v := by
  have f := fine t v s.pos ht hg hv hn hw
  have := (write_writes t v ht hv s hb (by omega) (by omega)).1 (by rw [f.size]; exact hp)
  exact ⟨_, this, by rw [OS.after_pos, f.size]⟩

example : Good (.vec (.pair .str (.int 4))) ∧ WfTy (.vec (.pair .str (.int 4))) ∧ need (.vec (.pair .str (.int 4))) ∣ 8 := by
  decide

example : @Okv (.vec (.pair .str (.int 4))) (show Val (.vec (.pair .str (.int 4))) from [(([0x61] : List Byte), (7 : Nat))]) := by
  decide +kernel

/-- `map<uint32_t,uint64_t>`, stored as a vector of pairs. -/
abbrev Map48 : Ty := .vec (.pair (.int 4) (.int 8))

/-- `map<uint64_t,uint64_t>`. -/
abbrev Map88 : Ty := .vec (.pair (.int 8) (.int 8))

theorem encMap48 (k v : Nat) : enc Map48 [((k, v) : Nat × Nat)] 0 =
    leBytes 4 1 ++ (leBytes 4 k ++ leBytes 8 v) := by
  show encVec (α := Nat × Nat) 4 _ [(k, v)] 0 = _
  unfold encVec
  simp only [encAll, enc, encPair, al, leBytes_length, pad, List.length_append, List.length_replicate,
    List.length_nil, List.length_cons]
  simp only [show ¬ (4 > 4) by decide, if_false]
  simp

theorem encMap88_length (k v : Nat) : (enc Map88 [((k, v) : Nat × Nat)] 0).length = 24 := by
  show (encVec (α := Nat × Nat) 4 _ [(k, v)] 0).length = _
  unfold encVec
  simp only [encAll, enc, encPair, al, leBytes_length, pad, List.length_append, List.length_replicate,
    List.length_nil]
  simp only [show ¬ (4 > 4) by decide, if_false]

/-- **C38 fails** for a `map<uint32_t,uint64_t>` with one entry: the bytes `os << m` wrote are rejected by
`is >> m`, which throws, whatever the entry. The size check expects 16 bytes for an entry that takes 12. -/
theorem round_trip_violated (k v : Nat) (hk : k < 2 ^ 32) (hv : v < 2 ^ 64) (junk : List Byte) :
    ∃ s', write Map48 [((k, v) : Nat × Nat)] { buf := List.replicate 64 0 } = .ret () s' ∧ s'.pos = 16 ∧
      ∃ x, read junk Map48 [] s'.toIS = .exn x := by
  have hok : Okv Map48 [((k, v) : Nat × Nat)] := by
    refine ⟨(by decide : (1 : Nat) < 2 ^ 32), ?_⟩
    intro x hx
    have : x = (k, v) := List.mem_singleton.1 hx
    subst this
    exact ⟨(by simpa using hk : k < 256 ^ 4), (by simpa using hv : v < 256 ^ 8)⟩
  have hw := (write_writes Map48 [((k, v) : Nat × Nat)] (by decide) hok { buf := List.replicate 64 0 } rfl (by simp [W])
    (by simp)).1
  rw [encMap48] at hw
  have hfit : (leBytes 4 1 ++ (leBytes 4 k ++ leBytes 8 v)).length = 16 := by
    simp only [List.length_append, leBytes_length]
  have hw := hw (by rw [hfit]; simp)
  refine ⟨_, hw, by rw [OS.after_pos, hfit], ?_⟩
  generalize hs : (OS.after { buf := List.replicate 64 0 } (leBytes 4 1 ++ (leBytes 4 k ++ leBytes 8 v))) = s'
  have hbuf : s'.toIS.buf = [] ++ (leBytes 4 1 ++ (leBytes 4 k ++ leBytes 8 v)) := by
    rw [← hs, toIS_buf (by rw [hfit]; simp)]; simp
  have h1 := Reads.int (n := 4) (p := 0) (r := 0) (v := 1) (old := 0) (by simp) s'.toIS [] _ hbuf rfl rfl
    (Nat.zero_le _) (by rw [hbuf, List.nil_append, hfit]; simp [W])
  show ∃ x, readVec (α := Nat × Nat) 4 16 _ _ [] s'.toIS = .exn x
  unfold readVec vecRest
  rw [M.bind_ret h1, leBytes_length]
  have hrem : (IS.remaining { s'.toIS with pos := 0 + 4 }) = 12 := by
    rw [IS.remaining_eq]
    · show s'.toIS.buf.length - 4 = 12
      rw [hbuf, List.nil_append, hfit]
    · show 4 ≤ s'.toIS.buf.length
      rw [hbuf, List.nil_append, hfit]; decide
    · show s'.toIS.buf.length < W
      rw [hbuf, List.nil_append, hfit]; decide
  have h2 : ∃ x, IS.verify (mul64 1 16) { s'.toIS with pos := 0 + 4 } = .exn x := by
    unfold IS.verify
    rw [hrem, if_neg (by decide +kernel)]
    exact IS.over_exn _ _ (by show (7 &&& 4) ≠ 0; decide)
  obtain ⟨x, h2⟩ := h2
  exact ⟨x, M.bind_exn h2⟩

example : ¬ Good Map48 := by decide

/-- **C39 fails** for a `map<uint64_t,uint64_t>` with one entry: `stream_size` says 20, the value takes 24 bytes, so
writing it into a buffer of `stream_size` bytes throws, whatever the entry. -/
theorem stream_size_violated (k v : Nat) (hk : k < 2 ^ 64) (hv : v < 2 ^ 64) :
    ss Map88 [((k, v) : Nat × Nat)] = 20 ∧
    ∃ x, write Map88 [((k, v) : Nat × Nat)] { buf := List.replicate 20 0 } = .exn x := by
  have hok : Okv Map88 [((k, v) : Nat × Nat)] := by
    refine ⟨(by decide : (1 : Nat) < 2 ^ 32), ?_⟩
    intro x hx
    have : x = (k, v) := List.mem_singleton.1 hx
    subst this
    exact ⟨(by simpa using hk : k < 256 ^ 8), (by simpa using hv : v < 256 ^ 8)⟩
  refine ⟨?_, ?_⟩
  · show ssVec 4 (nrSize false [ssPair 8 8 8 8]) = 20
    decide +kernel
  refine (write_writes Map88 [((k, v) : Nat × Nat)] (by decide) hok { buf := List.replicate 20 0 } rfl (by simp [W])
    (by simp)).2 ?_ (by decide)
  show List.length (List.replicate 20 0) < 0 + _
  rw [encMap88_length]; simp

example : ¬ Good Map88 := by decide

/-- The outcome is an exception. -/
def Out.isExn {σ α : Type} : Out σ α → Bool
  | .exn _ => true
  | _ => false

/-- The state an outcome leaves, if any. -/
def Out.state {σ α : Type} (d : σ) : Out σ α → σ
  | .ret _ s => s
  | .exn s => s
  | .oob => d

/-- **C38** needs the alignment of the memory: `ostream::align` aligns the address, `istream::align` the position. In
memory whose address is not a multiple of the grain the reader does not find what the writer wrote: the vector
`[1]` of `uint8_t` followed by the byte 9, written at an address that is 1 modulo 4, takes 8 bytes, and reading them
back throws. -/
theorem align_base_violated :
    let w := writeItems [⟨.vec (.int 1), [(1 : Nat)]⟩, ⟨.int 1, (9 : Nat)⟩] { buf := List.replicate 16 0, base := 1 }
    w.isExn = false ∧ (w.state { buf := [] }).pos = 8 ∧
      (readItems [] [⟨.vec (.int 1), []⟩, ⟨.int 1, (0 : Nat)⟩] (w.state { buf := [] }).toIS).isExn = true := by
  decide +kernel

end Ustl.Stream
