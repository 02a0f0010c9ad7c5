import Verif.Utf8.Lemmas
import Verif.Str.Props
/-! # UTF-8 theorems: C28, C29 -/
namespace Ustl.Utf8

/-! ### C28: encoding and decoding -/

/-- **C28** the portable and the x86 build of `Utf8Bytes` agree. -/
theorem utf8Bytes_builds (v : Nat) (h : v < 2 ^ 32) : utf8Bytes v = utf8BytesX86 v := by
  rw [boundLoop_cases h]
  unfold utf8BytesX86
  have key : ∀ k, 128 ≤ v → v < 2 ^ (k + 1) → 2 ^ k ≤ v → Nat.log2 v = k := by
    intro k h0 h1 h2
    have hv : v ≠ 0 := by omega
    have a := (Nat.le_log2 hv).2 h2
    have b := (Nat.log2_lt hv).2 h1
    omega
  have hlog : ∀ a b, 128 ≤ v → 2 ^ a ≤ v → v < 2 ^ (b + 1) → a ≤ Nat.log2 v ∧ Nat.log2 v ≤ b := by
    intro a b h0 h1 h2
    have hv : v ≠ 0 := by omega
    have x := (Nat.le_log2 hv).2 h1
    have y := (Nat.log2_lt hv).2 h2
    omega
  repeat' split
  all_goals first
    | rfl
    | omega
    | (have := hlog 7 10 (by omega) (by omega) (by omega); omega)
    | (have := hlog 11 15 (by omega) (by omega) (by omega); omega)
    | (have := hlog 16 20 (by omega) (by omega) (by omega); omega)
    | (have := hlog 21 25 (by omega) (by omega) (by omega); omega)
    | (have := hlog 26 30 (by omega) (by omega) (by omega); omega)
    | (have := hlog 31 31 (by omega) (by omega) (by omega); omega)

/-- **C28** what is written for a value below 2^31 is its row of the UTF-8 table. -/
theorem out_is_table (v : Nat) (h : v < 2 ^ 31) : out v = some (table v) := out_table h

/-- **C28** the number of bytes written is `Utf8Bytes`. -/
theorem out_size (v : Nat) (h : v < 2 ^ 31) (bs : List Byte) (ho : out v = some bs) : bs.length = utf8Bytes v := by
  rw [out_table h] at ho
  cases ho
  exact table_length h

/-- **C28** the number of bytes written for several values is `Utf8Bytes (first, last)`. -/
theorem outAll_size (vs : List Nat) (h : Valid vs) : ∃ bs, outAll vs = some bs ∧ bs = text vs ∧
    bs.length = utf8BytesRange vs := by
  have key : ∀ (vs : List Nat), Valid vs → outAll vs = some (text vs) ∧ (text vs).length = (vs.map utf8Bytes).sum := by
    intro vs
    induction vs with
    | nil => intro _; exact ⟨rfl, rfl⟩
    | cons v vs ih =>
      intro h
      obtain ⟨i1, i2⟩ := ih fun x hx => h x (List.mem_cons_of_mem _ hx)
      have hv := h v List.mem_cons_self
      unfold outAll
      rw [out_table hv, i1]
      refine ⟨rfl, ?_⟩
      unfold text at i2 ⊢
      rw [List.map_cons, List.flatten_cons, List.length_append, i2, table_length hv, List.map_cons, List.sum_cons]
  obtain ⟨k1, k2⟩ := key vs h
  refine ⟨_, k1, rfl, ?_⟩
  rw [k2]
  unfold utf8BytesRange
  have : ∀ (l : List Nat) (a : Nat), l.foldl (fun bc v => bc + utf8Bytes v) a = a + (l.map utf8Bytes).sum := by
    intro l
    induction l with
    | nil => intro a; rfl
    | cons x l ih => intro a; rw [List.foldl_cons, ih, List.map_cons, List.sum_cons]; omega
  rw [this]; omega

/-- **C28** reading back: a `utf8in` iterator placed on the bytes written for `v`, whatever surrounds them, has the
value `v`, has consumed exactly those bytes, and `base ()` is where they begin; the length was announced by
the first byte. -/
theorem read_back (v : Nat) (h : v < 2 ^ 31) (bs : List Byte) (ho : out v = some bs) (pre post : List Byte) :
    ∃ p, read (pre ++ (bs ++ post)) pre.length = some p ∧ p.v = v ∧ p.i + 1 = pre.length + bs.length ∧
      base p = some pre.length ∧ ∃ c r, bs = c :: r ∧ seqBytes c.toNat = bs.length := by
  rw [out_table h] at ho
  cases ho
  obtain ⟨a, b⟩ := read_table h pre post
  refine ⟨_, a, rfl, ?_, ?_, b⟩
  · have := table_pos v; simp only; omega
  · unfold base
    have := table_pos v
    simp only [← table_length h]
    rw [if_pos (by omega)]
    congr 1; omega

/-- **C28** encodings are distinct and prefix free: if the encoding of one value begins a text that continues
the encoding of another, the values are equal. -/
theorem prefix_free (v w : Nat) (hv : v < 2 ^ 31) (hw : w < 2 ^ 31) (a b x y : List Byte) (ha : out v = some a)
    (hb : out w = some b) (e : a ++ x = b ++ y) : v = w ∧ a = b ∧ x = y := by
  obtain ⟨p, p1, p2, _⟩ := read_back v hv a ha [] x
  obtain ⟨q, q1, q2, _⟩ := read_back w hw b hb [] y
  rw [e] at p1
  rw [p1] at q1
  cases q1
  subst p2
  subst q2
  rw [ha] at hb
  cases hb
  exact ⟨rfl, rfl, List.append_cancel_left e⟩

/-- **C28** so an encoded text determines its values. -/
theorem text_injective : ∀ (vs ws : List Nat), Valid vs → Valid ws → outAll vs = outAll ws → vs = ws
  | [], [], _, _, _ => rfl
  | [], w :: ws, _, hw, e => by
    obtain ⟨b, b1, b2, _⟩ := outAll_size (w :: ws) hw
    rw [b1] at e
    have e : ([] : List Byte) = b := Option.some.inj e
    have := table_pos w
    have : 0 < b.length := by rw [b2]; unfold text; simp; omega
    rw [← e] at this
    cases this
  | v :: vs, [], hv, _, e => by
    obtain ⟨b, b1, b2, _⟩ := outAll_size (v :: vs) hv
    rw [b1] at e
    have e : b = ([] : List Byte) := Option.some.inj e
    have := table_pos v
    have : 0 < b.length := by rw [b2]; unfold text; simp; omega
    rw [e] at this
    cases this
  | v :: vs, w :: ws, hv, hw, e => by
    have hv1 : Valid vs := fun x hx => hv x (List.mem_cons_of_mem _ hx)
    have hw1 : Valid ws := fun x hx => hw x (List.mem_cons_of_mem _ hx)
    have hv0 := hv v List.mem_cons_self
    have hw0 := hw w List.mem_cons_self
    obtain ⟨b, b1, _⟩ := outAll_size vs hv1
    obtain ⟨c, c1, _⟩ := outAll_size ws hw1
    unfold outAll at e
    rw [b1, c1, out_table hv0, out_table hw0] at e
    obtain ⟨x, _, z⟩ := prefix_free v w hv0 hw0 _ _ b c (out_table hv0) (out_table hw0) (Option.some.inj e)
    rw [x, text_injective vs ws hv1 hw1 (by rw [b1, c1, z])]

/-- **C28** outside the range: every value from 2^31 on makes `operator=` shift a 32 bit value by 36. -/
theorem out_big_violated (v : Nat) (h1 : 2 ^ 31 ≤ v) (h2 : v < 2 ^ 32) : out v = none := by
  have hb := boundLoop_cases h2
  unfold out
  rw [if_neg (by omega), if_neg (by omega), if_neg (by omega), if_neg (by omega), if_neg (by omega), if_neg (by omega)] at hb
  rw [hb]
  rfl

example : (0x20AC : Nat) < 2 ^ 31 ∧ out 0x20AC = some [0xE2, 0x82, 0xAC] ∧
    read [120, 0xE2, 0x82, 0xAC, 121] 1 = some ⟨3, 0x20AC⟩ := by decide
example : Valid [0x41, 0x7FF, 0x10FFFF, 0x7FFFFFFF, 0] ∧
    outAll [0x41, 0x7FF, 0x10FFFF] = some [0x41, 0xDF, 0xBF, 0xF4, 0x8F, 0xBF, 0xBF] := by
  constructor
  · unfold Valid; decide
  · decide

/-! ### C29: iterating over a string -/

/-- The iterator at the beginning of `vs`. -/
def cur (P : List Byte) : List Nat → It
  | [] => ⟨P.length, 0⟩
  | v :: _ => ⟨P.length + (table v).length - 1, v⟩

theorem text_cons (v : Nat) (vs : List Nat) : text (v :: vs) = table v ++ text vs := by unfold text; simp

theorem read_cur (P post : List Byte) (vs : List Nat) (h : Valid vs) :
    read (P ++ (text vs ++ 0 :: post)) P.length = some (cur P vs) := by
  cases vs with
  | nil =>
    unfold read
    have : text [] = [] := rfl
    rw [this, List.nil_append, rd_at]
    rfl
  | cons v vs =>
    rw [text_cons, List.append_assoc]
    exact (read_table (h v List.mem_cons_self) P _).1

theorem next_cur (P post : List Byte) (v : Nat) (vs : List Nat) (h : Valid (v :: vs)) :
    next (P ++ (text (v :: vs) ++ 0 :: post)) (cur P (v :: vs)) = some (cur (P ++ table v) vs) := by
  have := read_cur (P ++ table v) post vs fun x hx => h x (List.mem_cons_of_mem _ hx)
  unfold next cur
  have hp := table_pos v
  rw [text_cons, List.append_assoc, ← List.append_assoc P]
  simp only
  rw [show P.length + (table v).length - 1 + 1 = (P ++ table v).length by simp; omega]
  exact this

theorem plus_cur (post : List Byte) : ∀ (vs : List Nat) (P : List Byte) (k : Nat), Valid vs → k ≤ vs.length →
    plus (P ++ (text vs ++ 0 :: post)) (cur P vs) k = some (cur (P ++ text (vs.take k)) (vs.drop k))
  | vs, P, 0, _, _ => by simp [plus, text]
  | [], P, k + 1, _, hk => by simp at hk
  | v :: vs, P, k + 1, h, hk => by
    unfold plus
    rw [next_cur P post v vs h]
    simp only [List.take_succ_cons, List.drop_succ_cons]
    rw [text_cons, text_cons, List.append_assoc, ← List.append_assoc P, ← List.append_assoc P]
    exact plus_cur post vs (P ++ table v) k (fun x hx => h x (List.mem_cons_of_mem _ hx)) (by simpa using hk)

theorem base_cur (P : List Byte) (vs : List Nat) (h : Valid vs) : base (cur P vs) = some P.length := by
  cases vs with
  | nil => rfl
  | cons v vs =>
    have hp := table_pos v
    have hv := table_length (h v List.mem_cons_self)
    unfold base cur
    simp only [← hv]
    rw [if_pos (by omega)]
    congr 1; omega

theorem collect_cur (post : List Byte) : ∀ (vs : List Nat) (P : List Byte), Valid vs →
    collect (P ++ (text vs ++ 0 :: post)) (cur P vs) (P.length + (text vs).length) = some vs
  | [], P, _ => by
    unfold collect
    rw [if_pos (by rfl)]
  | v :: vs, P, h => by
    have hp := table_pos v
    have hl : (text (v :: vs)).length = (table v).length + (text vs).length := by rw [text_cons, List.length_append]
    unfold collect
    rw [if_neg (by unfold cur; simp only; omega), if_neg (by unfold cur; simp only; omega)]
    have ih := collect_cur post vs (P ++ table v) fun x hx => h x (List.mem_cons_of_mem _ hx)
    have hn := next_cur P post v vs h
    have em : P ++ (text (v :: vs) ++ 0 :: post) = P ++ table v ++ (text vs ++ 0 :: post) := by
      rw [text_cons, List.append_assoc, List.append_assoc]
    split
    · rename_i hq; rw [hn] at hq; cases hq
    · rename_i q hq
      rw [hn] at hq
      cases hq
      rw [em, show P.length + (text (v :: vs)).length = (P ++ table v).length + (text vs).length by
        rw [List.length_append]; omega, ih]
      rfl

theorem diffLoop_text (post : List Byte) : ∀ (vs : List Nat) (P : List Byte), Valid vs →
    diffLoop (P ++ (text vs ++ 0 :: post)) P.length (P.length + (text vs).length) = some vs.length
  | [], P, _ => by
    unfold diffLoop
    rw [if_neg (by have : text [] = [] := rfl; rw [this]; simp)]
    rfl
  | v :: vs, P, h => by
    have hp := table_pos v
    have hl : (text (v :: vs)).length = (table v).length + (text vs).length := by rw [text_cons, List.length_append]
    have ih := diffLoop_text post vs (P ++ table v) fun x hx => h x (List.mem_cons_of_mem _ hx)
    obtain ⟨_, c, r, h1, h2⟩ := read_table (h v List.mem_cons_self) P (text vs ++ 0 :: post)
    have em : P ++ (text (v :: vs) ++ 0 :: post) = P ++ table v ++ (text vs ++ 0 :: post) := by
      rw [text_cons, List.append_assoc, List.append_assoc]
    have hrd : rd (P ++ (text (v :: vs) ++ 0 :: post)) P.length = some c := by
      rw [text_cons, h1]
      simp only [List.cons_append]
      exact rd_at _ _ _
    unfold diffLoop
    rw [if_pos (by omega), hrd]
    simp only [h2]
    rw [em, show P.length + (text (v :: vs)).length = (P ++ table v).length + (text vs).length by
        rw [List.length_append]; omega, show P.length + (table v).length = (P ++ table v).length by simp, ih]
    rfl

/-- The last byte of an encoding is not a lead byte. -/
theorem table_last {v : Nat} (h : v < 2 ^ 31) : ∃ i b, table v = i ++ [b] ∧ seqBytes b.toNat = 1 := by
  have hp := table_pos v
  obtain ⟨_, c, r, h1, h2⟩ := read_table h [] []
  rcases List.eq_nil_or_concat r with hr | ⟨i, b, hr⟩
  · subst hr
    refine ⟨[], c, h1, ?_⟩
    rw [h2, h1]; rfl
  · refine ⟨c :: i, b, by rw [h1, hr]; simp, ?_⟩
    exact (tail_seq (v := v) b (by rw [h1, hr]; simp)).1

theorem diff_cur (post : List Byte) (vs : List Nat) (P : List Byte) (h : Valid vs) :
    diffLoop (P ++ (text vs ++ 0 :: post)) (cur P vs).i (P.length + (text vs).length) = some vs.length := by
  cases vs with
  | nil => exact diffLoop_text post [] P h
  | cons v vs =>
    have hp := table_pos v
    have hl : (text (v :: vs)).length = (table v).length + (text vs).length := by rw [text_cons, List.length_append]
    have ih := diffLoop_text post vs (P ++ table v) fun x hx => h x (List.mem_cons_of_mem _ hx)
    obtain ⟨i, b, e, hb⟩ := table_last (h v List.mem_cons_self)
    have hi : (table v).length = i.length + 1 := by rw [e]; simp
    have em : P ++ (text (v :: vs) ++ 0 :: post) = P ++ table v ++ (text vs ++ 0 :: post) := by
      rw [text_cons, List.append_assoc, List.append_assoc]
    have hrd : rd (P ++ (text (v :: vs) ++ 0 :: post)) (cur P (v :: vs)).i = some b := by
      have := rd_at (P ++ i) b (text vs ++ 0 :: post)
      rw [em, e]
      unfold cur
      simp only [hi]
      rw [show P.length + (i.length + 1) - 1 = (P ++ i).length by simp]
      simpa using this
    unfold diffLoop
    rw [if_pos (by unfold cur; simp only; omega), hrd]
    simp only [hb]
    rw [em, show P.length + (text (v :: vs)).length = (P ++ table v).length + (text vs).length by
        rw [List.length_append]; omega, show (cur P (v :: vs)).i + 1 = (P ++ table v).length by
        unfold cur; simp only [List.length_append]; omega, ih]
    rfl

theorem read_end (P post : List Byte) (vs : List Nat) :
    read (P ++ (text vs ++ 0 :: post)) (P.length + (text vs).length) = some ⟨P.length + (text vs).length, 0⟩ := by
  have := read_cur (P ++ text vs) post [] (fun _ hx => nomatch hx)
  rw [show text [] = [] from rfl, List.nil_append, List.append_assoc, List.length_append] at this
  rw [this]
  unfold cur
  rw [List.length_append]

/-- **C29** `length ()` of a string holding the encodings of `vs` is the number of characters. The string starts
at `pre.length` in memory and is followed by NUL, as `string_terminated` provides. -/
theorem length_chars (vs : List Nat) (h : Valid vs) (pre post : List Byte) :
    length (pre ++ (text vs ++ 0 :: post)) pre.length (pre.length + (text vs).length) = some vs.length := by
  unfold length diff
  rw [read_cur pre post vs h, read_end]
  exact diff_cur post vs pre h

/-- **C29** iterating from `utf8_begin ()` to `utf8_end ()` yields exactly the characters, in order. -/
theorem iterate_chars (vs : List Nat) (h : Valid vs) (pre post : List Byte) :
    chars (pre ++ (text vs ++ 0 :: post)) pre.length (pre.length + (text vs).length) = some vs := by
  unfold chars
  rw [read_cur pre post vs h, read_end]
  exact collect_cur post vs pre h

/-- **C29** `wiat (k)` is where character `k` begins (or the end, for `k` the number of characters). -/
theorem wiat_begins (vs : List Nat) (h : Valid vs) (k : Nat) (hk : k ≤ vs.length) (pre post : List Byte) :
    wiat (pre ++ (text vs ++ 0 :: post)) pre.length k = some (pre.length + (text (vs.take k)).length) := by
  unfold wiat
  rw [read_cur pre post vs h]
  simp only
  rw [plus_cur post vs pre k h hk]
  simp only
  rw [base_cur _ _ fun x hx => h x (List.mem_of_mem_drop hx), List.length_append]

/-- **C29** for any bytes, well formed or not, iterating, measuring and indexing within the measured length read
only the string and its terminating NUL, terminate, and find at most one character per byte. -/
theorem any_bytes_safe (s pre post : List Byte) :
    (∃ n, length (pre ++ (s ++ 0 :: post)) pre.length (pre.length + s.length) = some n ∧ n ≤ s.length) ∧
    (∃ vs, chars (pre ++ (s ++ 0 :: post)) pre.length (pre.length + s.length) = some vs ∧ vs.length ≤ s.length) ∧
    ∀ i, pre.length ≤ i → i ≤ pre.length + s.length → ∃ p, read (pre ++ (s ++ 0 :: post)) i = some p ∧ i ≤ p.i ∧
      p.i ≤ pre.length + s.length := by
  have hm : ∀ i, i ≤ pre.length + s.length → ∃ b, rd (pre ++ (s ++ 0 :: post)) i = some b ∧
      (i = pre.length + s.length → b = 0) := by
    intro i hi
    unfold rd
    have hlt : i < (pre ++ (s ++ 0 :: post)).length := by simp; omega
    refine ⟨_, List.getElem?_eq_getElem hlt, ?_⟩
    intro e
    subst e
    rw [List.getElem_append_right (by omega), List.getElem_append_right (by omega)]
    simp
  generalize pre ++ (s ++ 0 :: post) = m at *
  have hloop : ∀ (k i v : Nat), i ≤ pre.length + s.length → (i = pre.length + s.length → k = 0) →
      ∃ p, readLoop m k i v = some p ∧ i ≤ p.i ∧ p.i ≤ pre.length + s.length := by
    intro k
    induction k with
    | zero => intro i v hi _; exact ⟨_, rfl, Nat.le_refl _, hi⟩
    | succ k ih =>
      intro i v hi he
      have hi' : i + 1 ≤ pre.length + s.length := by
        rcases Nat.lt_or_ge i (pre.length + s.length) with h | h
        · omega
        · exact absurd (he (by omega)) (by omega)
      obtain ⟨b, hb, hz⟩ := hm (i + 1) hi'
      unfold readLoop
      rw [hb]
      by_cases h0 : b = 0
      · simp only [if_pos h0]; exact ⟨_, rfl, Nat.le_succ _, hi'⟩
      · simp only [if_neg h0]
        obtain ⟨p, p1, p2, p3⟩ := ih (i + 1) (((v <<< 6) % 2 ^ 32) ||| (b.toNat &&& 0x3F)) hi'
          (fun e => absurd (hz e) h0)
        exact ⟨p, p1, by omega, p3⟩
  have hread : ∀ i, i ≤ pre.length + s.length → ∃ p, read m i = some p ∧ i ≤ p.i ∧ p.i ≤ pre.length + s.length := by
    intro i hi
    obtain ⟨b, hb, hz⟩ := hm i hi
    unfold read
    rw [hb]
    refine hloop _ _ _ hi fun e => ?_
    rw [hz e]
    rfl
  have hdiff : ∀ n i, pre.length + s.length - i = n → ∃ d, diffLoop m i (pre.length + s.length) = some d ∧
      d ≤ pre.length + s.length - i := by
    intro n
    induction n using Nat.strongRecOn with
    | ind n ih =>
      intro i hn
      unfold diffLoop
      by_cases hlt : i < pre.length + s.length
      · obtain ⟨b, hb, _⟩ := hm i (by omega)
        have hp := seqBytes_pos b.toNat
        rw [if_pos hlt, hb]
        obtain ⟨d, d1, d2⟩ := ih _ (by omega) (i + seqBytes b.toNat) rfl
        refine ⟨d + 1, by simp only [d1, Option.map_some], by omega⟩
      · rw [if_neg hlt]; exact ⟨0, rfl, by omega⟩
  have hcol : ∀ n (p : It), pre.length + s.length - p.i = n → p.i ≤ pre.length + s.length →
      ∃ vs, collect m p (pre.length + s.length) = some vs ∧ vs.length ≤ pre.length + s.length - p.i := by
    intro n
    induction n using Nat.strongRecOn with
    | ind n ih =>
      intro p hn hp
      unfold collect
      by_cases he : p.i = pre.length + s.length
      · rw [if_pos he]; exact ⟨[], rfl, Nat.zero_le _⟩
      · rw [if_neg he, if_neg (by omega)]
        obtain ⟨q, q1, q2, q3⟩ := hread (p.i + 1) (by omega)
        split
        · rename_i hq; rw [show next m p = read m (p.i + 1) from rfl, q1] at hq; cases hq
        · rename_i q' hq
          rw [show next m p = read m (p.i + 1) from rfl, q1] at hq
          cases hq
          obtain ⟨vs, v1, v2⟩ := ih _ (by omega) q rfl q3
          exact ⟨_, by rw [v1]; rfl, by simp only [List.length_cons]; omega⟩
  obtain ⟨p, p1, p2, p3⟩ := hread pre.length (by omega)
  obtain ⟨q, q1, q2, q3⟩ := hread (pre.length + s.length) (Nat.le_refl _)
  have hq : q.i = pre.length + s.length := by omega
  refine ⟨?_, ?_, fun i _ hi => hread i hi⟩
  · obtain ⟨d, d1, d2⟩ := hdiff _ p.i rfl
    refine ⟨d, ?_, by omega⟩
    unfold length diff
    rw [p1, q1]
    simp only [hq, d1]
  · obtain ⟨vs, v1, v2⟩ := hcol _ p rfl p3
    refine ⟨vs, ?_, by omega⟩
    unfold chars
    rw [p1, q1]
    simp only [hq, v1]

/-- On text cut in the middle of a character `length ()` counts it but iteration does not yield it. -/
theorem truncated_differs : length [0x61, 0xE2, 0] 0 2 = some 2 ∧ chars [0x61, 0xE2, 0] 0 2 = some [0x61] := by
  constructor
  · simp [length, diff, read, readLoop, rd, diffLoop, show seqBytes 97 = 1 from rfl, show seqBytes 226 = 3 from rfl,
      show seqBytes 0 = 1 from rfl]
  · have r0 : read [0x61, 0xE2, 0] 0 = some ⟨0, 0x61⟩ := by decide
    have r1 : next [0x61, 0xE2, 0] ⟨0, 0x61⟩ = some ⟨2, 2⟩ := by decide
    have r2 : read [0x61, 0xE2, 0] 2 = some ⟨2, 0⟩ := by decide
    unfold chars
    rw [r0, r2]
    simp only
    unfold collect
    rw [if_neg (by decide), if_neg (by decide)]
    split
    · rename_i hq; rw [r1] at hq; cases hq
    · rename_i q hq
      rw [r1] at hq
      cases hq
      unfold collect
      rw [if_pos rfl]
      rfl

/-- **C29** inserting a wide character `n` times is inserting its encoding `n` times (see `Str` for what that
does to the string). -/
theorem insertWide_eq (rot : List Byte → Nat → Nat → Nat → Option (List Byte)) (h : Memblock.Heap Byte) (o : Memblock.Obj)
    (pos n c : Nat) (a : Option (Nat → Byte)) (hc : c < 2 ^ 31) :
    insertWide rot h o pos n c a = Str.insertAt rot h o pos (table c) n a := by
  obtain ⟨bs, b1, b2, _⟩ := outAll_size (List.replicate n c) (fun v hv => by rw [List.eq_of_mem_replicate hv]; exact hc)
  unfold insertWide Str.insertAt Str.insert
  rw [b1, table_length hc, Nat.mul_comm n, b2]
  simp only [text, List.map_replicate]

/-- **C29** inserting a wide text at a character boundary of a string that holds an encoded text gives the
string that holds the text with the characters inserted there. -/
theorem insertWides_text (rot : List Byte → Nat → Nat → Nat → Option (List Byte)) (hr : Memblock.RotateOK rot)
    (h : Memblock.Heap Byte) (o : Memblock.Obj) (as bs ws : List Nat) (a : Option (Nat → Byte)) (hw : Valid ws)
    (hh : Memblock.HOK h) (r : Str.SRep h o (text (as ++ bs)))
    (hlim : (text (as ++ bs)).length + (text ws).length + 1 ≤ 2 ^ 31) :
    Str.Done h o a (insertWides rot h o (text as).length ws 1 a) fun h' o' => Str.SRep h' o' (text (as ++ ws ++ bs)) := by
  obtain ⟨x, b1, b2, b3⟩ := outAll_size ws hw
  have hx : x.length = (ws.map utf8Bytes).sum := by
    rw [b2]
    clear b1 b2 b3 hlim r x
    induction ws with
    | nil => rfl
    | cons v vs ih =>
      rw [text_cons, List.length_append, ih fun y hy => hw y (List.mem_cons_of_mem _ hy), List.map_cons, List.sum_cons,
        table_length (hw v List.mem_cons_self)]
  have e : insertWides rot h o (text as).length ws 1 a = Str.insertAt rot h o (text as).length x 1 a := by
    unfold insertWides Str.insertAt Str.insert
    simp only [List.replicate_one, List.flatten_singleton]
    rw [b1, hx, Nat.mul_comm]
  rw [e]
  have ht : ∀ a b, text (a ++ b) = text a ++ text b := fun a b => by unfold text; simp
  refine (Str.insert_s hr (text as).length x 1 a hh r (by rw [b2]; simpa using hlim)).mono ?_
  intro h' o' hs
  rw [ht as bs, List.take_left, List.drop_left] at hs
  rw [ht, ht, ← b2]
  simpa using hs

example : Valid [0x61, 0x20AC, 0x10FFFF] ∧ text [0x61, 0x20AC, 0x10FFFF] = [0x61, 0xE2, 0x82, 0xAC, 0xF4, 0x8F, 0xBF, 0xBF] ∧
    wiat (text [0x61, 0x20AC, 0x10FFFF] ++ [0]) 0 2 = some 4 := by
  refine ⟨?_, by decide, by decide⟩
  unfold Valid; decide

end Ustl.Utf8
