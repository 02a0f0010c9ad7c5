import Verif.Utf8.Spec
/-! # Lemmas about the UTF-8 model -/
namespace Ustl.Utf8

theorem seqBytes_table : ∀ c < 256, seqBytes c =
    if c < 0x80 then 1 else if c < 0xC0 then 1 else if c < 0xE0 then 2 else if c < 0xF0 then 3 else if c < 0xF8 then 4
    else if c < 0xFC then 5 else if c < 0xFE then 6 else if c < 0xFF then 7 else 8 := by decide +kernel

theorem and63 (x : Nat) : x &&& 0x3F = x % 64 := Nat.and_two_pow_sub_one_eq_mod x 6

theorem or_cont {x : Nat} (h : x < 64) : x ||| 0x80 = 0x80 + x := by
  have : ∀ x < 64, x ||| 0x80 = 0x80 + x := by decide +kernel
  exact this x h

theorem or_mul {v x : Nat} (h : x < 64) : (v <<< 6) ||| x = v * 64 + x := by
  rw [Nat.shiftLeft_eq, Nat.mul_comm, ← Nat.two_pow_add_eq_or_of_lt (i := 6) h v]

theorem rd_at (pre : List Byte) (x : Byte) (post : List Byte) : rd (pre ++ x :: post) pre.length = some x := by
  unfold rd; simp

theorem boundLoop_cases {v : Nat} (h : v < 2 ^ 32) : utf8Bytes v =
    if v ≤ 0x7F then 1 else if v ≤ 0x7FF then 2 else if v ≤ 0xFFFF then 3 else if v ≤ 0x1FFFFF then 4
    else if v ≤ 0x3FFFFFF then 5 else if v ≤ 0x7FFFFFFF then 6 else 7 := by
  unfold utf8Bytes bounds
  simp only [boundLoop]
  repeat' split
  all_goals first | rfl | omega

theorem shr_some {v s : Nat} (h : s < 32) : shr v s = some (v / 2 ^ s) := by
  unfold shr; rw [if_pos h, Nat.shiftRight_eq_div_pow]

theorem contByte (v k : Nat) : UInt8.ofNat (((v / 2 ^ k) &&& 0x3F) ||| 0x80) = cont (v / 2 ^ k) := by
  rw [and63, or_cont (Nat.mod_lt _ (by omega))]; rfl

theorem outCont_some (v : Nat) : ∀ k, k ≤ 6 → outCont v k = some ((List.range k).reverse.map fun j => cont (v / 2 ^ (6 * j)))
  | 0, _ => rfl
  | k + 1, h => by
    unfold outCont
    rw [shr_some (by omega), outCont_some v k (by omega)]
    simp only [contByte, List.range_succ, List.reverse_append, List.reverse_cons, List.reverse_nil, List.nil_append,
      List.singleton_append, List.map_cons]

theorem lead {x n : Nat} (hx : x < 64) (hn : 2 ≤ n) (hn6 : n ≤ 6) (hb : x < 2 ^ (7 - n)) :
    UInt8.ofNat (x ||| (0xFF <<< (8 - n))) = byte ((256 - 2 ^ (8 - n)) + x) := by
  have : ∀ n ≤ 6, 2 ≤ n → ∀ x < 64, x < 2 ^ (7 - n) →
    UInt8.ofNat (x ||| (0xFF <<< (8 - n))) = byte ((256 - 2 ^ (8 - n)) + x) := by decide +kernel
  exact this n hn6 hn x hx hb

theorem out_n {v n : Nat} (hn : utf8Bytes v = n) (h2 : 2 ≤ n) (h6 : n ≤ 6) (hb : v / 2 ^ (6 * (n - 1)) < 2 ^ (7 - n))  :
    out v = some (byte ((256 - 2 ^ (8 - n)) + v / 2 ^ (6 * (n - 1))) ::
      (List.range (n - 1)).reverse.map fun j => cont (v / 2 ^ (6 * j))) := by
  have h64 : 2 ^ (7 - n) ≤ 64 := by
    have : 2 ^ (7 - n) ≤ 2 ^ 6 := Nat.pow_le_pow_right (by omega) (by omega)
    omega
  unfold out
  simp only [hn]
  rw [if_pos (by omega), shr_some (by omega), outCont_some v _ (by omega)]
  simp only
  rw [and63, Nat.mod_eq_of_lt (by omega), lead (by omega) h2 h6 hb]

theorem out_table {v : Nat} (h : v < 2 ^ 31) : out v = some (table v) := by
  have hb := boundLoop_cases (v := v) (by omega)
  unfold table
  split at hb
  · rename_i h1
    rw [if_pos h1]; unfold out; rw [hb]; rfl
  rename_i h1
  rw [if_neg h1]
  split at hb
  · rename_i h2
    rw [if_pos h2, out_n hb (by omega) (by omega) (by omega)]
    simp [List.range_succ]
  rename_i h2
  rw [if_neg h2]
  split at hb
  · rename_i h3
    rw [if_pos h3, out_n hb (by omega) (by omega) (by omega)]
    simp [List.range_succ, Nat.div_div_eq_div_mul]
  rename_i h3
  rw [if_neg h3]
  split at hb
  · rename_i h4
    rw [if_pos h4, out_n hb (by omega) (by omega) (by omega)]
    simp [List.range_succ, Nat.div_div_eq_div_mul]
  rename_i h4
  rw [if_neg h4]
  split at hb
  · rename_i h5
    rw [if_pos h5, out_n hb (by omega) (by omega) (by omega)]
    simp [List.range_succ, Nat.div_div_eq_div_mul]
  rename_i h5
  rw [if_neg h5]
  split at hb
  · rename_i h6
    rw [out_n hb (by omega) (by omega) (by omega)]
    simp [List.range_succ, Nat.div_div_eq_div_mul]
  · omega

theorem table_length {v : Nat} (h : v < 2 ^ 31) : (table v).length = utf8Bytes v := by
  rw [boundLoop_cases (by omega)]
  unfold table
  repeat' split
  all_goals first | rfl | omega

theorem table_pos (v : Nat) : 0 < (table v).length := by
  unfold table
  repeat' split
  all_goals simp

theorem byte_toNat {n : Nat} (h : n < 256) : (byte n).toNat = n := by
  unfold byte
  rw [UInt8.toNat_ofNat']
  exact Nat.mod_eq_of_lt h

theorem cont_toNat (n : Nat) : (cont n).toNat = 0x80 + n % 64 := byte_toNat (by omega)

theorem cont_ne (n : Nat) : cont n ≠ 0 := by
  intro h
  have := cont_toNat n
  rw [h] at this
  have h0 : (0 : Byte).toNat = 0 := rfl
  omega

/-- Reading continuation bytes. -/
theorem readLoop_conts (post : List Byte) : ∀ (ns : List Nat) (x : Byte) (pre : List Byte) (v : Nat),
    (v + 1) * 64 ^ ns.length ≤ 2 ^ 32 →
    readLoop (pre ++ x :: (ns.map cont ++ post)) ns.length pre.length v =
      some ⟨pre.length + ns.length, ns.foldl (fun v n => v * 64 + n % 64) v⟩
  | [], x, pre, v, _ => rfl
  | n :: ns, x, pre, v, hv => by
    rw [List.length_cons, Nat.pow_succ, Nat.mul_comm (64 ^ ns.length), ← Nat.mul_assoc] at hv
    have h1 : 0 < 64 ^ ns.length := Nat.pos_of_ne_zero (by simp)
    have hlt : (v + 1) * 64 ≤ 2 ^ 32 := Nat.le_trans (Nat.le_mul_of_pos_right _ h1) hv
    have hrd : rd (pre ++ x :: (List.map cont (n :: ns) ++ post)) (pre.length + 1) = some (cont n) := by
      have := rd_at (pre ++ [x]) (cont n) (ns.map cont ++ post)
      simpa using this
    have e : pre ++ x :: (List.map cont (n :: ns) ++ post) = (pre ++ [x]) ++ cont n :: (ns.map cont ++ post) := by simp
    have key : (((v <<< 6) % 2 ^ 32) ||| ((cont n).toNat &&& 0x3F)) = v * 64 + n % 64 := by
      rw [cont_toNat, and63, Nat.mod_eq_of_lt (a := v <<< 6) (by rw [Nat.shiftLeft_eq]; omega), or_mul (by omega)]
      omega
    rw [List.length_cons]
    unfold readLoop
    rw [hrd]
    simp only [if_neg (cont_ne n)]
    rw [key, e, show pre.length + 1 = (pre ++ [x]).length by simp, readLoop_conts post ns]
    · simp; omega
    · exact Nat.le_trans (Nat.mul_le_mul_right _ (by omega)) hv

theorem read_lead {n x : Nat} (post pre : List Byte) (ns : List Nat) (hn : 2 ≤ n) (hn6 : n ≤ 6) (hl : ns.length = n - 1)
    (hx : x < 2 ^ (7 - n)) :
    read (pre ++ byte ((256 - 2 ^ (8 - n)) + x) :: (ns.map cont ++ post)) pre.length =
      some ⟨pre.length + ns.length, ns.foldl (fun v n => v * 64 + n % 64) x⟩ ∧
    seqBytes (byte ((256 - 2 ^ (8 - n)) + x)).toNat = n := by
  have h : ∀ n ≤ 6, 2 ≤ n → ∀ x < 64, x < 2 ^ (7 - n) → seqBytes (byte ((256 - 2 ^ (8 - n)) + x)).toNat = n ∧
      (byte ((256 - 2 ^ (8 - n)) + x)).toNat &&& (0xFF >>> n) = x ∧ (x + 1) * 64 ^ (n - 1) ≤ 2 ^ 32 := by decide +kernel
  have h64 : 2 ^ (7 - n) ≤ 64 := by
    have : 2 ^ (7 - n) ≤ 2 ^ 6 := Nat.pow_le_pow_right (by omega) (by omega)
    omega
  obtain ⟨h1, h2, h3⟩ := h n hn6 hn x (by omega) hx
  refine ⟨?_, h1⟩
  unfold read
  rw [rd_at]
  simp only [h1, h2, ← hl]
  exact readLoop_conts post ns _ pre x (hl ▸ h3)

theorem read_table {v : Nat} (h : v < 2 ^ 31) (pre post : List Byte) :
    read (pre ++ (table v ++ post)) pre.length = some ⟨pre.length + (table v).length - 1, v⟩ ∧
    ∃ c r, table v = c :: r ∧ seqBytes c.toNat = (table v).length := by
  unfold table
  split
  · rename_i h1
    have hs := seqBytes_table v (by omega)
    rw [if_pos (by omega)] at hs
    refine ⟨?_, _, _, rfl, by rw [byte_toNat (by omega), hs]; rfl⟩
    unfold read
    have e : v &&& (0xFF >>> 1) = v := by
      rw [show 0xFF >>> 1 = 2 ^ 7 - 1 from rfl, Nat.and_two_pow_sub_one_eq_mod, Nat.mod_eq_of_lt (by omega)]
    simp only [List.cons_append, rd_at, byte_toNat (show v < 256 by omega), hs, e]
    rfl
  split
  · obtain ⟨a, b⟩ := read_lead (n := 2) (x := v / 64) post pre [v] (by omega) (by omega) rfl (by omega)
    refine ⟨?_, _, _, rfl, b⟩
    simp only [List.map_cons, List.map_nil, List.foldl, List.length_cons, List.length_nil] at a
    simp only [List.cons_append, List.nil_append, List.length_cons, List.length_nil] at a ⊢
    rw [show v / 64 * 64 + v % 64 = v by omega] at a
    exact a
  split
  · obtain ⟨a, b⟩ := read_lead (n := 3) (x := v / 64 / 64) post pre [v / 64, v] (by omega) (by omega) rfl (by omega)
    refine ⟨?_, _, _, rfl, b⟩
    simp only [List.map_cons, List.map_nil, List.foldl, List.length_cons, List.length_nil] at a
    simp only [List.cons_append, List.nil_append, List.length_cons, List.length_nil] at a ⊢
    rw [show (v / 64 / 64 * 64 + v / 64 % 64) * 64 + v % 64 = v by omega] at a
    exact a
  split
  · obtain ⟨a, b⟩ := read_lead (n := 4) (x := v / 64 / 64 / 64) post pre [v / 64 / 64, v / 64, v] (by omega) (by omega) rfl
      (by omega)
    refine ⟨?_, _, _, rfl, b⟩
    simp only [List.map_cons, List.map_nil, List.foldl, List.length_cons, List.length_nil] at a
    simp only [List.cons_append, List.nil_append, List.length_cons, List.length_nil] at a ⊢
    rw [show ((v / 64 / 64 / 64 * 64 + v / 64 / 64 % 64) * 64 + v / 64 % 64) * 64 + v % 64 = v by omega] at a
    exact a
  split
  · obtain ⟨a, b⟩ := read_lead (n := 5) (x := v / 64 / 64 / 64 / 64) post pre [v / 64 / 64 / 64, v / 64 / 64, v / 64, v]
      (by omega) (by omega) rfl (by omega)
    refine ⟨?_, _, _, rfl, b⟩
    simp only [List.map_cons, List.map_nil, List.foldl, List.length_cons, List.length_nil] at a
    simp only [List.cons_append, List.nil_append, List.length_cons, List.length_nil] at a ⊢
    rw [show (((v / 64 / 64 / 64 / 64 * 64 + v / 64 / 64 / 64 % 64) * 64 + v / 64 / 64 % 64) * 64 + v / 64 % 64) * 64
      + v % 64 = v by omega] at a
    exact a
  · obtain ⟨a, b⟩ := read_lead (n := 6) (x := v / 64 / 64 / 64 / 64 / 64) post pre
      [v / 64 / 64 / 64 / 64, v / 64 / 64 / 64, v / 64 / 64, v / 64, v] (by omega) (by omega) rfl (by omega)
    refine ⟨?_, _, _, rfl, b⟩
    simp only [List.map_cons, List.map_nil, List.foldl, List.length_cons, List.length_nil] at a
    simp only [List.cons_append, List.nil_append, List.length_cons, List.length_nil] at a ⊢
    rw [show ((((v / 64 / 64 / 64 / 64 / 64 * 64 + v / 64 / 64 / 64 / 64 % 64) * 64 + v / 64 / 64 / 64 % 64) * 64
      + v / 64 / 64 % 64) * 64 + v / 64 % 64) * 64 + v % 64 = v by omega] at a
    exact a

/-- Bytes other than the first of an encoding are continuation bytes. -/
theorem table_tail (v : Nat) : ∃ ns : List Nat, (table v).tail = ns.map cont := by
  unfold table
  split
  · exact ⟨[], rfl⟩
  split
  · exact ⟨[_], rfl⟩
  split
  · exact ⟨[_, _], rfl⟩
  split
  · exact ⟨[_, _, _], rfl⟩
  split
  · exact ⟨[_, _, _, _], rfl⟩
  · exact ⟨[_, _, _, _, _], rfl⟩

theorem tail_seq {v : Nat} : ∀ b ∈ (table v).tail, seqBytes b.toNat = 1 ∧ b ≠ 0 := by
  intro b hb
  obtain ⟨ns, e⟩ := table_tail v
  rw [e] at hb
  obtain ⟨n, _, rfl⟩ := List.mem_map.1 hb
  refine ⟨?_, cont_ne n⟩
  rw [cont_toNat, seqBytes_table _ (by omega), if_neg (by omega), if_pos (by omega)]

end Ustl.Utf8
