import Verif.Bytes.Lemmas
import Verif.Permute.Props
/-!
# C53 (copy and fill primitives) and the pointer version of `rotate` (C06)

`copied m s n d` is the specification: `[d, d + n)` holds the old `[s, s + n)`, all other addresses are
unchanged.
-/
namespace Ustl.Bytes
variable {α : Type _}

/-! ### copy -/

/-- **C53** generic `copy` / `copy_n`: writes exactly the destination with exactly the source's contents,
for disjoint ranges and for a destination that starts at or below the source. -/
theorem copy_spec (m : Mem α) (src : Int) (n : Nat) (dest : Int) (hs : Mapped m src n)
    (hd : Mapped m dest n) (ho : dest ≤ src ∨ src + n ≤ dest) :
    movsbUp m src n dest = some (copied m src n dest) := movsbUp_spec n m src dest hs hd ho

/-- **C53** generic `copy_backward (first, last, result)`: the cells of `[first, last)` end up in the
range of the same length that ends at `result`. -/
theorem copy_backward_spec (m : Mem α) (first result : Int) (n : Nat) (hs : Mapped m first n)
    (hd : Mapped m (result - n) n) (ho : first + n ≤ result ∨ result ≤ first) :
    movsbDown m (first + n - 1) n (result - 1) = some (copied m first n (result - n)) := by
  have := movsbDown_spec n m (first + n) result (by rwa [Int.add_sub_cancel]) hd (by omega)
  rwa [Int.add_sub_cancel] at this

/-- **C53** `copy_n_fast` (MMX/SSE build) at every alignment of source and destination and every count:
never faults (in particular the aligned SIMD moves are only used on aligned addresses) and copies
exactly. -/
theorem copy_n_fast_spec (m : Mem α) (src : Int) (n : Nat) (dest : Int) (hs : Mapped m src n)
    (hd : Mapped m dest n) (ho : dest ≤ src ∨ src + n ≤ dest) :
    copyNFast m src n dest = some (copied m src n dest) := by
  unfold copyNFast
  simp only
  have hle : min (padTo src 16) n ≤ n := Nat.min_le_right _ _
  have hal : min (padTo src 16) n < n → (src + (min (padTo src 16) n : Nat)) % 16 = 0 := by
    intro h
    have : min (padTo src 16) n = padTo src 16 := by omega
    rw [this]; exact padTo_aligned src
  generalize min (padTo src 16) n = h at *
  rw [movsbUp_spec h m src dest (hs.mono (by omega) (by omega)) (hd.mono (by omega) (by omega)) (by omega)]
  simp only
  have e0 : copied (copied m src h dest) (src + h) (n - h) (dest + h) = copied m src n dest := by
    rw [copied_copied_up m src dest h (n - h) (by omega), show h + (n - h) = n by omega]
  have hsm : Mapped m src h := hs.mono (by omega) (by omega)
  split
  · rename_i hda
    have h32 : 32 * ((n - h) / 32) + (n - h) % 32 = n - h := Nat.div_add_mod _ _
    generalize hk : (n - h) / 32 = k at *
    generalize hr : (n - h) % 32 = r at *
    have hb : blockCopy (copied m src h dest) (src + h) k (dest + h) =
        some (copied (copied m src h dest) (src + h) (32 * k) (dest + h)) := by
      by_cases hn : h < n
      · exact blockCopy_spec k _ _ _ (hal hn) hda (copied_mapped hsm (hs.mono (by omega) (by omega)))
          (copied_mapped hsm (hd.mono (by omega) (by omega))) (by omega)
      · have : k = 0 := by omega
        subst this
        rw [blockCopy, Nat.mul_zero, copied_zero]
    rw [hb]
    simp only
    have hsm2 : Mapped (copied m src h dest) (src + h) (32 * k) :=
      copied_mapped hsm (hs.mono (by omega) (by omega))
    have e1 : src + h + 32 * (((n - h : Nat) : Int) / 32) = src + h + (32 * k : Nat) := by omega
    have e2 : dest + h + 32 * (((n - h : Nat) : Int) / 32) = dest + h + (32 * k : Nat) := by omega
    rw [e1, e2, movsbUp_spec r _ _ _ (copied_mapped hsm2 (copied_mapped hsm (hs.mono (by omega) (by omega))))
      (copied_mapped hsm2 (copied_mapped hsm (hd.mono (by omega) (by omega)))) (by omega),
      copied_copied_up _ _ _ _ _ (by omega), h32, e0]
  · rw [movsbUp_spec (n - h) _ _ _ (copied_mapped hsm (hs.mono (by omega) (by omega)))
      (copied_mapped hsm (hd.mono (by omega) (by omega))) (by omega), e0]

/-- A small address space for the examples: `n` cells from address `a`, cell `x` holding `x`. -/
def cells (a : Int) (n : Nat) : Mem Int := fun x => if a ≤ x ∧ x < a + n then some x else none

theorem cells_mapped (a : Int) (n : Nat) : Mapped (cells a n) a n := by
  intro x h1 h2; simp [cells, h1, h2]

/-- The hypotheses are met by a misaligned, overlapping move of 100 bytes. -/
example : ∃ m : Mem Int, Mapped m 1003 100 ∧ Mapped m 1001 100 ∧
    copyNFast m 1003 100 1001 = some (copied m 1003 100 1001) ∧ copied m 1003 100 1001 1001 = some 1003 := by
  have h1 : Mapped (cells 1000 200) 1003 100 := (cells_mapped 1000 200).mono (by omega) (by omega)
  have h2 : Mapped (cells 1000 200) 1001 100 := (cells_mapped 1000 200).mono (by omega) (by omega)
  exact ⟨_, h1, h2, copy_n_fast_spec _ _ _ _ h1 h2 (by omega), by simp [copied, cells]⟩

/-- **C53** `copy_n_fast` on builds without MMX (`memmove`), without any overlap restriction. -/
theorem copy_n_memmove_spec (m : Mem α) (src : Int) (n : Nat) (dest : Int) (hs : Mapped m src n)
    (hd : Mapped m dest n) : memmove m src n dest = some (copied m src n dest) :=
  wide_spec m n src dest hs hd

/-- **C53** `copy_backward_fast` on builds other than x86. -/
theorem copy_backward_memmove_spec (m : Mem α) (first last result : Int) (n : Nat) (hn : last = first + n)
    (hs : Mapped m first n) (hd : Mapped m (result - n) n) :
    copyBackwardMove m first last result = some (copied m first n (result - n)) := by
  have : (last - first).toNat = n := by omega
  rw [copyBackwardMove, this]
  exact wide_spec m n _ _ hs hd

/-- **C53 (partial)** `copy_backward_fast` on x86 copies exactly if the range is at least `last % 4` long
and either its first address is a multiple of 4 or source and destination differ modulo 4.
Missing: the other ranges, on which the function is wrong; see
`copy_backward_fast_residue_violated` and `copy_backward_fast_underflow_violated`. -/
theorem copy_backward_fast_partial (m : Mem α) (first last result : Int) (n : Nat) (hn : last = first + n)
    (hsz : n < 2 ^ 64) (hs : Mapped m first n) (hd : Mapped m (result - n) n)
    (ho : last ≤ result ∨ result ≤ first)
    (hhead : last % 4 ≤ n) (hres : first % 4 = 0 ∨ (result - last) % 4 ≠ 0) :
    copyBackwardFast m first last result = some (copied m first n (result - n)) := by
  unfold copyBackwardFast
  have e0 : (last - first).toNat = n := by omega
  simp only [e0]
  have hh : ((last % 4).toNat : Int) = last % 4 := by omega
  generalize (last % 4).toNat = h at *
  have e1 : (n + 2 ^ 64 - h) % 2 ^ 64 = n - h := by omega
  rw [e1]
  have hle : h ≤ n := by omega
  have hsm : Mapped m (last - h) h := hs.mono (by omega) (by omega)
  rw [movsbDown_spec h m last result hsm (hd.mono (by omega) (by omega)) (by omega)]
  simp only
  have eN : copied (copied m (last - h) h (result - h)) first (n - h) (result - n) =
      copied m first n (result - n) := by
    have := copied_copied_down m first (result - n) h (n - h) (by omega)
    rw [show first + ((n - h : Nat) : Int) = last - h by omega,
      show result - n + ((n - h : Nat) : Int) = result - h by omega,
      show h + (n - h) = n by omega] at this
    exact this
  split
  · rename_i hr
    have hm4 : (n - h) % 4 = 0 := by omega
    have h4 : 4 * ((n - h) / 4) = n - h := by omega
    have g1 : last - h - (4 * ((n - h) / 4) : Nat) = first := by rw [h4]; omega
    have g2 : result - h - (4 * ((n - h) / 4) : Nat) = result - n := by rw [h4]; omega
    have hw := movsdDown_spec ((n - h) / 4) (copied m (last - h) h (result - h)) (last - h) (result - h)
      (copied_mapped hsm (by rw [g1, h4]; exact hs.mono (by omega) (by omega)))
      (copied_mapped hsm (by rw [g2, h4]; exact hd.mono (by omega) (by omega)))
      (by rw [h4]; omega)
    rw [show last - 1 - (h : Int) - 3 = last - h - 4 by omega,
      show result - 1 - (h : Int) - 3 = result - h - 4 by omega, hw, hm4]
    simp only [movsbDown]
    rw [g1, g2, h4, eN]
  · have := movsbDown_spec (n - h) (copied m (last - h) h (result - h)) (last - h) (result - h)
      (copied_mapped hsm (hs.mono (by omega) (by omega))) (copied_mapped hsm (hd.mono (by omega) (by omega)))
      (by omega)
    rw [show last - 1 - (h : Int) = last - h - 1 by omega, show result - 1 - (h : Int) = result - h - 1 by omega,
      this, show last - (h : Int) - ((n - h : Nat) : Int) = first by omega,
      show result - (h : Int) - ((n - h : Nat) : Int) = result - n by omega, eN]

/-- The hypotheses are met by shifting 10 bytes up by 3. -/
example : ∃ m : Mem Int, copyBackwardFast m 1001 1011 1014 = some (copied m 1001 10 1004) ∧
    copied m 1001 10 1004 1013 = some 1010 := by
  have h := cells_mapped 1000 20
  exact ⟨_, copy_backward_fast_partial _ 1001 1011 1014 10 (by omega) (by omega)
    (h.mono (by omega) (by omega)) (h.mono (by omega) (by omega)) (by omega) (by omega) (by omega),
    by simp [copied, cells]⟩

/-- **C53 violated** `copy_backward_fast` on x86, shifting the 5 bytes at 1003..1007 up by 4: after the
word loop the pointers are 3 too low for the byte loop, so the byte at 1003 is never copied to 1007, and
1004, outside the destination `[1007, 1012)`, is overwritten. -/
theorem copy_backward_fast_residue_violated :
    ∃ (m m' : Mem Int), Mapped m 1003 5 ∧ Mapped m 1007 5 ∧
      copyBackwardFast m 1003 1008 1012 = some m' ∧
      m' 1007 ≠ m 1003 ∧ m' 1004 ≠ m 1004 := by
  refine ⟨cells 1000 20, _, (cells_mapped 1000 20).mono (by omega) (by omega),
    (cells_mapped 1000 20).mono (by omega) (by omega), rfl, ?_, ?_⟩ <;>
  simp +decide [Mem.upd, cells]

/-- **C53 violated** `copy_backward_fast` on x86, shifting the 2 bytes at 1001..1002 up by one: the head
count `last % 4 = 3` exceeds the range, `nBytes` wraps around to `2^64 - 1` and the copy runs through all
memory below, faulting as soon as an address is unmapped. -/
theorem copy_backward_fast_underflow_violated (m : Mem α) (hx : ∃ a ≤ (999 : Int), 0 ≤ a ∧ m a = none) :
    copyBackwardFast m 1001 1003 1004 = none := by
  obtain ⟨a, ha, ha0, hm⟩ := hx
  have hun : ∀ m' : Mem α, movsbDown m 1002 3 1003 = some m' → m' a = none := by
    intro m' h
    exact movsbDown_unmapped _ _ _ _ _ _ h hm
  unfold copyBackwardFast
  have e1 : ((1003 : Int) % 4).toNat = 3 := by decide
  have e2 : ((1003 : Int) - 1001).toNat = 2 := by decide
  simp only [e1, e2]
  rw [show (1003 : Int) - 1 = 1002 by decide, show (1004 : Int) - 1 = 1003 by decide]
  cases h : movsbDown m 1002 3 1003 with
  | none => rfl
  | some m1 =>
    simp only
    rw [if_neg (by decide)]
    exact movsbDown_none _ _ _ _ (999 - a).toNat (by omega) (by
      rw [show (1002 : Int) - ((3 : Nat) : Int) - ((999 - a).toNat : Int) = a by omega]; exact hun m1 h)

/-! ### fill -/

/-- The specification of every fill: `n` elements with the cells `p`, from `d` on; all other addresses
unchanged. -/
def filled (m : Mem α) (d : Int) (n : Nat) (p : List α) : Mem α :=
  fun x => if d ≤ x ∧ x < d + n * p.length then p[((x - d) % p.length).toNat]? else m x

theorem filled_zero (m : Mem α) (d : Int) (p : List α) : filled m d 0 p = m := by
  funext x; unfold filled; rw [if_neg (by omega)]

theorem filled_mapped {m : Mem α} {d b : Int} {n k : Nat} {p : List α} (hp : 0 < p.length)
    (h : Mapped m b k) : Mapped (filled m d n p) b k := by
  intro y h1 h2
  unfold filled
  split
  · have : ((y - d) % p.length).toNat < p.length := by
      have := Int.emod_lt_of_pos (y - d) (b := p.length) (by omega)
      have := Int.emod_nonneg (y - d) (b := p.length) (by omega)
      omega
    simp [this]
  · exact h y h1 h2

theorem filled_filled (m : Mem α) (d : Int) (a b : Nat) (p : List α) :
    filled (filled m d a p) (d + a * p.length) b p = filled m d (a + b) p := by
  have hab : ((a + b : Nat) : Int) * p.length = a * p.length + b * p.length := by push_cast; exact Int.add_mul ..
  have ha : (0 : Int) ≤ a * p.length := by rw [← Int.natCast_mul]; omega
  have hb : (0 : Int) ≤ b * p.length := by rw [← Int.natCast_mul]; omega
  funext x
  unfold filled
  rw [hab]
  by_cases h1 : d + a * p.length ≤ x ∧ x < d + a * p.length + b * p.length
  · rw [if_pos h1, if_pos (by omega)]
    rw [show x - (d + a * p.length) = x - d + (-(a : Int)) * p.length by rw [Int.neg_mul]; omega,
      Int.add_mul_emod_self_right]
  · rw [if_neg h1]
    by_cases h2 : d ≤ x ∧ x < d + a * p.length
    · rw [if_pos h2, if_pos (by omega)]
    · rw [if_neg h2, if_neg (by omega)]

theorem stosv_spec (p : List α) (hp : 0 < p.length) (n : Nat) : ∀ (m : Mem α) (d : Int),
    Mapped m d (n * p.length) → stosv m d p n = some (filled m d n p) := by
  induction n with
  | zero => intro m d _; rw [stosv, filled_zero]
  | succ n ih =>
    intro m d hd
    have hnl : (n + 1) * p.length = n * p.length + p.length := Nat.succ_mul ..
    have e : (fun x => if d ≤ x ∧ x < d + p.length then p[(x - d).toNat]? else m x) = filled m d 1 p := by
      funext x
      unfold filled
      rw [show ((1 : Nat) : Int) * p.length = p.length by omega]
      by_cases h : d ≤ x ∧ x < d + p.length
      · rw [if_pos h, if_pos h, Int.emod_eq_of_lt (by omega) (by omega)]
      · rw [if_neg h, if_neg h]
    rw [stosv, stN_spec p m d (hd.mono (by omega) (by omega)), e]
    simp only
    rw [ih _ _ (filled_mapped hp (hd.mono (by omega) (by omega)))]
    have := filled_filled m d 1 n p
    rw [show ((1 : Nat) : Int) * p.length = p.length by omega] at this
    rw [this, Nat.add_comm]

/-- **C53** the generic `fill` / `fill_n` (and the non-MMX `fill_nX_fast`): elements of any size. -/
theorem fill_n_spec (m : Mem α) (dest : Int) (count : Nat) (p : List α) (hp : 0 < p.length)
    (hd : Mapped m dest (count * p.length)) :
    stosv m dest p count = some (filled m dest count p) := stosv_spec p hp count m dest hd

theorem block_get (p : List α) (k : Nat) : ∀ i, i < k * p.length →
    ((List.replicate k p).flatten)[i]? = p[i % p.length]? := by
  induction k with
  | zero => intro i h; omega
  | succ k ih =>
    intro i h
    rw [List.replicate_succ, List.flatten_cons]
    by_cases hi : i < p.length
    · rw [List.getElem?_append_left hi, Nat.mod_eq_of_lt hi]
    · rw [List.getElem?_append_right (by omega), ih _ (by rw [Nat.succ_mul] at h; omega),
        Nat.mod_eq_sub_mod (by omega : i ≥ p.length)]

theorem filled_block (m : Mem α) (d : Int) (n : Nat) (p : List α) (hp : p.length = 1 ∨ p.length = 2 ∨ p.length = 4) :
    filled m d n (block p) = filled m d (n * (32 / p.length)) p ∧ (block p).length = 32 := by
  have hl : 32 / p.length * p.length = 32 := by rcases hp with h | h | h <;> rw [h]
  have hb : (block p).length = 32 := by simp [block, hl]
  refine ⟨?_, hb⟩
  funext x
  unfold filled
  rw [hb]
  have e : ((n * (32 / p.length) : Nat) : Int) * p.length = n * (32 : Nat) := by
    rw [← Int.natCast_mul, Nat.mul_assoc, hl, Int.natCast_mul]
  rw [e]
  by_cases h : d ≤ x ∧ x < d + n * (32 : Nat)
  · rw [if_pos h, if_pos h]
    have := block_get p (32 / p.length) ((x - d) % (32 : Nat)).toNat (by rw [hl]; omega)
    rw [block, this]
    congr 1
    rcases hp with h | h | h <;> rw [h] <;> omega
  · rw [if_neg h, if_neg h]

/-- **C53** `fill_n8_fast` (MMX build) at every address and count: exactly the given bytes are written. -/
theorem fill_n8_fast_spec (m : Mem α) (dest : Int) (count : Nat) (v : α) (hd : Mapped m dest count) :
    fillNFast m dest count [v] = some (filled m dest count [v]) := by
  unfold fillNFast
  simp only [List.length_singleton]
  have e0 : (dest + (padTo dest 16 : Nat) - dest / ((1 : Nat) : Int)).toNat = padTo dest 16 := by omega
  rw [e0]
  have hle : min (padTo dest 16) count ≤ count := Nat.min_le_right _ _
  generalize min (padTo dest 16) count = h at *
  rw [stosv_spec [v] (by simp) h m dest (hd.mono (by omega) (by simp; omega))]
  simp only
  have hb := filled_block (filled m dest h [v]) (dest + h * (1 : Nat)) ((count - h) * 1 / 32) [v] (by simp)
  rw [stosv_spec (block [v]) (by omega) _ _ _ (by
    rw [hb.2]; exact filled_mapped (by simp) (hd.mono (by omega) (by omega)))]
  simp only
  rw [stosv_spec [v] (by simp) _ _ _ (filled_mapped (by omega) (filled_mapped (by simp)
    (hd.mono (by omega) (by simp; omega))))]
  rw [hb.1]
  have f1 := filled_filled m dest h ((count - h) * 1 / 32 * (32 / [v].length)) [v]
  simp only [List.length_singleton] at f1 ⊢
  rw [f1]
  have f2 := filled_filled m dest (h + (count - h) * 1 / 32 * (32 / 1)) ((count - h) % 32) [v]
  simp only [List.length_singleton] at f2
  rw [show h + (count - h) * 1 / 32 * (32 / 1) + (count - h) % 32 = count by omega] at f2
  rw [← f2]
  congr 2
  omega

/-- **C53 (partial)** `fill_n16_fast` and `fill_n32_fast` (MMX build) write exactly the given elements
provided the element count does not exceed `Align(dest,16) - dest/sizeof(T)`, i.e. roughly half (three
quarters) of the numerical destination address: then the mis-parenthesised head count covers everything
and the wide loop is never entered. Missing: destinations at numerically small addresses, where the
function writes past the end; see `fill_n32_fast_violated`. -/
theorem fill_n_fast_partial (m : Mem α) (dest : Int) (count : Nat) (p : List α) (hp : 0 < p.length)
    (hc : (count : Int) ≤ dest + padTo dest 16 - dest / p.length)
    (hd : Mapped m dest (count * p.length)) :
    fillNFast m dest count p = some (filled m dest count p) := by
  unfold fillNFast
  simp only
  rw [show min ((dest + padTo dest 16 - dest / p.length).toNat) count = count by omega,
    stosv_spec p hp _ _ _ hd]
  simp [stosv]

/-- The hypotheses are met by filling 100 32-bit words at address 1000. -/
example : ∃ m : Mem Int, fillNFast m 1000 100 [1, 2, 3, 4] = some (filled m 1000 100 [1, 2, 3, 4]) ∧
    filled m 1000 100 [1, 2, 3, 4] 1399 = some 4 ∧ filled m 1000 100 [1, 2, 3, 4] 1400 = m 1400 :=
  ⟨cells 1000 500, fill_n_fast_partial _ _ _ _ (by decide) (by decide)
    ((cells_mapped 1000 500).mono (by omega) (by simp)), by decide, by decide⟩

/-- **C53 violated** filling 20 words at address 16: the head takes 12, the wide loop the remaining 8
words, and then 8 more words are written past the end (the tail count is taken modulo 32 elements, not
modulo the elements per block): address 100, 4 bytes past the destination `[16, 96)`, is overwritten. -/
theorem fill_n32_fast_violated :
    ∃ m m' : Mem Int, Mapped m 16 80 ∧ fillNFast m 16 20 [1, 2, 3, 4] = some m' ∧ m' 100 ≠ m 100 := by
  refine ⟨cells 16 300, filled (filled (filled (cells 16 300) 16 12 [1, 2, 3, 4]) 64 1 (block [1, 2, 3, 4])) 96 8
    [1, 2, 3, 4], (cells_mapped 16 300).mono (by omega) (by omega), ?_, by decide⟩
  have hm := cells_mapped 16 300
  have hb : (block [1, 2, 3, 4] : List Int).length = 32 := by decide
  unfold fillNFast
  simp only
  rw [show min ((16 + (padTo 16 16 : Int) - 16 / (([1, 2, 3, 4] : List Int).length : Int)).toNat) 20 = 12 by decide,
    stosv_spec _ (by decide) _ _ _ (hm.mono (by omega) (by simp))]
  simp only
  rw [show ((20 - 12) * ([1, 2, 3, 4] : List Int).length / 32) = 1 by decide,
    show (16 : Int) + ((12 : Nat) : Int) * (([1, 2, 3, 4] : List Int).length : Int) = 64 by decide,
    stosv_spec (block [1, 2, 3, 4]) (by decide) _ _ _
      (filled_mapped (by decide) (hm.mono (by omega) (by rw [hb]; omega)))]
  simp only
  rw [show (64 : Int) + 32 * ((1 : Nat) : Int) = 96 by decide, show (20 - 12) % 32 = 8 by decide,
    stosv_spec [1, 2, 3, 4] (by decide) _ _ _
      (filled_mapped (by decide) (filled_mapped (by decide) (hm.mono (by omega) (by simp))))]

/-! ### rotate on pointers -/

/-- The specification of `rotate`: what every address of `[first, last)` holds afterwards. -/
def rotated (m : Mem α) (first middle last : Int) : Mem α := fun x =>
  if first ≤ x ∧ x < first + (last - middle) then m (middle + (x - first))
  else if first + (last - middle) ≤ x ∧ x < last then m (first + (x - first - (last - middle)))
  else m x

/-- `cn` is a correct `copy_n_fast`. -/
def CopyCorrect (cn : Mem α → Int → Nat → Int → Option (Mem α)) : Prop :=
  ∀ m s n d, Mapped m s n → Mapped m d n → (d ≤ s ∨ s + (n : Nat) ≤ d) → cn m s n d = some (copied m s n d)

theorem copyNFast_correct : CopyCorrect (copyNFast (α := α)) := fun m s n d h1 h2 h3 =>
  copy_n_fast_spec m s n d h1 h2 h3

theorem memmove_correct : CopyCorrect (memmove (α := α)) := fun m s n d h1 h2 _ => wide_spec m n s d h1 h2

theorem rotateFast_core (cn : Mem α → Int → Nat → Int → Option (Mem α))
    (cb : Mem α → Int → Int → Int → Option (Mem α)) (hcn : CopyCorrect cn)
    (m : Mem α) (first middle last buf : Int) (h12 : first ≤ middle) (h23 : middle ≤ last)
    (hcb : last - middle < middle - first → ∀ m' : Mem α, Mapped m' first (last - first).toNat →
      cb m' first middle last = some (copied m' first (middle - first).toNat (last - (middle - first).toNat)))
    (hm : Mapped m first (last - first).toNat)
    (hb : Mapped m buf (min (middle - first).toNat (last - middle).toNat))
    (hdis : buf + (min (middle - first).toNat (last - middle).toNat : Nat) ≤ first ∨ last ≤ buf) :
    ∃ m', rotateFast cn cb m first middle last buf = some m' ∧
      ∀ x, (x < buf ∨ buf + (min (middle - first).toNat (last - middle).toNat : Nat) ≤ x) →
        m' x = rotated m first middle last x := by
  unfold rotateFast
  simp only
  split
  · rename_i h0
    refine ⟨m, rfl, fun x _ => ?_⟩
    unfold rotated
    by_cases h1 : first ≤ x ∧ x < first + (last - middle)
    · rw [if_pos h1]; congr 1; omega
    · rw [if_neg h1]
      by_cases h2 : first + (last - middle) ≤ x ∧ x < last
      · rw [if_pos h2]; congr 1; omega
      · rw [if_neg h2]
  · rename_i h0
    split
    · rename_i hlt
      rw [hcn m middle _ buf (hm.mono (by omega) (by omega)) (hb.mono (by omega) (by omega)) (by omega)]
      simp only
      have hm1 := copied_mapped (d := buf) (hm.mono (b := middle) (k := (last - middle).toNat) (by omega) (by omega)) hm
      have hb1 := copied_mapped (d := buf) (hm.mono (b := middle) (k := (last - middle).toNat) (by omega) (by omega)) hb
      rw [hcb (by omega) _ hm1]
      simp only
      have hs2 : Mapped (copied m middle (last - middle).toNat buf) first (middle - first).toNat :=
        hm1.mono (by omega) (by omega)
      have hm2 := copied_mapped (d := last - (middle - first).toNat) hs2 hm1
      have hb2 := copied_mapped (d := last - (middle - first).toNat) hs2 hb1
      rw [hcn _ buf _ first (hb2.mono (by omega) (by omega)) (hm2.mono (by omega) (by omega)) (by omega)]
      refine ⟨_, rfl, fun x hx => ?_⟩
      unfold rotated
      by_cases h1 : first ≤ x ∧ x < first + (last - middle)
      · rw [if_pos h1]
        unfold copied
        rw [if_pos (by omega), if_neg (by omega), if_pos (by omega)]
        congr 1; omega
      · rw [if_neg h1]
        by_cases h2 : first + (last - middle) ≤ x ∧ x < last
        · rw [if_pos h2]
          unfold copied
          rw [if_neg (by omega), if_pos (by omega), if_neg (by omega)]
          congr 1; omega
        · rw [if_neg h2]
          unfold copied
          rw [if_neg (by omega), if_neg (by omega), if_neg (by omega)]
    · rename_i hlt
      rw [hcn m first _ buf (hm.mono (by omega) (by omega)) (hb.mono (by omega) (by omega)) (by omega)]
      simp only
      have hs1 : Mapped m first (middle - first).toNat := hm.mono (by omega) (by omega)
      have hm1 := copied_mapped (d := buf) hs1 hm
      have hb1 := copied_mapped (d := buf) hs1 hb
      rw [hcn _ middle _ first (hm1.mono (by omega) (by omega)) (hm1.mono (by omega) (by omega)) (by omega)]
      simp only
      have hs2 : Mapped (copied m first (middle - first).toNat buf) middle (last - middle).toNat :=
        hm1.mono (by omega) (by omega)
      have hm2 := copied_mapped (d := first) hs2 hm1
      have hb2 := copied_mapped (d := first) hs2 hb1
      rw [hcn _ buf _ _ (hb2.mono (by omega) (by omega)) (hm2.mono (by omega) (by omega)) (by omega)]
      refine ⟨_, rfl, fun x hx => ?_⟩
      unfold rotated
      by_cases h1 : first ≤ x ∧ x < first + (last - middle)
      · rw [if_pos h1]
        unfold copied
        rw [if_neg (by omega), if_pos (by omega), if_neg (by omega)]
      · rw [if_neg h1]
        by_cases h2 : first + (last - middle) ≤ x ∧ x < last
        · rw [if_pos h2]
          unfold copied
          rw [if_pos (by omega), if_neg (by omega), if_pos (by omega)]
          congr 1; omega
        · rw [if_neg h2]
          unfold copied
          rw [if_neg (by omega), if_neg (by omega), if_neg (by omega)]

/-- **C06** `rotate` on pointers through the scratch buffer, on every build whose `copy_backward_fast` is
`memmove` (`cn` is either build's `copy_n_fast`): the halves are exchanged and nothing outside the range
(other than the scratch buffer) changes. -/
theorem rotate_fast_spec (cn : Mem α → Int → Nat → Int → Option (Mem α)) (hcn : CopyCorrect cn)
    (m : Mem α) (first middle last buf : Int) (h12 : first ≤ middle) (h23 : middle ≤ last)
    (hm : Mapped m first (last - first).toNat)
    (hb : Mapped m buf (min (middle - first).toNat (last - middle).toNat))
    (hdis : buf + (min (middle - first).toNat (last - middle).toNat : Nat) ≤ first ∨ last ≤ buf) :
    ∃ m', rotateFast cn copyBackwardMove m first middle last buf = some m' ∧
      ∀ x, (x < buf ∨ buf + (min (middle - first).toNat (last - middle).toNat : Nat) ≤ x) →
        m' x = rotated m first middle last x :=
  rotateFast_core cn _ hcn m first middle last buf h12 h23
    (fun _ m' hm' => copy_backward_memmove_spec m' first middle last _ (by omega)
      (hm'.mono (by omega) (by omega)) (hm'.mono (by omega) (by omega))) hm hb hdis

/-- **C06 (partial)** `rotate` on pointers through the scratch buffer on x86: correct if the first half is
no longer than the second, or if it is longer and `middle % 4` does not exceed it and either `first` is a
multiple of 4 or the second half's byte length is not. Missing: the remaining byte-aligned ranges, on
which it corrupts the data; see `rotate_fast_x86_violated`. -/
theorem rotate_fast_x86_partial (m : Mem α) (first middle last buf : Int) (h12 : first ≤ middle)
    (h23 : middle ≤ last) (hsz : middle - first < 2 ^ 64)
    (hok : middle - first ≤ last - middle ∨
      (middle % 4 ≤ middle - first ∧ (first % 4 = 0 ∨ (last - middle) % 4 ≠ 0)))
    (hm : Mapped m first (last - first).toNat)
    (hb : Mapped m buf (min (middle - first).toNat (last - middle).toNat))
    (hdis : buf + (min (middle - first).toNat (last - middle).toNat : Nat) ≤ first ∨ last ≤ buf) :
    ∃ m', rotateFast copyNFast copyBackwardFast m first middle last buf = some m' ∧
      ∀ x, (x < buf ∨ buf + (min (middle - first).toNat (last - middle).toNat : Nat) ≤ x) →
        m' x = rotated m first middle last x :=
  rotateFast_core _ _ copyNFast_correct m first middle last buf h12 h23
    (fun hlt m' hm' => copy_backward_fast_partial m' first middle last _ (by omega) (by omega)
      (hm'.mono (by omega) (by omega)) (hm'.mono (by omega) (by omega)) (by omega) (by omega) (by omega))
    hm hb hdis

/-- The hypotheses are met by rotating 10 bytes by 3 at an odd address. -/
example : ∃ m' : Mem Int, rotateFast copyNFast copyBackwardFast (cells 1000 100) 1001 1008 1011 1050 = some m' ∧
    m' 1001 = some 1008 ∧ m' 1010 = some 1007 ∧ m' 1011 = some 1011 := by
  obtain ⟨m', h, hx⟩ := rotate_fast_x86_partial (cells 1000 100) 1001 1008 1011 1050 (by decide) (by decide)
    (by decide) (by decide) ((cells_mapped 1000 100).mono (by decide) (by decide))
    ((cells_mapped 1000 100).mono (by decide) (by decide)) (by decide)
  exact ⟨m', h, by rw [hx _ (by decide)]; decide, by rw [hx _ (by decide)]; decide,
    by rw [hx _ (by decide)]; decide⟩

/-- **C06 violated** on x86, rotating the 9 bytes at 1003 by 4 (this is what inserting 4 bytes at an
offset that is 3 modulo 4 does) puts a wrong byte at 1007, where the old first byte belongs. -/
theorem rotate_fast_x86_violated :
    ∃ m m' : Mem Int, Mapped m 1003 9 ∧ Mapped m 1050 4 ∧
      rotateFast copyNFast copyBackwardFast m 1003 1008 1012 1050 = some m' ∧
      rotated m 1003 1008 1012 1007 = some 1003 ∧ m' 1007 ≠ some 1003 := by
  have hm := cells_mapped 1000 100
  have h : (rotateFast copyNFast copyBackwardFast (cells 1000 100) 1003 1008 1012 1050).map (fun m' => m' 1007)
      = some (some 1007) := rfl
  rw [Option.map_eq_some_iff] at h
  obtain ⟨m', h1, h2⟩ := h
  exact ⟨_, m', hm.mono (by decide) (by decide), hm.mono (by decide) (by decide), h1, by decide,
    by rw [h2]; decide⟩

end Ustl.Bytes
