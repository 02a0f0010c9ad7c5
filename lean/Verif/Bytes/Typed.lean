import Verif.Bytes.Props
/-!
# The overloads of copy, copy_backward, fill for pointers (C95)

Which version a call with pointers to elements of a type is given, what it does to the bytes, and what it returns. x86-64 build with MMX and
`WANT_UNROLLED_COPY`; `char`, `int8_t` and `uint8_t` are three types. The value of a fill has the type of the elements.
-/
namespace Ustl.Bytes
variable {α : Type _}

/-- What the pointers point to. `void` counts in bytes. -/
inductive PTy where
  | void | char | i8 | u8 | i16 | u16 | i32 | u32 | float
  /-- any other type of that size -/
  | other (size : Nat)
deriving DecidableEq

/-- The size of an element. -/
def PTy.size : PTy → Nat
  | .void | .char | .i8 | .u8 => 1
  | .i16 | .u16 => 2
  | .i32 | .u32 | .float => 4
  | .other n => n

/-- The loop of the generic `copy` and `copy_n`, `n` elements of `sz` bytes: the memory and the returned `result`. Models ualgobase.h:77-83, 94-100. -/
def copyLoop (sz : Nat) (m : Mem α) (first : Int) : Nat → Int → Option (Mem α × Int)
  | 0, result => some (m, result)
  | n + 1, result =>
    match wide m sz first result with
    | none => none
    | some m' => copyLoop sz m' (first + sz) n (result + sz)

/-- `unrolled_copy`. Models ualgobase.h:192-197. -/
def unrolledCopy (sz : Nat) (m : Mem α) (first : Int) (count : Nat) (result : Int) : Option (Mem α × Int) :=
  (copyNFast m first (count * sz) result).map fun m' => (m', result + count * sz)

/-- `copy_n` with pointers to const: `UNROLLED_COPY_SPECIALIZATION`, otherwise the template. Models ualgobase.h:222-227, 233-239. -/
def copyConst (t : PTy) (m : Mem α) (first : Int) (count : Nat) (result : Int) : Option (Mem α × Int) :=
  match t with
  | .u8 | .u16 | .u32 | .float => unrolledCopy t.size m first count result
  | _ => copyLoop t.size m first count result

/-- The type `COPY_ALIAS_FUNC` and `COPY_N_ALIAS_FUNC` hand the call on with, if there is one for the type. Models ualgobase.h:257-274, 313-329. -/
def copyAlias (const : Bool) : PTy → Option PTy
  | .void | .char | .i8 => some .u8
  | .u8 => if const then none else some .u8
  | .i16 => some .u16
  | .u16 => if const then none else some .u16
  | .i32 => some .u32
  | .u32 => if const then none else some .u32
  | _ => none

/-- `copy_n (first, count, result)`. Models ualgobase.h:94-100, 226-227, 310-329. -/
def copyN (const : Bool) (t : PTy) (m : Mem α) (first : Int) (count : Nat) (result : Int) : Option (Mem α × Int) :=
  match copyAlias const t with
  | some a => copyConst a m first count result
  | none => if const then copyConst t m first count result else copyLoop t.size m first count result

/-- `last - first` in elements. -/
def dist (sz : Nat) (first last : Int) : Nat := ((last - first) / sz).toNat

/-- `copy (first, last, result)`. The alias versions count in elements of the alias. Models ualgobase.h:77-83, 223-225, 253-274. -/
def copyR (const : Bool) (t : PTy) (m : Mem α) (first last result : Int) : Option (Mem α × Int) :=
  match copyAlias const t with
  | some a => copyConst a m first (dist a.size first last) result
  | none => if const then copyConst t m first (dist t.size first last) result else copyLoop t.size m first (dist t.size first last) result

/-- The loop of the generic `copy_backward`. Models ualgobase.h:106-112. -/
def backLoop (sz : Nat) (m : Mem α) (last : Int) : Nat → Int → Option (Mem α × Int)
  | 0, result => some (m, result)
  | n + 1, result =>
    match wide m sz (last - sz) (result - sz) with
    | none => none
    | some m' => backLoop sz m' (last - sz) n (result - sz)

/-- Whether a call of `copy_backward` ends in the version for bytes. Models ualgobase.h:199-204, 279-291. -/
def backFast (const : Bool) : PTy → Bool
  | .void | .i16 | .u16 | .u8 => true
  | .char | .i8 => !const
  | _ => false

/-- `copy_backward (first, last, result)`: the version for bytes returns `result` as it was given. Models ualgobase.h:106-112, 199-204, 276-291. -/
def copyBack (const : Bool) (t : PTy) (m : Mem α) (first last result : Int) : Option (Mem α × Int) :=
  if backFast const t then (copyBackwardFast m first last result).map fun m' => (m', result)
  else backLoop t.size m last (dist t.size first last) result

/-- Whether `fill` and `fill_n` end in one of the fast versions. Models ualgobase.h:206-220, 228-240, 293-306, 333-346. -/
def fillFast : PTy → Bool
  | .other _ => false
  | _ => true

/-- `fill_n (first, count, value)`, `p` being the bytes of the value: the memory and what is returned.
Models ualgobase.h:144-150, 206-220, 230-232, 333-346. -/
def fillN (t : PTy) (m : Mem α) (first : Int) (count : Nat) (p : List α) : Option (Mem α × Int) :=
  (if fillFast t then fillNFast m first count p else stosv m first p count).map fun m' => (m', first + count * t.size)

/-- `fill (first, last, value)`. Models ualgobase.h:132-137, 228-229, 293-306. -/
def fillR (t : PTy) (m : Mem α) (first last : Int) (p : List α) : Option (Mem α) :=
  if fillFast t then fillNFast m first (dist t.size first last) p else stosv m first p (dist t.size first last)

/-! ### Lemmas -/

theorem copyLoop_spec (sz : Nat) : ∀ (n : Nat) (m : Mem α) (s d : Int), Mapped m s (n * sz) → Mapped m d (n * sz) → (d ≤ s ∨ s + (n * sz : Nat) ≤ d) →
    copyLoop sz m s n d = some (copied m s (n * sz) d, d + (n * sz : Nat))
  | 0, m, s, d, _, _, _ => by rw [copyLoop, Nat.zero_mul, copied_zero]; simp
  | n + 1, m, s, d, hs, hd, ho => by
    have e : (n + 1) * sz = sz + n * sz := by rw [Nat.add_mul, Nat.one_mul, Nat.add_comm]
    rw [e] at hs hd ho ⊢
    have hs1 : Mapped m s sz := hs.mono (by omega) (by omega)
    rw [copyLoop, wide_spec m sz s d hs1 (hd.mono (by omega) (by omega))]
    simp only []
    rw [copyLoop_spec sz n _ (s + sz) (d + sz) (copied_mapped hs1 (hs.mono (by omega) (by omega))) (copied_mapped hs1 (hd.mono (by omega) (by omega))) (by omega),
      copied_copied_up m s d sz (n * sz) ho]
    congr 2
    omega

theorem copyConst_spec (t : PTy) (n : Nat) (m : Mem α) (s d : Int) (hs : Mapped m s (n * t.size)) (hd : Mapped m d (n * t.size))
    (ho : d ≤ s ∨ s + (n * t.size : Nat) ≤ d) : copyConst t m s n d = some (copied m s (n * t.size) d, d + (n * t.size : Nat)) := by
  have hu : unrolledCopy t.size m s n d = some (copied m s (n * t.size) d, d + (n * t.size : Nat)) := by
    rw [unrolledCopy, copy_n_fast_spec m s _ d hs hd ho]
    simp
  unfold copyConst
  split <;> first | exact hu | exact copyLoop_spec _ n m s d hs hd ho

theorem alias_size {c : Bool} {t a : PTy} (h : copyAlias c t = some a) : a.size = t.size := by
  cases t <;> cases c <;> simp [copyAlias] at h <;> subst h <;> rfl

theorem dist_eq {sz : Nat} (h : 0 < sz) (first : Int) (n : Nat) : dist sz first (first + (n * sz : Nat)) = n := by
  unfold dist
  have : first + (n * sz : Nat) - first = (n : Int) * sz := by push_cast; omega
  rw [this, Int.mul_ediv_cancel _ (by omega)]
  simp

/-! ### The property -/

/-- **C95**: `copy_n`, whatever the pointers point to and const or not, leaves in the `count` elements from `result` what was in those from `first`,
changes nothing else and returns the end of what it wrote. The destination does not begin inside the source. -/
theorem copy_n_ptr (const : Bool) (t : PTy) (n : Nat) (m : Mem α) (first result : Int) (hs : Mapped m first (n * t.size)) (hd : Mapped m result (n * t.size))
    (ho : result ≤ first ∨ first + (n * t.size : Nat) ≤ result) :
    copyN const t m first n result = some (copied m first (n * t.size) result, result + (n * t.size : Nat)) := by
  unfold copyN
  cases h : copyAlias const t with
  | some a =>
    rw [← alias_size h] at hs hd ho ⊢
    exact copyConst_spec a n m first result hs hd ho
  | none =>
    simp only []
    split
    · exact copyConst_spec t n m first result hs hd ho
    · exact copyLoop_spec _ n m first result hs hd ho

example : copyN false .i16 (cells 0 100) 10 20 0 = some (copied (cells 0 100) 10 40 0, 40) :=
  copy_n_ptr false .i16 20 (cells 0 100) 10 0 ((cells_mapped 0 100).mono (by decide) (by decide)) ((cells_mapped 0 100).mono (by decide) (by decide)) (Or.inl (by decide))

/-- **C95**: `copy (first, last, result)` does the same for the elements of the range. -/
theorem copy_ptr (const : Bool) (t : PTy) (h0 : 0 < t.size) (n : Nat) (m : Mem α) (first last result : Int) (hl : last = first + (n * t.size : Nat))
    (hs : Mapped m first (n * t.size)) (hd : Mapped m result (n * t.size)) (ho : result ≤ first ∨ last ≤ result) :
    copyR const t m first last result = some (copied m first (n * t.size) result, result + (n * t.size : Nat)) := by
  subst hl
  unfold copyR
  cases h : copyAlias const t with
  | some a =>
    rw [← alias_size h] at hs hd ho h0 ⊢
    simp only []
    rw [dist_eq h0]
    exact copyConst_spec a n m first result hs hd ho
  | none =>
    simp only []
    rw [dist_eq h0]
    split
    · exact copyConst_spec t n m first result hs hd ho
    · exact copyLoop_spec _ n m first result hs hd ho

example : copyR true .float (cells 0 100) 8 28 40 = some (copied (cells 0 100) 8 20 40, 60) :=
  copy_ptr true .float (by decide) 5 (cells 0 100) 8 28 40 (by decide) ((cells_mapped 0 100).mono (by decide) (by decide)) ((cells_mapped 0 100).mono (by decide) (by decide)) (Or.inr (by decide))

theorem backLoop_spec (sz : Nat) : ∀ (n : Nat) (m : Mem α) (s d : Int), Mapped m s (n * sz) → Mapped m d (n * sz) → (s ≤ d ∨ d + (n * sz : Nat) ≤ s) →
    backLoop sz m (s + (n * sz : Nat)) n (d + (n * sz : Nat)) = some (copied m s (n * sz) d, d)
  | 0, m, s, d, _, _, _ => by rw [backLoop, Nat.zero_mul, copied_zero]; simp
  | n + 1, m, s, d, hs, hd, ho => by
    have e : (n + 1) * sz = sz + n * sz := by rw [Nat.add_mul, Nat.one_mul, Nat.add_comm]
    rw [e] at hs hd ho ⊢
    have e1 : s + ((sz + n * sz : Nat) : Int) - sz = s + (n * sz : Nat) := by push_cast; omega
    have e2 : d + ((sz + n * sz : Nat) : Int) - sz = d + (n * sz : Nat) := by push_cast; omega
    have hs1 : Mapped m (s + (n * sz : Nat)) sz := hs.mono (by omega) (by push_cast; omega)
    rw [backLoop, e1, e2, wide_spec m sz _ _ hs1 (hd.mono (by omega) (by push_cast; omega))]
    simp only []
    rw [backLoop_spec sz n _ s d (copied_mapped hs1 (hs.mono (by omega) (by push_cast; omega))) (copied_mapped hs1 (hd.mono (by omega) (by push_cast; omega)))
      (by push_cast at ho; omega), copied_copied_down m s d sz (n * sz) ho]

/-- **C95**: `copy_backward (first, last, result)` for 32-bit and larger types, and for const char and const int8_t: the elements end up in the range of the same
length that ends at `result`, nothing else changes, and the beginning of that range is returned. Missing: the other types, which are copied by
`copy_backward_fast` (C53) and get a wrong return value (`copy_backward_ptr_violated`). -/
theorem copy_backward_ptr_partial (const : Bool) (t : PTy)
    (ht : t = .i32 ∨ t = .u32 ∨ t = .float ∨ (∃ k, t = .other k) ∨ (const = true ∧ (t = .char ∨ t = .i8))) (h0 : 0 < t.size) (n : Nat) (m : Mem α) (first last result : Int)
    (hl : last = first + (n * t.size : Nat)) (hs : Mapped m first (n * t.size)) (hd : Mapped m (result - (n * t.size : Nat)) (n * t.size))
    (ho : last ≤ result ∨ result ≤ first) :
    copyBack const t m first last result = some (copied m first (n * t.size) (result - (n * t.size : Nat)), result - (n * t.size : Nat)) := by
  subst hl
  have hf : backFast const t = false := by
    rcases ht with rfl | rfl | rfl | ⟨k, rfl⟩ | ⟨rfl, rfl | rfl⟩ <;> rfl
  unfold copyBack
  rw [hf, if_neg (by decide), dist_eq h0]
  have := backLoop_spec t.size n m first (result - (n * t.size : Nat)) hs hd (by omega)
  rwa [Int.sub_add_cancel] at this

example : copyBack false .u32 (cells 0 100) 8 28 80 = some (copied (cells 0 100) 8 20 60, 60) :=
  copy_backward_ptr_partial false .u32 (Or.inr (Or.inl rfl)) (by decide) 5 (cells 0 100) 8 28 80 (by decide) ((cells_mapped 0 100).mono (by decide) (by decide)) ((cells_mapped 0 100).mono (by decide) (by decide)) (Or.inl (by decide))

/-- **C95** is false of `copy_backward` with pointers to bytes or 16-bit elements: what it returns is `result` itself, not the beginning of what it wrote,
and for `char` and `int8_t` the answer depends on whether the pointers are to const. -/
theorem copy_backward_ptr_violated (const : Bool) (t : PTy)
    (ht : t = .void ∨ t = .u8 ∨ t = .i16 ∨ t = .u16 ∨ (const = false ∧ (t = .char ∨ t = .i8))) (m m' : Mem α) (first last result r : Int)
    (h : copyBack const t m first last result = some (m', r)) : r = result ∧ (first < last → r ≠ result - (last - first)) := by
  have hf : backFast const t = true := by
    rcases ht with rfl | rfl | rfl | rfl | ⟨rfl, rfl | rfl⟩ <;> rfl
  unfold copyBack at h
  rw [hf, if_pos rfl] at h
  cases hb : copyBackwardFast m first last result with
  | none => rw [hb] at h; cases h
  | some m1 =>
    rw [hb] at h
    injection h with h
    injection h with _ h
    exact ⟨h.symm, by omega⟩

example : ∃ m', copyBack true .u8 (cells 1000 20) 1000 1008 1016 = some (m', 1016) := by
  have := copy_backward_fast_partial (cells 1000 20) 1000 1008 1016 8 (by decide) (by decide) ((cells_mapped 1000 20).mono (by decide) (by decide))
    ((cells_mapped 1000 20).mono (by decide) (by decide)) (Or.inl (by decide)) (by decide) (Or.inl (by decide))
  exact ⟨_, by rw [copyBack, if_pos (show backFast true .u8 = true from rfl), this]; rfl⟩

/-- **C95**: `fill_n` of bytes, and of elements of other sizes as far as `fill_n_fast` is right (C53: up to a count that depends on the address), gives every
element the bytes of the value, changes nothing else and returns the end. -/
theorem fill_n_ptr_partial (t : PTy) (m : Mem α) (first : Int) (n : Nat) (p : List α) (hp : p.length = t.size) (h0 : 0 < t.size)
    (hc : t.size = 1 ∨ (∃ k, t = .other k) ∨ (n : Int) ≤ first + padTo first 16 - first / t.size) (hd : Mapped m first (n * t.size)) :
    fillN t m first n p = some (filled m first n p, first + (n * t.size : Nat)) ∧ fillR t m first (first + (n * t.size : Nat)) p = some (filled m first n p) := by
  have key : (if fillFast t then fillNFast m first n p else stosv m first p n) = some (filled m first n p) := by
    split
    · rename_i hf
      rcases hc with hc | hc | hc
      · obtain ⟨v, rfl⟩ : ∃ v, p = [v] := by
          rw [hc] at hp
          match p, hp with
          | [v], _ => exact ⟨v, rfl⟩
        rw [hc, Nat.mul_one] at hd
        exact fill_n8_fast_spec m first n v hd
      · obtain ⟨k, rfl⟩ := hc; cases hf
      · exact fill_n_fast_partial m first n p (by omega) (by rw [hp]; exact hc) (by rw [hp]; exact hd)
    · exact fill_n_spec m first n p (by omega) (by rw [hp]; exact hd)
  constructor
  · unfold fillN
    rw [key]
    simp
  · unfold fillR
    rw [dist_eq h0]
    exact key

example : fillN .char (cells 0 100) 3 50 [7] = some (filled (cells 0 100) 3 50 [7], 53) :=
  (fill_n_ptr_partial .char (cells 0 100) 3 50 [7] rfl (by decide) (Or.inl rfl) ((cells_mapped 0 100).mono (by decide) (by decide))).1

end Ustl.Bytes
