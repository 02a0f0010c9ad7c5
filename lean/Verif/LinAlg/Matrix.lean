import Verif.LinAlg.Props
import Mathlib.Data.Matrix.Mul
import Mathlib.Data.Matrix.Diagonal
import Mathlib.Algebra.BigOperators.Fin
/-!
# Matrices (C51)

The specification is Mathlib's: `Matrix`, its product, `Matrix.vecMul`, `Matrix.transpose`.
-/
namespace Ustl.LinAlg
variable {α : Type _}

/-- The object with the elements `l` holds the matrix `A` of `ny` rows and `nx` columns. -/
def Holds {nx ny : Nat} (l : List α) (A : Matrix (Fin ny) (Fin nx) α) : Prop :=
  l.length = nx * ny ∧ ∀ (r : Fin ny) (c : Fin nx), l[r.val * nx + c.val]? = some (A r c)

/-- The object with the elements `l` holds the vector `v`. -/
def HoldsV {n : Nat} (l : List α) (v : Fin n → α) : Prop := l.length = n ∧ ∀ i : Fin n, l[i.val]? = some (v i)

theorem idx_lt {nx ny r c : Nat} (hr : r < ny) (hc : c < nx) : r * nx + c < nx * ny := by
  calc r * nx + c < r * nx + nx := by omega
    _ = (r + 1) * nx := by rw [Nat.add_mul, Nat.one_mul]
    _ ≤ ny * nx := Nat.mul_le_mul_right _ hr
    _ = nx * ny := Nat.mul_comm _ _

theorem idx_inj {nx r c r' c' : Nat} (hc : c < nx) (hc' : c' < nx) (h : r * nx + c = r' * nx + c') : r = r' ∧ c = c' := by
  have h1 : (r * nx + c) / nx = r := by
    rw [Nat.mul_comm, Nat.mul_add_div (by omega), Nat.div_eq_of_lt hc, Nat.add_zero]
  have h2 : (r' * nx + c') / nx = r' := by
    rw [Nat.mul_comm, Nat.mul_add_div (by omega), Nat.div_eq_of_lt hc', Nat.add_zero]
  have : r = r' := by rw [← h1, h, h2]
  subst this
  exact ⟨rfl, by omega⟩

theorem Holds.at_ {nx ny : Nat} {l : List α} {A : Matrix (Fin ny) (Fin nx) α} (h : Holds l A) {r c : Nat} (hr : r < ny) (hc : c < nx) :
    LinAlg.at_ nx l r c = some (A ⟨r, hr⟩ ⟨c, hc⟩) := h.2 ⟨r, hr⟩ ⟨c, hc⟩

/-- A matrix is what its elements are. -/
theorem Holds.ext {nx ny : Nat} {l l' : List α} {A : Matrix (Fin ny) (Fin nx) α} (h : Holds l A) (h' : Holds l' A) : l = l' := by
  apply List.ext_getElem?
  intro k
  by_cases hk : k < nx * ny
  · have hnx : 0 < nx := by
      rcases Nat.eq_zero_or_pos nx with h0 | h0
      · rw [h0, Nat.zero_mul] at hk; omega
      · exact h0
    have hm : k % nx < nx := Nat.mod_lt _ hnx
    have hd : k / nx < ny := by rw [Nat.div_lt_iff_lt_mul hnx, Nat.mul_comm]; exact hk
    have e : k / nx * nx + k % nx = k := by rw [Nat.mul_comm]; exact Nat.div_add_mod _ _
    have h1 := h.2 ⟨k / nx, hd⟩ ⟨k % nx, hm⟩
    have h2 := h'.2 ⟨k / nx, hd⟩ ⟨k % nx, hm⟩
    simp only [e] at h1 h2
    rw [h1, h2]
  · rw [List.getElem?_eq_none (by rw [h.1]; omega), List.getElem?_eq_none (by rw [h'.1]; omega)]

/-! ## Products -/

theorem sum_step {n k : Nat} [AddCommMonoid α] (f : Nat → α) (h : k < n) :
    (∑ x : Fin n, if x.val < k + 1 then f x else 0) = (∑ x : Fin n, if x.val < k then f x else 0) + f k := by
  have : ∀ x : Fin n, (if x.val < k + 1 then f x else 0) = (if x.val < k then f x else 0) + (if x = ⟨k, h⟩ then f k else 0) := by
    intro x
    by_cases h1 : x.val < k
    · rw [if_pos (by omega), if_pos h1, if_neg (by intro e; rw [e] at h1; simp at h1), add_zero]
    · by_cases h2 : x.val = k
      · rw [if_pos (by omega), if_neg h1, if_pos (Fin.ext h2), zero_add, h2]
      · rw [if_neg (by omega), if_neg h1, if_neg (by intro e; exact h2 (by rw [e])), zero_add]
  rw [Finset.sum_congr rfl (fun x _ => this x), Finset.sum_add_distrib]
  simp

theorem dot_spec [NonUnitalNonAssocSemiring α] {nx ny : Nat} {m1 m2 : List α} {A : Matrix (Fin ny) (Fin nx) α} {B : Matrix (Fin nx) (Fin ny) α}
    (h1 : Holds m1 A) (h2 : Holds m2 B) {r c : Nat} (hr : r < ny) (hc : c < ny) : dot nx ny m1 m2 r c = some ((A * B) ⟨r, hr⟩ ⟨c, hc⟩) := by
  obtain ⟨s, e, hs⟩ := loop_rule (f := fun x dpv => do
      let a ← LinAlg.at_ nx m1 r x
      let b ← LinAlg.at_ ny m2 x c
      some (dpv + a * b)) (fun k s => s = ∑ x : Fin nx, if x.val < k then A ⟨r, hr⟩ x * B x ⟨c, hc⟩ else 0) nx 0 (by simp) (by
    rintro k s hk rfl
    rw [h1.at_ hr hk, h2.at_ hk hc]
    refine ⟨_, rfl, ?_⟩
    have := sum_step (n := nx) (k := k) (fun x => if hx : x < nx then A ⟨r, hr⟩ ⟨x, hx⟩ * B ⟨x, hx⟩ ⟨c, hc⟩ else 0) hk
    simp only [Fin.is_lt, dif_pos, Fin.eta] at this
    rw [this, dif_pos hk])
  rw [dot]
  refine Eq.trans e ?_
  rw [hs, Matrix.mul_apply]
  simp

/-- **C51**: `m1 * m2` is the product of the matrices, for all dimensions and over every semiring, whatever the memory of the
result held; nothing outside the matrices is read or written. -/
theorem mul_spec [NonUnitalNonAssocSemiring α] {nx ny : Nat} {m1 m2 mr : List α} {A : Matrix (Fin ny) (Fin nx) α} {B : Matrix (Fin nx) (Fin ny) α}
    (h1 : Holds m1 A) (h2 : Holds m2 B) (hr : mr.length = ny * ny) : ∃ r, mul nx ny m1 m2 mr = some r ∧ Holds r (A * B) := by
  rw [mul, tupleNew_spec]
  simp only [Option.bind_eq_bind, Option.bind_some]
  obtain ⟨s, e, hl, hs⟩ := loop_rule (f := fun ry mr => loop ny (fun rx mr => (dot nx ny m1 m2 ry rx).bind (fun dpv => put ny mr ry rx dpv)) mr)
    (fun k s => s.length = ny * ny ∧ ∀ (r c : Fin ny), r.val < k → s[r.val * ny + c.val]? = some ((A * B) r c)) ny (List.replicate mr.length 0)
    ⟨by simp [hr], fun r c h => by omega⟩ (by
      intro k s hk ⟨hl, hs⟩
      obtain ⟨s', e', hl', hs'⟩ := loop_rule (f := fun rx mr => (dot nx ny m1 m2 k rx).bind (fun dpv => put ny mr k rx dpv))
        (fun q s => s.length = ny * ny ∧ ∀ (r c : Fin ny), r.val < k ∨ r.val = k ∧ c.val < q → s[r.val * ny + c.val]? = some ((A * B) r c)) ny s
        ⟨hl, fun r c h => hs r c (by omega)⟩ (by
          intro q s hq ⟨hl, hs⟩
          have hlt : k * ny + q < s.length := by rw [hl]; exact idx_lt hk hq
          refine ⟨s.set (k * ny + q) ((A * B) ⟨k, hk⟩ ⟨q, hq⟩), ?_, by rw [List.length_set, hl], ?_⟩
          · rw [dot_spec h1 h2 hk hq, Option.bind_some, put, wr_lt hlt]
          · intro r c h
            rw [List.getElem?_set]
            by_cases he : k * ny + q = r.val * ny + c.val
            · obtain ⟨e1, e2⟩ := idx_inj hq c.isLt he
              rw [if_pos he, if_pos (he ▸ hlt)]
              subst e1; subst e2; rfl
            · rw [if_neg he]
              apply hs
              rcases h with h | ⟨h, h'⟩
              · exact .inl h
              · refine .inr ⟨h, ?_⟩
                have : c.val ≠ q := by intro e; apply he; rw [h, e]
                omega)
      exact ⟨s', e', hl', fun r c h => hs' r c (by have := c.isLt; omega)⟩)
  exact ⟨s, e, hl, fun r c => hs r c r.isLt⟩

theorem dotT_spec [NonUnitalNonAssocSemiring α] {nx ny : Nat} {t m : List α} {v : Fin ny → α} {A : Matrix (Fin ny) (Fin nx) α}
    (ht : HoldsV t v) (hm : Holds m A) {x : Nat} (hx : x < nx) : dotT nx ny t m x = some (Matrix.vecMul v A ⟨x, hx⟩) := by
  obtain ⟨s, e, hs⟩ := loop_rule (f := fun y dpv => do
      let a ← rd t y
      let b ← LinAlg.at_ nx m y x
      some (dpv + a * b)) (fun k s => s = ∑ y : Fin ny, if y.val < k then v y * A y ⟨x, hx⟩ else 0) ny 0 (by simp) (by
    rintro k s hk rfl
    have ek : rd t k = some (v ⟨k, hk⟩) := ht.2 ⟨k, hk⟩
    rw [ek, hm.at_ hk hx]
    refine ⟨_, rfl, ?_⟩
    have := sum_step (n := ny) (k := k) (fun y => if hy : y < ny then v ⟨y, hy⟩ * A ⟨y, hy⟩ ⟨x, hx⟩ else 0) hk
    simp only [Fin.is_lt, dif_pos, Fin.eta] at this
    rw [this, dif_pos hk])
  rw [dotT]
  refine Eq.trans e ?_
  rw [hs]
  simp [Matrix.vecMul, dotProduct]

/-- **C51**: `t * m` is the product of the row vector and the matrix. -/
theorem transform_spec [NonUnitalNonAssocSemiring α] {nx ny : Nat} {t m tr : List α} {v : Fin ny → α} {A : Matrix (Fin ny) (Fin nx) α}
    (ht : HoldsV t v) (hm : Holds m A) (hr : tr.length = nx) : ∃ r, transform nx ny t m tr = some r ∧ HoldsV r (Matrix.vecMul v A) := by
  rw [transform, tupleNew_spec]
  simp only [Option.bind_eq_bind, Option.bind_some]
  obtain ⟨s, e, hl, hs⟩ := loop_rule (f := fun x tr => (dotT nx ny t m x).bind (fun dpv => wr tr x dpv))
    (fun k s => s.length = nx ∧ ∀ i : Fin nx, i.val < k → s[i.val]? = some (Matrix.vecMul v A i)) nx (List.replicate tr.length 0)
    ⟨by simp [hr], fun i h => by omega⟩ (by
      intro k s hk ⟨hl, hs⟩
      refine ⟨s.set k (Matrix.vecMul v A ⟨k, hk⟩), ?_, by rw [List.length_set, hl], ?_⟩
      · rw [dotT_spec ht hm hk, Option.bind_some, wr_lt (by omega)]
      · intro i h
        rw [List.getElem?_set]
        by_cases he : k = i.val
        · subst he
          rw [if_pos rfl, if_pos (by omega)]
        · rw [if_neg he]
          exact hs i (by omega))
  exact ⟨s, e, hl, fun i => hs i i.isLt⟩

/-! ## Transposition -/

/-- The matrix with two elements exchanged. -/
theorem swapAt_spec {n : Nat} {m : List α} {A : Matrix (Fin n) (Fin n) α} (h : Holds m A) {x y : Nat} (hx : x < n) (hy : y < n) :
    ∃ m', swapAt n m x y = some m' ∧ Holds m' (Matrix.of fun r c => if (r.val = x ∧ c.val = y) ∨ (r.val = y ∧ c.val = x) then A c r else A r c) := by
  have hi : x * n + y < m.length := by rw [h.1]; exact idx_lt hx hy
  have hj : y * n + x < m.length := by rw [h.1]; exact idx_lt hy hx
  have e1 : rd m (x * n + y) = some (A ⟨x, hx⟩ ⟨y, hy⟩) := h.2 ⟨x, hx⟩ ⟨y, hy⟩
  have e2 : rd m (y * n + x) = some (A ⟨y, hy⟩ ⟨x, hx⟩) := h.2 ⟨y, hy⟩ ⟨x, hx⟩
  refine ⟨(m.set (x * n + y) (A ⟨y, hy⟩ ⟨x, hx⟩)).set (y * n + x) (A ⟨x, hx⟩ ⟨y, hy⟩), ?_, by simp [h.1], ?_⟩
  · rw [swapAt, iterSwap, e1, e2]
    simp only [Option.bind_eq_bind, Option.bind_some]
    rw [wr_lt hi, Option.bind_some, wr_lt (by rw [List.length_set]; exact hj)]
  · intro r c
    have hrc : r.val * n + c.val < m.length := by rw [h.1]; exact idx_lt r.isLt c.isLt
    rw [List.getElem?_set, List.length_set, Matrix.of_apply]
    by_cases h1 : y * n + x = r.val * n + c.val
    · obtain ⟨f1, f2⟩ := idx_inj hx c.isLt h1
      rw [if_pos h1, if_pos (h1 ▸ hrc), if_pos (.inr ⟨f1.symm, f2.symm⟩)]
      subst f1; subst f2; rfl
    · rw [if_neg h1, List.getElem?_set]
      by_cases h2 : x * n + y = r.val * n + c.val
      · obtain ⟨f1, f2⟩ := idx_inj hy c.isLt h2
        rw [if_pos h2, if_pos (h2 ▸ hrc), if_pos (.inl ⟨f1.symm, f2.symm⟩)]
        subst f1; subst f2; rfl
      · rw [if_neg h2, h.2 r c, if_neg]
        rintro (⟨f1, f2⟩ | ⟨f1, f2⟩)
        · exact h2 (by rw [f1, f2])
        · exact h1 (by rw [f1, f2])

/-- **C51**: `transpose (m)` makes the transposed matrix. -/
theorem transpose_spec {n : Nat} {m : List α} {A : Matrix (Fin n) (Fin n) α} (h : Holds m A) : ∃ m', transpose n m = some m' ∧ Holds m' A.transpose := by
  obtain ⟨s, e, hs⟩ := loop_rule (f := fun x m => loopFrom (fun y m => swapAt n m x y) x (n - x) m)
    (fun k s => Holds s (Matrix.of fun r c : Fin n => if r.val < k ∨ c.val < k then A c r else A r c)) n m (by refine ⟨h.1, fun r c => ?_⟩; rw [h.2 r c]; simp) (by
      intro k s hk hs
      obtain ⟨s', e', hs'⟩ := loopFrom_rule (f := fun y m => swapAt n m k y)
        (fun q s => Holds s (Matrix.of fun r c : Fin n => if r.val < k ∨ c.val < k ∨ r.val = k ∧ c.val < q ∨ c.val = k ∧ r.val < q then A c r else A r c)) (n - k) k s (by
          refine ⟨hs.1, fun r c => ?_⟩
          rw [hs.2 r c]
          congr 1
          simp only [Matrix.of_apply]
          by_cases hc : r.val < k ∨ c.val < k
          · rw [if_pos hc, if_pos (by omega)]
          · rw [if_neg hc, if_neg (by omega)]) (by
          intro q s hq hq' hs
          obtain ⟨s', e', hs'⟩ := swapAt_spec hs hk (show q < n by omega)
          refine ⟨s', e', hs'.1, fun r c => ?_⟩
          rw [hs'.2 r c]
          congr 1
          simp only [Matrix.of_apply]
          by_cases h1 : (r.val = k ∧ c.val = q) ∨ (r.val = q ∧ c.val = k)
          · rw [if_pos h1]
            by_cases h2 : q = k
            · have : r = c := Fin.ext (by omega)
              subst this
              simp
            · rw [if_neg (show ¬ (c.val < k ∨ r.val < k ∨ c.val = k ∧ r.val < q ∨ r.val = k ∧ c.val < q) by omega),
                if_pos (show r.val < k ∨ c.val < k ∨ r.val = k ∧ c.val < q + 1 ∨ c.val = k ∧ r.val < q + 1 by omega)]
          · rw [if_neg h1]
            by_cases h2 : r.val < k ∨ c.val < k ∨ r.val = k ∧ c.val < q ∨ c.val = k ∧ r.val < q
            · rw [if_pos h2, if_pos (by omega)]
            · rw [if_neg h2, if_neg (by omega)])
      refine ⟨s', e', hs'.1, fun r c => ?_⟩
      rw [hs'.2 r c]
      congr 1
      simp only [Matrix.of_apply]
      have := r.isLt
      have := c.isLt
      by_cases h2 : r.val < k + 1 ∨ c.val < k + 1
      · rw [if_pos h2, if_pos (by omega)]
      · rw [if_neg h2, if_neg (by omega)])
  refine ⟨s, e, hs.1, fun r c => ?_⟩
  rw [hs.2 r c, Matrix.of_apply, if_pos (.inl r.isLt)]
  rfl

/-- **C51**: to transpose twice changes nothing. -/
theorem transpose_transpose {n : Nat} {m : List α} {A : Matrix (Fin n) (Fin n) α} (h : Holds m A) :
    (do let m ← transpose n m; transpose n m) = some m := by
  obtain ⟨m1, e1, h1⟩ := transpose_spec h
  obtain ⟨m2, e2, h2⟩ := transpose_spec h1
  rw [Matrix.transpose_transpose] at h2
  rw [e1]
  simp only [Option.bind_eq_bind, Option.bind_some]
  rw [e2, h2.ext h]

/-! ## Rows and columns -/

/-- **C51**: `row (r)` is row `r`. -/
theorem row_spec {nx ny : Nat} {m t : List α} {A : Matrix (Fin ny) (Fin nx) α} (h : Holds m A) (ht : t.length = nx) (r : Fin ny) :
    ∃ t', row nx m r t = some t' ∧ HoldsV t' (A r) := by
  obtain ⟨s, e, hl, hs⟩ := loop_rule (f := fun i t => do let a ← rd m (r.val * nx + i); wr t i a)
    (fun k s => s.length = nx ∧ ∀ i : Fin nx, i.val < k → s[i.val]? = some (A r i)) nx t ⟨ht, fun i h => by omega⟩ (by
      intro k s hk ⟨hl, hs⟩
      refine ⟨s.set k (A r ⟨k, hk⟩), ?_, by rw [List.length_set, hl], ?_⟩
      · have e : rd m (r.val * nx + k) = some (A r ⟨k, hk⟩) := h.2 r ⟨k, hk⟩
        rw [e]
        exact wr_lt (by omega) _
      · intro i hi
        rw [List.getElem?_set]
        by_cases he : k = i.val
        · subst he
          rw [if_pos rfl, if_pos (by omega)]
        · rw [if_neg he]
          exact hs i (by omega))
  exact ⟨s, e, hl, fun i => hs i i.isLt⟩

/-- **C51**: `column (c)` is column `c`. -/
theorem column_spec [Zero α] {nx ny : Nat} {m t : List α} {A : Matrix (Fin ny) (Fin nx) α} (h : Holds m A) (ht : t.length = ny) (c : Fin nx) :
    ∃ t', column nx ny m c t = some t' ∧ HoldsV t' (fun r => A r c) := by
  rw [column, tupleNew_spec]
  simp only [Option.bind_eq_bind, Option.bind_some]
  obtain ⟨s, e, hl, hsrc, hs⟩ := loop_rule (f := fun i (p : List α × Nat) => do
      let a ← rd m p.2
      let t ← wr p.1 i a
      some (t, p.2 + nx))
    (fun k s => s.1.length = ny ∧ s.2 = k * nx + c.val ∧ ∀ i : Fin ny, i.val < k → s.1[i.val]? = some (A i c)) ny (List.replicate t.length 0, c.val)
    ⟨by simp [ht], by simp, fun i h => by omega⟩ (by
      rintro k ⟨s, src⟩ hk ⟨hl, hsrc, hs⟩
      dsimp only at hl hsrc hs ⊢
      subst hsrc
      have e : rd m (k * nx + c.val) = some (A ⟨k, hk⟩ c) := h.2 ⟨k, hk⟩ c
      rw [e]
      simp only [Option.bind_eq_bind, Option.bind_some]
      rw [wr_lt (by omega)]
      refine ⟨_, rfl, by simp [hl], by simp only [Nat.add_mul]; omega, ?_⟩
      intro i hi
      rw [List.getElem?_set]
      by_cases he : k = i.val
      · subst he
        rw [if_pos rfl, if_pos (by omega)]
      · rw [if_neg he]
        exact hs i (by omega))
  refine ⟨s.1, ?_, hl, fun i => hs i i.isLt⟩
  have := congrArg (fun o => Option.bind o (fun p : List α × Nat => some p.1)) e
  exact this

/-! ## Identity -/

theorem fill_zero [Zero α] (n : Nat) (m : List α) (h : m.length = n) : fillN 0 0 n m = some (List.replicate n (0 : α)) := by
  rw [← h]; exact fillN_all 0 m

theorem diagLoop_spec [One α] (step : Nat) (hs : 0 < step) : ∀ (g i : Nat) (m : List α), m.length ≤ i + g →
    ∃ r, diagLoop step hs i m = some r ∧ r.length = m.length ∧
      ∀ k, r[k]? = if k < m.length ∧ i ≤ k ∧ (k - i) % step = 0 then some 1 else m[k]? := by
  intro g
  induction g with
  | zero =>
    intro i m h
    rw [diagLoop, dif_neg (by omega)]
    exact ⟨m, rfl, rfl, fun k => by rw [if_neg (by omega)]⟩
  | succ g ih =>
    intro i m h
    rw [diagLoop]
    by_cases hi : i < m.length
    · rw [dif_pos hi, wr_lt hi]
      simp only [Option.bind_eq_bind, Option.bind_some]
      rw [if_pos (by simp)]
      obtain ⟨r, e, hl, hk⟩ := ih (i + step) (m.set i 1) (by simp; omega)
      refine ⟨r, e, by rw [hl, List.length_set], fun k => ?_⟩
      rw [hk k, List.length_set, List.getElem?_set]
      by_cases h1 : k < m.length
      · by_cases h2 : i + step ≤ k
        · have e1 : (k - i) % step = (k - (i + step)) % step := by
            rw [show k - i = (k - (i + step)) + step by omega, Nat.add_mod_right]
          rw [e1, if_neg (show i ≠ k by omega)]
          by_cases h3 : (k - (i + step)) % step = 0
          · rw [if_pos ⟨h1, h2, h3⟩, if_pos ⟨h1, by omega, h3⟩]
          · rw [if_neg (fun q => h3 q.2.2), if_neg (fun q => h3 q.2.2)]
        · rw [if_neg (fun q => h2 q.2.1)]
          by_cases h3 : i = k
          · subst h3
            rw [if_pos rfl, if_pos hi, if_pos ⟨hi, Nat.le_refl _, by simp⟩]
          · rw [if_neg h3, if_neg]
            rintro ⟨_, q1, q2⟩
            rw [Nat.mod_eq_of_lt (by omega)] at q2
            omega
      · rw [if_neg (fun q => h1 q.1), if_neg (show i ≠ k by omega), if_neg (fun q => h1 q.1)]
    · rw [dif_neg hi]
      exact ⟨m, rfl, rfl, fun k => by rw [if_neg (by omega)]⟩

/-- What `load_identity` does: 1 in every element whose number is a multiple of `NX + 1`, and 0 elsewhere. -/
theorem loadIdentity_is [Zero α] [One α] (nx ny : Nat) (m : List α) (h : m.length = nx * ny) :
    ∃ r, loadIdentity nx ny m = some r ∧ Holds r (Matrix.of fun (i : Fin ny) (j : Fin nx) => if (i.val * nx + j.val) % (nx + 1) = 0 then (1 : α) else 0) := by
  rw [loadIdentity, fill_zero (nx * ny) m h]
  simp only [Option.bind_eq_bind, Option.bind_some]
  obtain ⟨r, e, hl, hk⟩ := diagLoop_spec (α := α) (nx + 1) (Nat.succ_pos _) (nx * ny) 0 (List.replicate (nx * ny) 0) (by simp)
  refine ⟨r, e, by simpa using hl, fun i j => ?_⟩
  rw [hk, Matrix.of_apply]
  have hlt := idx_lt i.isLt j.isLt
  by_cases hc : (i.val * nx + j.val) % (nx + 1) = 0
  · rw [if_pos ⟨by simpa using hlt, Nat.zero_le _, by simpa using hc⟩, if_pos hc]
  · rw [if_neg (fun q => hc (by simpa using q.2.2)), if_neg hc]
    simp [hlt]

/-- **C51** (partial): `load_identity` puts 1 on the diagonal and 0 elsewhere if the matrix has at most one row more than it has
columns. What is missing: taller matrices, see `loadIdentity_violated`. -/
theorem loadIdentity_partial [Zero α] [One α] (nx ny : Nat) (hle : ny ≤ nx + 1) (m : List α) (h : m.length = nx * ny) :
    ∃ r, loadIdentity nx ny m = some r ∧ Holds r (Matrix.of fun (i : Fin ny) (j : Fin nx) => if i.val = j.val then (1 : α) else 0) := by
  obtain ⟨r, e, hr⟩ := loadIdentity_is (α := α) nx ny m h
  refine ⟨r, e, hr.1, fun i j => ?_⟩
  rw [hr.2]
  congr 1
  simp only [Matrix.of_apply]
  have hi := i.isLt
  have hj := j.isLt
  -- i * nx + j = i * (nx + 1) + (j - i)
  by_cases hc : i.val = j.val
  · rw [if_pos hc, if_pos]
    rw [show i.val * nx + j.val = i.val * (nx + 1) by rw [Nat.mul_add, Nat.mul_one, hc]]
    exact Nat.mul_mod_left _ _
  · rw [if_neg hc, if_neg]
    intro hz
    by_cases hlt : i.val < j.val
    · rw [show i.val * nx + j.val = (j.val - i.val) + i.val * (nx + 1) by rw [Nat.mul_add, Nat.mul_one]; omega, Nat.add_mul_mod_self_right,
        Nat.mod_eq_of_lt (by omega)] at hz
      omega
    · have : i.val * nx + j.val + (i.val - j.val) = i.val * (nx + 1) := by rw [Nat.mul_add, Nat.mul_one]; omega
      have h2 : (i.val * nx + j.val + (i.val - j.val)) % (nx + 1) = 0 := by rw [this]; exact Nat.mul_mod_left _ _
      rw [Nat.add_mod, hz, Nat.zero_add, Nat.mod_mod, Nat.mod_eq_of_lt (by omega)] at h2
      omega

/-- **C51**: for square matrices it is the identity matrix. -/
theorem loadIdentity_square [Zero α] [One α] (n : Nat) (m : List α) (h : m.length = n * n) :
    ∃ r, loadIdentity n n m = some r ∧ Holds r (1 : Matrix (Fin n) (Fin n) α) := by
  obtain ⟨r, e, hr⟩ := loadIdentity_partial (α := α) n n (by omega) m h
  refine ⟨r, e, hr.1, fun i j => ?_⟩
  rw [hr.2]
  congr 1
  simp only [Matrix.of_apply]
  by_cases hc : i = j
  · subst hc; simp
  · rw [Matrix.one_apply_ne hc, if_neg (fun q => hc (Fin.ext q))]

/-- **C51** is false for every matrix with two rows more than columns, or still more: element `[NX+1][0]` is 1. -/
theorem loadIdentity_violated [Zero α] [One α] (nx ny : Nat) (hx : 0 < nx) (hgt : nx + 1 < ny) (m : List α) (h : m.length = nx * ny) :
    ∃ r, loadIdentity nx ny m = some r ∧ LinAlg.at_ nx r (nx + 1) 0 = some (1 : α) := by
  obtain ⟨r, e, hr⟩ := loadIdentity_is (α := α) nx ny m h
  refine ⟨r, e, ?_⟩
  rw [hr.at_ hgt hx, Matrix.of_apply, if_pos]
  simp

example : loadIdentity 2 4 [9, 9, 9, 9, 9, 9, 9, (9 : Int)] = some [1, 0, 0, 1, 0, 0, 1, 0] := by decide +kernel
example : loadIdentity 3 3 (List.replicate 9 (9 : Int)) = some [1, 0, 0, 0, 1, 0, 0, 0, 1] := by decide +kernel

/-- **C51**: the identity is neutral, on both sides. -/
theorem mul_identity [NonAssocSemiring α] {n : Nat} {m mem r1 r2 : List α} {A : Matrix (Fin n) (Fin n) α} (h : Holds m A) (hm : mem.length = n * n)
    (h1 : r1.length = n * n) (h2 : r2.length = n * n) :
    ∃ i, loadIdentity n n mem = some i ∧ mul n n m i r1 = some m ∧ mul n n i m r2 = some m := by
  obtain ⟨i, e, hi⟩ := loadIdentity_square n mem hm
  obtain ⟨a, ea, ha⟩ := mul_spec h hi h1
  obtain ⟨b, eb, hb⟩ := mul_spec hi h h2
  rw [Matrix.mul_one] at ha
  rw [Matrix.one_mul] at hb
  exact ⟨i, e, by rw [ea, ha.ext h], by rw [eb, hb.ext h]⟩

/-- **C51**: to transform a vector by one matrix and then by another is to transform it by their product. -/
theorem transform_mul [NonUnitalSemiring α] {n : Nat} {t m1 m2 r1 r2 r3 mr : List α} {v : Fin n → α} {A B : Matrix (Fin n) (Fin n) α} (ht : HoldsV t v) (hA : Holds m1 A) (hB : Holds m2 B)
    (h1 : r1.length = n) (h2 : r2.length = n) (h3 : r3.length = n) (hm : mr.length = n * n) :
    (do let u ← transform n n t m1 r1; transform n n u m2 r2) = (do let p ← mul n n m1 m2 mr; transform n n t p r3) := by
  obtain ⟨u, eu, hu⟩ := transform_spec ht hA h1
  obtain ⟨w, ew, hw⟩ := transform_spec hu hB h2
  obtain ⟨p, ep, hp⟩ := mul_spec hA hB hm
  obtain ⟨q, eq, hq⟩ := transform_spec ht hp h3
  rw [Matrix.vecMul_vecMul] at hw
  rw [eu, ep]
  simp only [Option.bind_eq_bind, Option.bind_some]
  rw [ew, eq]
  congr 1
  apply List.ext_getElem?
  intro k
  by_cases hk : k < n
  · rw [hw.2 ⟨k, hk⟩, hq.2 ⟨k, hk⟩]
  · rw [List.getElem?_eq_none (by rw [hw.1]; omega), List.getElem?_eq_none (by rw [hq.1]; omega)]

/-- Every list of the right length holds a matrix. -/
theorem holds_exists [Inhabited α] (nx ny : Nat) (l : List α) (h : l.length = nx * ny) :
    Holds l (Matrix.of fun (r : Fin ny) (c : Fin nx) => l.getD (r.val * nx + c.val) default) := by
  refine ⟨h, fun r c => ?_⟩
  have : r.val * nx + c.val < l.length := by rw [h]; exact idx_lt r.isLt c.isLt
  simp [List.getD_eq_getElem?_getD, this]

example : ∃ r, mul 3 2 [1, 2, 3, 4, 5, 6] [1, 0, 0, 1, 2, (2 : Int)] [0, 0, 0, 0] = some r ∧ r = [7, 8, 16, 17] := by
  obtain ⟨r, e, h⟩ := mul_spec (nx := 3) (ny := 2) (holds_exists 3 2 [1, 2, 3, 4, 5, (6 : Int)] rfl) (holds_exists 2 3 [1, 0, 0, 1, 2, (2 : Int)] rfl) (mr := [0, 0, 0, 0]) rfl
  have : mul 3 2 [1, 2, 3, 4, 5, 6] [1, 0, 0, 1, 2, (2 : Int)] [0, 0, 0, 0] = some [7, 8, 16, 17] := by decide +kernel
  exact ⟨r, e, by rw [this] at e; cases e; rfl⟩
example : transform 3 2 [1, 10] [1, 2, 3, 4, 5, (6 : Int)] [0, 0, 0] = some [41, 52, 63] := by decide +kernel
example : transpose 3 [1, 2, 3, 4, 5, 6, 7, 8, (9 : Int)] = some [1, 4, 7, 2, 5, 8, 3, 6, 9] := by decide +kernel
example : column 3 2 [1, 2, 3, 4, 5, (6 : Int)] 1 [0, 0] = some [2, 5] ∧ row 3 [1, 2, 3, 4, 5, (6 : Int)] 1 [0, 0, 0] = some [4, 5, 6] := by decide +kernel

end Ustl.LinAlg
