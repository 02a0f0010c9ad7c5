import Verif.LinAlg.Matrix
import Mathlib.Tactic.Ring
import Mathlib.Tactic.FinCases
import Mathlib.Tactic.LinearCombination
/-!
# The specialisations for `float` (C51)

The inline assembly of ulaalgo.h is a list of instructions on registers of four (SSE) or two (3DNow!) lanes, with the meaning the
manuals of the processors give them; the lanes are of a commutative ring, so rounding is not modelled.
-/
namespace Ustl.LinAlg
variable {α : Type _}

/-- The lanes of an SSE register, the lowest first. -/
structure V4 (α : Type _) where
  (a b c d : α)
deriving DecidableEq

/-- Lane `i` modulo 4. -/
def V4.lane (v : V4 α) (i : Nat) : α := match i % 4 with | 0 => v.a | 1 => v.b | 2 => v.c | _ => v.d

/-- `shufps $imm, src, dst`: the two lower lanes come from `dst`, the two upper from `src`, two bits of `imm` for each. -/
def shufps (imm : Nat) (src dst : V4 α) : V4 α := ⟨dst.lane imm, dst.lane (imm / 4), src.lane (imm / 16), src.lane (imm / 64)⟩

/-- An instruction on the registers `xmm0` to `xmm7` (the source is named first, as in the code). -/
inductive Ins
  | movaps (src dst : Nat)
  | shufps (imm src dst : Nat)
  | mulps (src dst : Nat)
  | addps (src dst : Nat)

/-- Lane by lane. -/
def V4.zip (f : α → α → α) (v w : V4 α) : V4 α := ⟨f v.a w.a, f v.b w.b, f v.c w.c, f v.d w.d⟩

/-- The registers after an instruction. -/
def Ins.exec [Add α] [Mul α] (r : Nat → V4 α) : Ins → Nat → V4 α
  | .movaps s d => fun i => if i = d then r s else r i
  | .shufps imm s d => fun i => if i = d then LinAlg.shufps imm (r s) (r d) else r i
  | .mulps s d => fun i => if i = d then V4.zip (· * ·) (r d) (r s) else r i
  | .addps s d => fun i => if i = d then V4.zip (· + ·) (r d) (r s) else r i

/-- The registers after some instructions. -/
def exec [Add α] [Mul α] (r : Nat → V4 α) (p : List Ins) : Nat → V4 α := p.foldl Ins.exec r

/-- The instructions of `_sse_transform_to_vector` before the store. Models ulaalgo.h:100-121. -/
def sseProg : List Ins := [.movaps 0 1, .movaps 0 2, .movaps 0 3, .shufps 0x00 0 0, .shufps 0x66 1 1, .shufps 0xAA 2 2, .shufps 0xFF 3 3,
  .mulps 4 0, .mulps 5 1, .addps 1 0, .mulps 6 2, .mulps 7 3, .addps 3 2, .addps 2 0]

/-- `movups` from element `i` on. -/
def load4 (l : List α) (i : Nat) : Option (V4 α) := do
  let a ← rd l i
  let b ← rd l (i + 1)
  let c ← rd l (i + 2)
  let d ← rd l (i + 3)
  some ⟨a, b, c, d⟩

/-- The registers after `_sse_load_matrix` and the load of the vector. Models ulaalgo.h:88-98, 128. -/
def loaded (t r0 r1 r2 r3 : V4 α) : Nat → V4 α := fun i => if i = 4 then r0 else if i = 5 then r1 else if i = 6 then r2 else if i = 7 then r3 else t

/-- `t * m` of a `tuple<4,float>` and a `matrix<4,4,float>`. Models ulaalgo.h:123-131. -/
def sseTransform [Add α] [Mul α] (t m : List α) : Option (List α) := do
  let r0 ← load4 m 0
  let r1 ← load4 m 4
  let r2 ← load4 m 8
  let r3 ← load4 m 12
  let t ← load4 t 0
  let x := exec (loaded t r0 r1 r2 r3) sseProg 0
  some [x.a, x.b, x.c, x.d]

/-- `m1 * m2` of two `matrix<4,4,float>`: each row as above; the registers of the matrix keep their values between the rows.
Models ulaalgo.h:134-143. -/
def sseMul [Add α] [Mul α] (m1 m2 : List α) : Option (List α) := do
  let a ← sseTransform (m1.take 4) m2
  let b ← sseTransform ((m1.drop 4).take 4) m2
  let c ← sseTransform ((m1.drop 8).take 4) m2
  let d ← sseTransform ((m1.drop 12).take 4) m2
  some (a ++ b ++ c ++ d)

/-- `t * m` without processor extensions. Models ulaalgo.h:201-208. -/
def unrolledTransform [Add α] [Mul α] (t m tr : List α) : Option (List α) :=
  loop 4 (fun i tr => do
    let t0 ← rd t 0
    let t1 ← rd t 1
    let t2 ← rd t 2
    let t3 ← rd t 3
    let a ← at_ 4 m 0 i
    let b ← at_ 4 m 1 i
    let c ← at_ 4 m 2 i
    let d ← at_ 4 m 3 i
    wr tr i (t0 * a + t1 * b + t2 * c + t3 * d)) tr

/-- The store of the registers in `load_identity`; `%4` is register 8 here and starts as `1 0 0 0`, which is what loading the constant
with `movss` makes it. The result are the four rows. Models ulaalgo.h:66-85. -/
def sseIdentity [Zero α] [One α] [Add α] [Mul α] : List (V4 α) :=
  let r : Nat → V4 α := fun _ => ⟨1, 0, 0, 0⟩
  let r1 := exec r [.movaps 8 1]
  let r2 := exec r1 [.shufps 0xB1 1 1]
  let r3 := exec r2 [.shufps 0x4F 8 1, .shufps 0x1B 8 8]
  [r1 8, r2 1, r3 1, r3 8]

/-- A vector of four elements. -/
def vec4 (t : V4 α) : Fin 4 → α := fun i => t.lane i.val

/-- A matrix of four rows. -/
def mat4 (r0 r1 r2 r3 : V4 α) : Matrix (Fin 4) (Fin 4) α := Matrix.of fun i j => (match i.val with | 0 => r0 | 1 => r1 | 2 => r2 | _ => r3).lane j.val

/-- The elements of four rows. -/
def V4.list (v : V4 α) : List α := [v.a, v.b, v.c, v.d]

/-- What `_sse_transform_to_vector` computes. -/
theorem sse_is [Add α] [Mul α] (t r0 r1 r2 r3 : V4 α) : sseTransform t.list (r0.list ++ r1.list ++ r2.list ++ r3.list) =
    some [t.a * r0.a + t.c * r1.a + (t.c * r2.a + t.d * r3.a), t.a * r0.b + t.b * r1.b + (t.c * r2.b + t.d * r3.b),
      t.a * r0.c + t.c * r1.c + (t.c * r2.c + t.d * r3.c), t.a * r0.d + t.b * r1.d + (t.c * r2.d + t.d * r3.d)] := rfl

/-- What it should compute. -/
theorem vec_is [CommRing α] (t r0 r1 r2 r3 : V4 α) (i : Fin 4) : Matrix.vecMul (vec4 t) (mat4 r0 r1 r2 r3) i =
    t.a * r0.lane i + t.b * r1.lane i + t.c * r2.lane i + t.d * r3.lane i := by
  simp only [Matrix.vecMul, dotProduct, Fin.sum_univ_four]
  rfl

/-- **C51**: when the product of a vector of four `float`s and a matrix, as compiled with SSE, is right: exactly if the second and the third
element of the vector are equal, or the first and the third element of the second row are zero (over a ring without zero divisors). -/
theorem sse_transform_iff [CommRing α] [NoZeroDivisors α] (t r0 r1 r2 r3 : V4 α) :
    (∃ r, sseTransform t.list (r0.list ++ r1.list ++ r2.list ++ r3.list) = some r ∧ HoldsV r (Matrix.vecMul (vec4 t) (mat4 r0 r1 r2 r3))) ↔
      t.b = t.c ∨ (r1.a = 0 ∧ r1.c = 0) := by
  rw [sse_is]
  have hlane : ∀ v : V4 α, v.lane (0 : Fin 4).val = v.a ∧ v.lane (1 : Fin 4).val = v.b ∧ v.lane (2 : Fin 4).val = v.c ∧ v.lane (3 : Fin 4).val = v.d := fun v => ⟨rfl, rfl, rfl, rfl⟩
  constructor
  · rintro ⟨r, e, h⟩
    cases e
    have h0 := h.2 0
    have h2 := h.2 2
    rw [vec_is] at h0 h2
    rw [(hlane r0).1, (hlane r1).1, (hlane r2).1, (hlane r3).1] at h0
    rw [(hlane r0).2.2.1, (hlane r1).2.2.1, (hlane r2).2.2.1, (hlane r3).2.2.1] at h2
    have h0 := Option.some.inj h0
    have h2 := Option.some.inj h2
    have z0 : (t.b - t.c) * r1.a = 0 := by linear_combination -h0
    have z2 : (t.b - t.c) * r1.c = 0 := by linear_combination -h2
    rcases mul_eq_zero.mp z0 with z | z
    · exact .inl (sub_eq_zero.mp z)
    · rcases mul_eq_zero.mp z2 with z' | z'
      · exact .inl (sub_eq_zero.mp z')
      · exact .inr ⟨z, z'⟩
  · intro h
    refine ⟨_, rfl, rfl, fun i => ?_⟩
    rw [vec_is]
    have h0 : t.c * r1.a = t.b * r1.a := by rcases h with h | h; · rw [h]
                                            · rw [h.1]; ring
    have h2 : t.c * r1.c = t.b * r1.c := by rcases h with h | h; · rw [h]
                                            · rw [h.2]; ring
    match i with
    | 0 =>
      rw [(hlane r0).1, (hlane r1).1, (hlane r2).1, (hlane r3).1]
      show some _ = some _
      congr 1
      linear_combination h0
    | 1 =>
      rw [(hlane r0).2.1, (hlane r1).2.1, (hlane r2).2.1, (hlane r3).2.1]
      show some _ = some _
      congr 1
      ring
    | 2 =>
      rw [(hlane r0).2.2.1, (hlane r1).2.2.1, (hlane r2).2.2.1, (hlane r3).2.2.1]
      show some _ = some _
      congr 1
      linear_combination h2
    | 3 =>
      rw [(hlane r0).2.2.2, (hlane r1).2.2.2, (hlane r2).2.2.2, (hlane r3).2.2.2]
      show some _ = some _
      congr 1
      ring

/-- **C51** is false for four `float`s with SSE: the vector `0 1 0 0` times a matrix is not the second row of the matrix, for any matrix
whose second row is not zero in its first element. -/
theorem sse_transform_violated [CommRing α] [NoZeroDivisors α] [Nontrivial α] (r0 r1 r2 r3 : V4 α) (h : r1.a ≠ 0) :
    ∃ r, sseTransform (V4.list ⟨0, 1, 0, 0⟩) (r0.list ++ r1.list ++ r2.list ++ r3.list) = some r ∧ ¬ HoldsV r (Matrix.vecMul (vec4 ⟨0, 1, 0, 0⟩) (mat4 r0 r1 r2 r3)) := by
  refine ⟨_, sse_is _ _ _ _ _, fun hv => ?_⟩
  rcases (sse_transform_iff ⟨0, 1, 0, 0⟩ r0 r1 r2 r3).mp ⟨_, sse_is _ _ _ _ _, hv⟩ with h' | h'
  · exact one_ne_zero h'
  · exact h h'.1

example : sseTransform [0, 1, 0, 0] [1, 2, 3, 4, 5, 6, 7, 8, 9, 10, 11, 12, 13, 14, 15, (16 : Int)] = some [0, 6, 0, 8] ∧
    transform 4 4 [0, 1, 0, 0] [1, 2, 3, 4, 5, 6, 7, 8, 9, 10, 11, 12, 13, 14, 15, (16 : Int)] [0, 0, 0, 0] = some [5, 6, 7, 8] := by decide +kernel

/-- **C51** is false for the product of two matrices of 4 by 4 `float`s with SSE. -/
theorem sse_mul_violated : ∃ m1 m2 r : List Int, m1.length = 16 ∧ m2.length = 16 ∧ sseMul m1 m2 = some r ∧ mul 4 4 m1 m2 (List.replicate 16 0) ≠ some r :=
  ⟨[0, 1, 0, 0, 1, 0, 0, 0, 0, 0, 1, 0, 0, 0, 0, 1], [1, 2, 3, 4, 5, 6, 7, 8, 9, 10, 11, 12, 13, 14, 15, 16],
    [0, 6, 0, 8, 1, 2, 3, 4, 14, 10, 18, 12, 13, 14, 15, 16], rfl, rfl, by decide +kernel, by decide +kernel⟩

/-- **C51**: without processor extensions the product is right. -/
theorem unrolled_spec [CommRing α] (t r0 r1 r2 r3 : V4 α) (mem : V4 α) :
    ∃ r, unrolledTransform t.list (r0.list ++ r1.list ++ r2.list ++ r3.list) mem.list = some r ∧ HoldsV r (Matrix.vecMul (vec4 t) (mat4 r0 r1 r2 r3)) := by
  refine ⟨_, rfl, rfl, fun i => ?_⟩
  rw [vec_is]
  match i with
  | 0 => rfl
  | 1 => rfl
  | 2 => rfl
  | 3 => rfl

/-- **C51**: `load_identity` of a `matrix<4,4,float>` with SSE makes the identity matrix. -/
theorem sse_identity_spec [CommRing α] : Holds ((sseIdentity : List (V4 α)).map V4.list).flatten (1 : Matrix (Fin 4) (Fin 4) α) := by
  have e : ((sseIdentity : List (V4 α)).map V4.list).flatten = [1, 0, 0, 0, 0, 1, 0, 0, 0, 0, 1, 0, 0, 0, 0, 1] := rfl
  rw [e]
  refine ⟨rfl, fun r c => ?_⟩
  fin_cases r <;> fin_cases c <;> simp

/-! ## 3DNow! -/

/-- An instruction on the registers `mm0` to `mm7` of two lanes; `load` is `movq` from an element of the vector or the matrix. -/
inductive Ins2
  | loadT (i d : Nat)
  | loadM (r c d : Nat)
  | movq (s d : Nat)
  | punpckldq (s d : Nat)
  | punpckhdq (s d : Nat)
  | pfmul (s d : Nat)
  | pfadd (s d : Nat)

/-- The registers after an instruction, with the vector `t` and the matrix `m`. -/
def Ins2.exec [Add α] [Mul α] (t : Nat → α) (m : Nat → Nat → α) (r : Nat → α × α) : Ins2 → Nat → α × α
  | .loadT i d => fun k => if k = d then (t i, t (i + 1)) else r k
  | .loadM y x d => fun k => if k = d then (m y x, m y (x + 1)) else r k
  | .movq s d => fun k => if k = d then r s else r k
  | .punpckldq s d => fun k => if k = d then ((r d).1, (r s).1) else r k
  | .punpckhdq s d => fun k => if k = d then ((r d).2, (r s).2) else r k
  | .pfmul s d => fun k => if k = d then ((r d).1 * (r s).1, (r d).2 * (r s).2) else r k
  | .pfadd s d => fun k => if k = d then ((r d).1 + (r s).1, (r d).2 + (r s).2) else r k

/-- The instructions; those of the two stores are after `prog3dnow` and read `mm3` and `mm5`. Models ulaalgo.h:157-187. -/
def prog3dnow : List Ins2 := [.loadT 0 0, .loadT 2 1, .movq 0 2, .loadM 0 0 3, .punpckldq 0 0, .loadM 1 0 4, .pfmul 0 3, .punpckhdq 2 2, .pfmul 2 4,
  .loadM 0 2 5, .loadM 1 2 7, .movq 1 6, .pfmul 0 5, .loadM 2 0 0, .punpckldq 1 1, .pfmul 2 7, .loadM 2 2 2, .pfmul 1 0, .pfadd 4 3, .loadM 3 0 4,
  .pfmul 1 2, .pfadd 7 5, .loadM 3 2 1, .punpckhdq 6 6, .pfadd 0 3, .pfmul 6 4, .pfmul 6 1, .pfadd 2 5, .pfadd 4 3, .pfadd 1 5]

/-- `t * m` with 3DNow!. Models ulaalgo.h:149-197. -/
def transform3dnow [Add α] [Mul α] [Zero α] (t : Nat → α) (m : Nat → Nat → α) : List α :=
  let r := prog3dnow.foldl (Ins2.exec t m) (fun _ => (0, 0))
  [(r 3).1, (r 3).2, (r 5).1, (r 5).2]

/-- **C51**: with 3DNow! the product is right. -/
theorem transform3dnow_spec [CommRing α] (v : Fin 4 → α) (A : Matrix (Fin 4) (Fin 4) α) :
    HoldsV (transform3dnow (fun i => if h : i < 4 then v ⟨i, h⟩ else 0) (fun r c => if h : r < 4 ∧ c < 4 then A ⟨r, h.1⟩ ⟨c, h.2⟩ else 0)) (Matrix.vecMul v A) := by
  have e : ∀ (t : Nat → α) (m : Nat → Nat → α), transform3dnow t m = [m 0 0 * t 0 + m 1 0 * t 1 + m 2 0 * t 2 + m 3 0 * t 3,
      m 0 1 * t 0 + m 1 1 * t 1 + m 2 1 * t 2 + m 3 1 * t 3, m 0 2 * t 0 + m 1 2 * t 1 + m 2 2 * t 2 + m 3 2 * t 3,
      m 0 3 * t 0 + m 1 3 * t 1 + m 2 3 * t 2 + m 3 3 * t 3] := fun t m => rfl
  rw [e]
  refine ⟨rfl, fun i => ?_⟩
  have hv : Matrix.vecMul v A i = v 0 * A 0 i + v 1 * A 1 i + v 2 * A 2 i + v 3 * A 3 i := by
    simp only [Matrix.vecMul, dotProduct, Fin.sum_univ_four]
  rw [hv]
  match i with
  | 0 => show some _ = some _; congr 1; show A 0 0 * v 0 + A 1 0 * v 1 + A 2 0 * v 2 + A 3 0 * v 3 = _; ring
  | 1 => show some _ = some _; congr 1; show A 0 1 * v 0 + A 1 1 * v 1 + A 2 1 * v 2 + A 3 1 * v 3 = _; ring
  | 2 => show some _ = some _; congr 1; show A 0 2 * v 0 + A 1 2 * v 1 + A 2 2 * v 2 + A 3 2 * v 3 = _; ring
  | 3 => show some _ = some _; congr 1; show A 0 3 * v 0 + A 1 3 * v 1 + A 2 3 * v 2 + A 3 3 * v 3 = _; ring

example : transform3dnow (fun i => [1, 2, 3, (4 : Int)].getD i 0) (fun r c => [[1, 2, 3, 4], [5, 6, 7, 8], [9, 10, 11, 12], [13, 14, 15, (16 : Int)]].getD r [] |>.getD c 0) =
    [90, 100, 110, 120] := by decide +kernel

end Ustl.LinAlg
