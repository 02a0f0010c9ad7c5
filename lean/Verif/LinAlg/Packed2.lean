import Verif.LinAlg.Packed
/-!
# Packed operations on floats, conversions, 4x4 matrices and pairs of 16 bits (C93)

What one addition, comparison or conversion of the processor makes of a float is not modelled: the theorems hold for every choice of these functions.
What is modelled is which elements they are given and where the results go. The 3DNow! versions (simd.h:355-368) are not modelled.
-/
namespace Ustl.LinAlg.Packed

/-! ### The processor -/

/-- What the processor makes of single floats, 32 bits each. Any functions. -/
structure Fpu where
  add : BitVec 32 → BitVec 32 → BitVec 32
  sub : BitVec 32 → BitVec 32 → BitVec 32
  mul : BitVec 32 → BitVec 32 → BitVec 32
  div : BitVec 32 → BitVec 32 → BitVec 32
  /-- `a < b`: false if one is not a number -/
  lt : BitVec 32 → BitVec 32 → Bool
  /-- to the nearest integer, as `cvtps2pi` and `cvtss2si` -/
  toInt : BitVec 32 → BitVec 32
  /-- a float of an integer, as `cvtpi2ps` -/
  ofInt : BitVec 32 → BitVec 32

/-- The operations on floats simd.h has instructions for. Models simd.h:405-413. -/
inductive FOp where
  | plus | minus | multiplies | divides | and | or | xor | max | min
deriving DecidableEq

/-- `addps` and so on, for one element of the destination and one of the source. By the manual: `minps` and `maxps` give the source unless the
comparison holds. -/
def Fpu.ps (F : Fpu) : FOp → BitVec 32 → BitVec 32 → BitVec 32
  | .plus, d, s => F.add d s
  | .minus, d, s => F.sub d s
  | .multiplies, d, s => F.mul d s
  | .divides, d, s => F.div d s
  | .and, d, s => d &&& s
  | .or, d, s => d ||| s
  | .xor, d, s => d ^^^ s
  | .max, d, s => if F.lt s d then d else s
  | .min, d, s => if F.lt d s then d else s

/-- A register made of parts. -/
def join (R w : Nat) (f : Nat → BitVec w) : BitVec R := BitVec.ofFnLE fun j => (f (j.val / w)).getLsbD (j.val % w)

/-- Registers and memory. -/
structure Sse where
  mem : Mem
  x0 : BitVec 128
  x1 : BitVec 128
  m0 : BitVec 64
  m1 : BitVec 64

/-- A line of assembly. Models simd.h:393-395, 416-419, 424-427, umatrix.h:82-104. -/
inductive FAsm where
  /-- `movups mem, %xmm0`; `%xmm1` if `r` -/
  | load (r : Bool) (a : Nat)
  /-- `movups %xmm0, mem` -/
  | store (r : Bool) (a : Nat)
  /-- `addps %xmm1, %xmm0` and so on -/
  | arith (o : FOp)
  /-- `cvtps2pi mem, %mm0` -/
  | cvtps2pi (r : Bool) (a : Nat)
  /-- `movq %mm0, mem` -/
  | movq (r : Bool) (a : Nat)
  /-- `cvtpi2ps mem, %xmm0`: the upper half stays -/
  | cvtpi2ps (a : Nat)
  /-- `shufps $imm, %xmm0, %xmm0` -/
  | shufps (imm : Nat)
  /-- `xorps %xmm0, %xmm0` -/
  | zero

/-- One line. By the manual. -/
def FAsm.step (F : Fpu) (s : Sse) : FAsm → Sse
  | .load false a => { s with x0 := fetch 128 s.mem a }
  | .load true a => { s with x1 := fetch 128 s.mem a }
  | .store false a => { s with mem := put 128 s.mem a s.x0 }
  | .store true a => { s with mem := put 128 s.mem a s.x1 }
  | .arith o => { s with x0 := join 128 32 fun i => F.ps o (lane 32 i s.x0) (lane 32 i s.x1) }
  | .cvtps2pi false a => { s with m0 := join 64 32 fun i => F.toInt (fetch 32 s.mem (a + 4 * i)) }
  | .cvtps2pi true a => { s with m1 := join 64 32 fun i => F.toInt (fetch 32 s.mem (a + 4 * i)) }
  | .movq false a => { s with mem := put 64 s.mem a s.m0 }
  | .movq true a => { s with mem := put 64 s.mem a s.m1 }
  | .cvtpi2ps a => { s with x0 := join 128 32 fun i => if i < 2 then F.ofInt (fetch 32 s.mem (a + 4 * i)) else lane 32 i s.x0 }
  | .shufps imm => { s with x0 := join 128 32 fun i => lane 32 (imm / 4 ^ i % 4) s.x0 }
  | .zero => { s with x0 := 0 }

/-- All of them: the memory afterwards. -/
def fexec (F : Fpu) (p : List FAsm) (s : Sse) : Mem := (p.foldl (FAsm.step F) s).mem

/-! ### The library -/

/-- `SSE_PKOP2_SPEC`. Models simd.h:392-395, 405-413. -/
def sseOp (o : FOp) (inp out : Nat) : List FAsm := [.load false out, .load true inp, .arith o, .store false out]

/-- `pconvert` of four floats to `int32_t` with `fround`. Models simd.h:249, 415-422. -/
def roundOp (inp out : Nat) : List FAsm := [.cvtps2pi false inp, .cvtps2pi true (inp + 4 * 2), .movq false out, .movq true (out + 4 * 2)]

/-- `pconvert` of four `int32_t` to floats. Models simd.h:423-429. -/
def floatOp (inp out : Nat) : List FAsm := [.cvtpi2ps (inp + 4 * 2), .shufps 0x4E, .cvtpi2ps inp, .store false out]

/-- `passign` of 16 elements of 32 bits: 4x4 matrices. Models umatrix.h:90-107. -/
def move16 (inp out : Nat) : List FAsm :=
  [.load false inp, .load true (inp + 4 * 4), .store false out, .store true (out + 4 * 4),
   .load false (inp + 4 * 8), .load true (inp + 4 * 12), .store false (out + 4 * 8), .store true (out + 4 * 12)]

/-- `tuple<16,T>()`. Models umatrix.h:81-89. -/
def zero16 (a : Nat) : List FAsm := [.zero, .store false a, .store false (a + 4 * 4), .store false (a + 4 * 8), .store false (a + 4 * 12)]

/-- The function objects for floats: `plus`, `minus`, `multiplies`, `divides`, `fpmax`, `fpmin`; those of bits do not compile for floats, and
only the packed version exists. Models ufunction.h:50-54, simd.h:91-92, uutility.h:48-55. -/
def ffunctor (F : Fpu) : FOp → Option (BitVec 32 → BitVec 32 → BitVec 32)
  | .plus => some F.add
  | .minus => some F.sub
  | .multiplies => some F.mul
  | .divides => some F.div
  | .max => some fun a b => if F.lt b a then a else b
  | .min => some fun a b => if F.lt a b then a else b
  | _ => none

/-- The loop of the generic `packop` with a function object: `n` elements from `i`. Models simd.h:39-47. -/
def floop (f : BitVec 32 → BitVec 32 → BitVec 32) (inp out : Nat) : Nat → Nat → Mem → Mem
  | 0, _, m => m
  | n + 1, i, m => floop f inp out n (i + 1) (put 32 m (out + 4 * i) (f (fetch 32 m (out + 4 * i)) (fetch 32 m (inp + 4 * i))))

/-- The loop of the generic `pconvert`, between elements of `w` and of `v` bits. Models simd.h:76-84, 140-147. -/
def convLoop {w v : Nat} (f : BitVec w → BitVec v) (inp out : Nat) : Nat → Nat → Mem → Mem
  | 0, _, m => m
  | n + 1, i, m => convLoop f inp out n (i + 1) (put v m (out + v / 8 * i) (f (fetch w m (inp + w / 8 * i))))

/-! ### Lemmas -/

theorem lane_join {R w i : Nat} (f : Nat → BitVec w) (h : w * (i + 1) ≤ R) : lane w i (join R w f) = f i := by
  apply BitVec.eq_of_getLsbD_eq
  intro j hj
  have hw : 0 < w := by omega
  have e : w * i + j < R := by rw [Nat.mul_succ] at h; omega
  rw [lane, BitVec.getLsbD_extractLsb', join, BitVec.getLsbD_ofFnLE]
  simp only [hj, decide_true, Bool.true_and, e, dif_pos]
  rw [Nat.mul_add_div hw, Nat.div_eq_of_lt hj, Nat.mul_add_mod, Nat.mod_eq_of_lt hj]
  rfl

/-- Float or integer `i` of a tuple at `a`. -/
def word (m : Mem) (a i : Nat) : BitVec 32 := fetch 32 m (a + 4 * i)

theorem word_put128 (m : Mem) (a : Nat) (v : BitVec 128) {i : Nat} (hi : i < 4) : word (put 128 m a v) a i = lane 32 i v :=
  fetch_put_in (w := 32) (i := i) m a v (by decide) (by decide) (by omega)

theorem word_put64 (m : Mem) (a : Nat) (v : BitVec 64) {i : Nat} (hi : i < 2) : word (put 64 m a v) a i = lane 32 i v :=
  fetch_put_in (w := 32) (i := i) m a v (by decide) (by decide) (by omega)

theorem word_put_out {R : Nat} (m : Mem) (a b i : Nat) (v : BitVec R) (h : b + 4 * i + 4 ≤ a ∨ a + R / 8 ≤ b + 4 * i) :
    word (put R m a v) b i = word m b i := fetch_put_out _ _ _ _ (by decide) h

theorem lane_word (m : Mem) (a : Nat) {i : Nat} (hi : i < 4) : lane 32 i (fetch 128 m a) = word m a i :=
  lane_fetch (w := 32) (i := i) m a (by decide) (by omega)

theorem word_add (m : Mem) (a i k : Nat) : word m (a + 4 * k) i = word m a (k + i) := by
  unfold word
  congr 1
  omega

/-! ### The property -/

/-- **C93**: a packed operation on four floats makes of every element of the second exactly what the instruction makes of the two elements, the bit
operations included, and changes no other byte; also if the two are one or overlap. -/
theorem float_packed (F : Fpu) (o : FOp) (inp out : Nat) (s : Sse) :
    (∀ i < 4, word (fexec F (sseOp o inp out) s) out i =
      match o with
      | .plus => F.add (word s.mem out i) (word s.mem inp i)
      | .minus => F.sub (word s.mem out i) (word s.mem inp i)
      | .multiplies => F.mul (word s.mem out i) (word s.mem inp i)
      | .divides => F.div (word s.mem out i) (word s.mem inp i)
      | .and => word s.mem out i &&& word s.mem inp i
      | .or => word s.mem out i ||| word s.mem inp i
      | .xor => word s.mem out i ^^^ word s.mem inp i
      | .max => if F.lt (word s.mem inp i) (word s.mem out i) then word s.mem out i else word s.mem inp i
      | .min => if F.lt (word s.mem out i) (word s.mem inp i) then word s.mem out i else word s.mem inp i) ∧
    ∀ x, x < out ∨ out + 16 ≤ x → fexec F (sseOp o inp out) s x = s.mem x := by
  have hm : fexec F (sseOp o inp out) s = put 128 s.mem out (join 128 32 fun i => F.ps o (lane 32 i (fetch 128 s.mem out)) (lane 32 i (fetch 128 s.mem inp))) := by simp only [fexec, sseOp, List.foldl, FAsm.step]
  rw [hm]
  refine ⟨fun i hi => ?_, fun x hx => put_out _ _ _ _ hx⟩
  rw [word_put128 _ _ _ hi, lane_join _ (by omega), lane_word _ _ hi, lane_word _ _ hi]
  cases o <;> rfl

theorem floop_spec {f : BitVec 32 → BitVec 32 → BitVec 32} {N inp out : Nat} (hA : inp = out ∨ inp + 4 * N ≤ out ∨ out + 4 * N ≤ inp) :
    ∀ (n i : Nat) (m : Mem), i + n = N →
    (∀ j, i ≤ j → j < N → word (floop f inp out n i m) out j = f (word m out j) (word m inp j)) ∧
    (∀ j < i, word (floop f inp out n i m) out j = word m out j) ∧ ∀ x, x < out ∨ out + 4 * N ≤ x → floop f inp out n i m x = m x
  | 0, i, m, hN => ⟨fun j h1 h2 => by omega, fun j h => rfl, fun x h => rfl⟩
  | n + 1, i, m, hN => by
    obtain ⟨e1, e2, e3⟩ := floop_spec (f := f) hA n (i + 1) (put 32 m (out + 4 * i) (f (fetch 32 m (out + 4 * i)) (fetch 32 m (inp + 4 * i)))) (by omega)
    have hs : word (put 32 m (out + 4 * i) (f (fetch 32 m (out + 4 * i)) (fetch 32 m (inp + 4 * i)))) out i = f (word m out i) (word m inp i) := by
      have := elem_put_same (t := ⟨32, true⟩) (by decide) m out i (f (fetch 32 m (out + 4 * i)) (fetch 32 m (inp + 4 * i)))
      exact this
    rw [floop]
    refine ⟨fun j h1 h2 => ?_, fun j hj => ?_, fun x hx => ?_⟩
    · rcases Nat.eq_or_lt_of_le h1 with rfl | h1
      · rw [e2 i (by omega), hs]
      · rw [e1 j h1 h2, word_put_out _ _ _ _ _ (by omega), word_put_out _ _ _ _ _ (by omega)]
    · rw [e2 j (by omega), word_put_out _ _ _ _ _ (by omega)]
    · rw [e3 x hx, put_out _ _ _ _ (by omega)]

/-- **C93**: a build with SSE and the loop of a build without leave the same memory, for tuples that do not partly overlap: the minimum and the maximum
too, whatever the comparison says of numbers that are not any. -/
theorem float_builds_agree (F : Fpu) (o : FOp) (f : BitVec 32 → BitVec 32 → BitVec 32) (hf : ffunctor F o = some f) (inp out : Nat)
    (hA : inp = out ∨ inp + 16 ≤ out ∨ out + 16 ≤ inp) (s : Sse) : fexec F (sseOp o inp out) s = floop f inp out 4 0 s.mem := by
  obtain ⟨a1, a2⟩ := float_packed F o inp out s
  obtain ⟨b1, -, b3⟩ := floop_spec (f := f) (N := 4) (inp := inp) (out := out) hA 4 0 s.mem rfl
  refine mem_ext (w := 32) (n := 4) (a := out) (by decide) (by decide) (fun i hi => ?_) (fun x hx => ?_)
  · refine (a1 i hi).trans ?_
    refine Eq.trans ?_ (b1 i (Nat.zero_le _) hi).symm
    cases o <;> (unfold ffunctor at hf; first | (injection hf with hf; subst hf; rfl) | cases hf)
  · rw [a2 x hx, b3 x hx]

/-- A processor for examples: floats that are integers. -/
def toyFpu : Fpu := { add := (· + ·), sub := (· - ·), mul := (· * ·), div := fun a b => BitVec.ofInt 32 (a.toInt / b.toInt), lt := fun a b => a.toInt < b.toInt, toInt := fun a => a + 1, ofInt := fun a => a - 1 }

example (s : Sse) : fexec toyFpu (sseOp .minus 16 0) s = floop (· - ·) 16 0 4 0 s.mem := float_builds_agree toyFpu .minus _ rfl 16 0 (Or.inr (Or.inr (by decide))) s
example (s : Sse) : word (fexec toyFpu (sseOp .minus 16 0) s) 0 2 = word s.mem 0 2 - word s.mem 16 2 := (float_packed toyFpu .minus 16 0 s).1 2 (by decide)

/-- **C93**: rounding four floats to integers with `pround` puts the rounded element `i` at place `i`, and changes no other byte, wherever the two
tuples are. -/
theorem round_packed (F : Fpu) (inp out : Nat) (s : Sse) :
    (∀ i < 4, word (fexec F (roundOp inp out) s) out i = F.toInt (word s.mem inp i)) ∧
    ∀ x, x < out ∨ out + 16 ≤ x → fexec F (roundOp inp out) s x = s.mem x := by
  have hm : fexec F (roundOp inp out) s = put 64 (put 64 s.mem out (join 64 32 fun i => F.toInt (word s.mem inp i))) (out + 8)
      (join 64 32 fun i => F.toInt (word s.mem (inp + 8) i)) := by simp only [fexec, roundOp, List.foldl, FAsm.step, word]
  rw [hm]
  refine ⟨fun i hi => ?_, fun x hx => ?_⟩
  · by_cases h2 : i < 2
    · rw [word_put_out _ _ _ _ _ (by omega), word_put64 _ _ _ h2, lane_join _ (by omega)]
    · obtain ⟨j, rfl⟩ : ∃ j, i = 2 + j := ⟨i - 2, by omega⟩
      rw [← word_add _ _ j 2, word_put64 _ _ _ (by omega), lane_join _ (by omega), ← word_add _ _ j 2]
  · exact (put_out _ _ _ _ (by omega)).trans (put_out _ _ _ _ (by omega))

example (s : Sse) : word (fexec toyFpu (roundOp 16 0) s) 0 3 = word s.mem 16 3 + 1 := (round_packed toyFpu 16 0 s).1 3 (by decide)

/-- **C93**: the same for four integers made floats. -/
theorem float_of_int_packed (F : Fpu) (inp out : Nat) (s : Sse) :
    (∀ i < 4, word (fexec F (floatOp inp out) s) out i = F.ofInt (word s.mem inp i)) ∧
    ∀ x, x < out ∨ out + 16 ≤ x → fexec F (floatOp inp out) s x = s.mem x := by
  have hm : fexec F (floatOp inp out) s = put 128 s.mem out (join 128 32 fun i => if i < 2 then F.ofInt (word s.mem inp i) else
      lane 32 i (join 128 32 fun i => lane 32 (0x4E / 4 ^ i % 4) (join 128 32 fun i => if i < 2 then F.ofInt (word s.mem (inp + 8) i) else lane 32 i s.x0))) := by simp only [fexec, floatOp, List.foldl, FAsm.step, word]
  rw [hm]
  refine ⟨fun i hi => ?_, fun x hx => put_out _ _ _ _ hx⟩
  rw [word_put128 _ _ _ hi, lane_join _ (by omega)]
  rcases (by omega : i = 0 ∨ i = 1 ∨ i = 2 ∨ i = 3) with rfl | rfl | rfl | rfl
  · rfl
  · rfl
  · rw [if_neg (by decide), lane_join _ (by decide), lane_join _ (by decide), if_pos (by decide)]
    exact congrArg F.ofInt (word_add _ _ 0 2)
  · rw [if_neg (by decide), lane_join _ (by decide), lane_join _ (by decide), if_pos (by decide)]
    exact congrArg F.ofInt (word_add _ _ 1 2)

example (s : Sse) : word (fexec toyFpu (floatOp 16 0) s) 0 2 = word s.mem 16 2 - 1 := (float_of_int_packed toyFpu 16 0 s).1 2 (by decide)

theorem convLoop_spec {w v : Nat} {f : BitVec w → BitVec v} {N inp out : Nat} (hw : w % 8 = 0) (hv : v % 8 = 0)
    (hA : (w = v ∧ out ≤ inp) ∨ inp + w / 8 * N ≤ out ∨ out + v / 8 * N ≤ inp) :
    ∀ (n i : Nat) (m : Mem), i + n = N →
    (∀ j, i ≤ j → j < N → fetch v (convLoop f inp out n i m) (out + v / 8 * j) = f (fetch w m (inp + w / 8 * j))) ∧
    (∀ j < i, fetch v (convLoop f inp out n i m) (out + v / 8 * j) = fetch v m (out + v / 8 * j)) ∧
    ∀ x, x < out ∨ out + v / 8 * N ≤ x → convLoop f inp out n i m x = m x
  | 0, i, m, hN => ⟨fun j h1 h2 => by omega, fun j h => rfl, fun x h => rfl⟩
  | n + 1, i, m, hN => by
    obtain ⟨e1, e2, e3⟩ := convLoop_spec (f := f) hw hv hA n (i + 1) (put v m (out + v / 8 * i) (f (fetch w m (inp + w / 8 * i)))) (by omega)
    have hi : v / 8 * (i + 1) ≤ v / 8 * N := Nat.mul_le_mul_left _ (by omega)
    rw [Nat.mul_add] at hi
    rw [convLoop]
    refine ⟨fun j h1 h2 => ?_, fun j hj => ?_, fun x hx => ?_⟩
    · rcases Nat.eq_or_lt_of_le h1 with rfl | h1
      · rw [e2 i (by omega)]
        exact elem_put_same (t := ⟨v, true⟩) hv m out i _
      · rw [e1 j h1 h2]
        have hj : w / 8 * (j + 1) ≤ w / 8 * N := Nat.mul_le_mul_left _ (by omega)
        have hj2 := Nat.mul_le_mul_left (v / 8) h1
        rw [Nat.mul_add] at hj
        rw [Nat.mul_succ] at hj2
        congr 1
        refine fetch_put_out _ _ _ _ hw ?_
        rcases hA with ⟨rfl, hA⟩ | hA | hA <;> omega
    · rw [e2 j (by omega)]
      exact elem_put_other (t := ⟨v, true⟩) hv m out i j _ (by omega)
    · rw [e3 x hx, put_out _ _ _ _ (by omega)]

/-- **C93**: the generic `pconvert`, for elements and tuples of any sizes, puts at every place what the conversion makes of the element there, and
changes nothing else, if the two are apart, or the elements are of one size and the destination does not begin after the source. -/
theorem convert_loop {w v : Nat} (f : BitVec w → BitVec v) (n inp out : Nat) (hw : w % 8 = 0) (hv : v % 8 = 0)
    (hA : (w = v ∧ out ≤ inp) ∨ inp + w / 8 * n ≤ out ∨ out + v / 8 * n ≤ inp) (m : Mem) :
    (∀ i < n, fetch v (convLoop f inp out n 0 m) (out + v / 8 * i) = f (fetch w m (inp + w / 8 * i))) ∧
    ∀ x, x < out ∨ out + v / 8 * n ≤ x → convLoop f inp out n 0 m x = m x := by
  obtain ⟨e1, -, e3⟩ := convLoop_spec (f := f) hw hv hA n 0 m (by omega)
  exact ⟨fun i hi => e1 i (Nat.zero_le _) hi, e3⟩

example (m : Mem) : fetch 32 (convLoop (fun b : BitVec 8 => b.setWidth 32) 0 4 3 0 m) 12 = (fetch 8 m 2).setWidth 32 :=
  (convert_loop (fun b : BitVec 8 => b.setWidth 32) 3 0 4 (by decide) (by decide) (Or.inr (Or.inl (by decide))) m).1 2 (by decide)

/-- **C93**: a 4x4 matrix of floats or 32-bit integers is copied whole and nothing else is changed, if the destination does not begin inside the source. -/
theorem matrix_copy (F : Fpu) (inp out : Nat) (hA : out ≤ inp ∨ inp + 64 ≤ out) (s : Sse) :
    (∀ i < 16, word (fexec F (move16 inp out) s) out i = word s.mem inp i) ∧
    ∀ x, x < out ∨ out + 64 ≤ x → fexec F (move16 inp out) s x = s.mem x := by
  have hm : fexec F (move16 inp out) s =
      let m := put 128 (put 128 s.mem out (fetch 128 s.mem inp)) (out + 4 * 4) (fetch 128 s.mem (inp + 4 * 4))
      put 128 (put 128 m (out + 4 * 8) (fetch 128 m (inp + 4 * 8))) (out + 4 * 12) (fetch 128 m (inp + 4 * 12)) := by simp only [fexec, move16, List.foldl, FAsm.step]
  rw [hm]
  refine ⟨fun i hi => ?_, fun x hx => ?_⟩
  · obtain ⟨q, r, hr, rfl⟩ : ∃ q r, r < 4 ∧ i = 4 * q + r := ⟨i / 4, i % 4, by omega, by omega⟩
    rcases (by omega : q = 0 ∨ q = 1 ∨ q = 2 ∨ q = 3) with rfl | rfl | rfl | rfl
    · rw [word_put_out _ _ _ _ _ (by omega), word_put_out _ _ _ _ _ (by omega), word_put_out _ _ _ _ _ (by omega), Nat.mul_zero, Nat.zero_add,
        word_put128 _ _ _ hr, lane_word _ _ hr]
    · rw [word_put_out _ _ _ _ _ (by omega), word_put_out _ _ _ _ _ (by omega), ← word_add _ _ r (4 * 1), word_put128 _ _ _ hr, lane_word _ _ hr, word_add]
    · rw [word_put_out _ _ _ _ _ (by omega), ← word_add _ _ r (4 * 2), word_put128 _ _ _ hr, lane_word _ _ hr, word_add,
        word_put_out _ _ _ _ _ (by omega), word_put_out _ _ _ _ _ (by omega)]
    · rw [← word_add _ _ r (4 * 3), word_put128 _ _ _ hr, lane_word _ _ hr, word_add, word_put_out _ _ _ _ _ (by omega), word_put_out _ _ _ _ _ (by omega)]
  · rw [put_out _ _ _ _ (by omega), put_out _ _ _ _ (by omega), put_out _ _ _ _ (by omega), put_out _ _ _ _ (by omega)]

example (s : Sse) : word (fexec toyFpu (move16 4 0) s) 0 15 = word s.mem 4 15 := (matrix_copy toyFpu 4 0 (Or.inl (by decide)) s).1 15 (by decide)

/-- **C93**: one made without arguments holds zeros. -/
theorem matrix_zero (F : Fpu) (a : Nat) (s : Sse) :
    (∀ i < 16, word (fexec F (zero16 a) s) a i = 0) ∧ ∀ x, x < a ∨ a + 64 ≤ x → fexec F (zero16 a) s x = s.mem x := by
  have hm : fexec F (zero16 a) s = put 128 (put 128 (put 128 (put 128 s.mem a 0) (a + 4 * 4) 0) (a + 4 * 8) 0) (a + 4 * 12) 0 := by simp only [fexec, zero16, List.foldl, FAsm.step]
  have hz : ∀ i, lane 32 i (0 : BitVec 128) = 0 := by
    intro i
    apply BitVec.eq_of_getLsbD_eq
    intro j hj
    rw [lane, BitVec.getLsbD_extractLsb']
    simp
  rw [hm]
  refine ⟨fun i hi => ?_, fun x hx => ?_⟩
  · obtain ⟨q, r, hr, rfl⟩ : ∃ q r, r < 4 ∧ i = 4 * q + r := ⟨i / 4, i % 4, by omega, by omega⟩
    rcases (by omega : q = 0 ∨ q = 1 ∨ q = 2 ∨ q = 3) with rfl | rfl | rfl | rfl
    · rw [word_put_out _ _ _ _ _ (by omega), word_put_out _ _ _ _ _ (by omega), word_put_out _ _ _ _ _ (by omega), Nat.mul_zero, Nat.zero_add,
        word_put128 _ _ _ hr, hz]
    · rw [word_put_out _ _ _ _ _ (by omega), word_put_out _ _ _ _ _ (by omega), ← word_add _ _ r (4 * 1), word_put128 _ _ _ hr, hz]
    · rw [word_put_out _ _ _ _ _ (by omega), ← word_add _ _ r (4 * 2), word_put128 _ _ _ hr, hz]
    · rw [← word_add _ _ r (4 * 3), word_put128 _ _ _ hr, hz]
  · rw [put_out _ _ _ _ (by omega), put_out _ _ _ _ (by omega), put_out _ _ _ _ (by omega), put_out _ _ _ _ (by omega)]

example (s : Sse) : word (fexec toyFpu (zero16 100) s) 100 15 = 0 := (matrix_zero toyFpu 100 s).1 15 (by decide)

/-- **C93** is false of a matrix copied to one that begins inside it: element 8 comes out as element 0. -/
theorem matrix_copy_violated (F : Fpu) (s : Sse) (h : word s.mem 0 8 ≠ word s.mem 0 0) : word (fexec F (move16 0 32) s) 32 8 ≠ word s.mem 0 8 := by
  have hm : fexec F (move16 0 32) s =
      let m := put 128 (put 128 s.mem 32 (fetch 128 s.mem 0)) (32 + 4 * 4) (fetch 128 s.mem (0 + 4 * 4))
      put 128 (put 128 m (32 + 4 * 8) (fetch 128 m (0 + 4 * 8))) (32 + 4 * 12) (fetch 128 m (0 + 4 * 12)) := by simp only [fexec, move16, List.foldl, FAsm.step]
  rw [hm]
  have e : word (let m := put 128 (put 128 s.mem 32 (fetch 128 s.mem 0)) (32 + 4 * 4) (fetch 128 s.mem (0 + 4 * 4))
      put 128 (put 128 m (32 + 4 * 8) (fetch 128 m (0 + 4 * 8))) (32 + 4 * 12) (fetch 128 m (0 + 4 * 12))) 32 8 = word s.mem 0 0 := by
    rw [word_put_out _ _ _ _ _ (by omega), ← word_add _ _ 0 8, word_put128 _ _ _ (by decide), lane_word _ _ (by decide)]
    rw [word_put_out _ _ _ _ _ (by omega)]
    show word (put 128 s.mem 32 (fetch 128 s.mem 0)) 32 0 = _
    rw [word_put128 _ _ _ (by decide), lane_word _ _ (by decide)]
  rw [e]
  exact h.symm

example : word (fun x => if x = 32 then 1 else 0) 0 8 ≠ word (fun x => if x = 32 then 1 else 0) 0 0 := by
  intro h
  have h := congrArg (fun v : BitVec 32 => v.getLsbD 0) h
  simp only [word] at h
  rw [fetch_bit _ _ _ _ (by decide), fetch_bit _ _ _ _ (by decide)] at h
  exact absurd h (by decide)

/-! ### Pairs of 16 bits -/

/-- `tuple<2,int16_t>()`, one 32-bit word of zero. Models utuple.h:292-295. -/
def zero2 (a : Nat) (m : Mem) : Mem := put 32 m a 0

/-- Assignment and copy construction, also from the type of the other sign. Models utuple.h:296-311. -/
def assign2 (inp out : Nat) (m : Mem) : Mem := put 32 m out (fetch 32 m inp)

/-- `swap`: `iter_swap` of two 32-bit words. Models utuple.h:312-315, ualgobase.h:52-68. -/
def swap2 (a b : Nat) (m : Mem) : Mem :=
  let m' := put 32 m a (fetch 32 m b)
  put 32 m' b (fetch 32 m a)

/-- `t1 += t2` and `t1 -= t2`: the sum is computed as an `int` and stored in 16 bits. Models utuple.h:316-319. -/
def upd2 (t : ITy) (op : Int → Int → Int) (a b : Nat) (m : Mem) : Mem :=
  let m' := put t.bits m a (BitVec.ofInt t.bits (op (val t (elem t m a 0)) (val t (elem t m b 0))))
  put t.bits m' (a + t.bits / 8 * 1) (BitVec.ofInt t.bits (op (val t (elem t m' a 1)) (val t (elem t m' b 1))))

/-- `t1 + t2` and `t1 - t2`, constructed at `out`. Models utuple.h:320-323, 123-128. -/
def new2 (t : ITy) (op : Int → Int → Int) (a b out : Nat) (m : Mem) : Mem :=
  let v0 := BitVec.ofInt t.bits (op (val t (elem t m a 0)) (val t (elem t m b 0)))
  let v1 := BitVec.ofInt t.bits (op (val t (elem t m a 1)) (val t (elem t m b 1)))
  put t.bits (put t.bits m out v0) (out + t.bits / 8 * 1) v1

/-- `t1 += t2`. Models utuple.h:316-317. -/
def plusEq (t : ITy) : Nat → Nat → Mem → Mem := upd2 t fun x y => x + y

/-- `t1 -= t2`. Models utuple.h:318-319. -/
def minusEq (t : ITy) : Nat → Nat → Mem → Mem := upd2 t fun x y => x - y

/-- `t1 + t2`. Models utuple.h:320-321. -/
def plus2 (t : ITy) : Nat → Nat → Nat → Mem → Mem := new2 t fun x y => x + y

/-- `t1 - t2`. Models utuple.h:322-323. -/
def minus2 (t : ITy) : Nat → Nat → Nat → Mem → Mem := new2 t fun x y => x - y

theorem val_ofInt_mod {t : ITy} (x : Int) : ∃ k : Int, val t (BitVec.ofInt t.bits x) = x + k * 2 ^ t.bits := by
  obtain ⟨k, hk⟩ := val_toNat (BitVec.ofInt t.bits x)
  refine ⟨k - x / 2 ^ t.bits, ?_⟩
  rw [hk, BitVec.toNat_ofInt]
  have h2 : (0 : Int) < 2 ^ t.bits := by exact_mod_cast Nat.two_pow_pos t.bits
  have hn : (((x % ((2 ^ t.bits : Nat) : Int)).toNat : Nat) : Int) = x % 2 ^ t.bits := by
    rw [Int.toNat_of_nonneg (Int.emod_nonneg _ (by push_cast; omega))]
    push_cast
    rfl
  rw [hn]
  have := Int.emod_add_mul_ediv x (2 ^ t.bits)
  rw [Int.sub_mul, Int.mul_comm (x / _)]
  omega

theorem upd2_spec (t : ITy) (ht : t = ⟨16, true⟩ ∨ t = ⟨16, false⟩) (op : Int → Int → Int) (a b : Nat) (hA : a = b ∨ a + 4 ≤ b ∨ b + 4 ≤ a) (m : Mem) :
    (∀ i < 2, ∃ k : Int, val t (elem t (upd2 t op a b m) a i) = op (val t (elem t m a i)) (val t (elem t m b i)) + k * 65536) ∧
    ∀ x, x < a ∨ a + 4 ≤ x → upd2 t op a b m x = m x := by
  have hb : t.bits = 16 := by rcases ht with rfl | rfl <;> rfl
  have h8 : t.bits % 8 = 0 := by rw [hb]
  have hk : t.bits / 8 = 2 := by rw [hb]
  have hp : (2 : Int) ^ t.bits = 65536 := by rw [hb]; rfl
  have he0 : ∀ (m : Mem) v, elem t (put t.bits m a v) a 0 = v := fun m v => by
    have := elem_put_same h8 m a 0 v
    rwa [Nat.mul_zero, Nat.add_zero] at this
  have ho : ∀ (m : Mem) c v, c = a ∨ a + 4 ≤ c ∨ c + 4 ≤ a → elem t (put t.bits m a v) c 1 = elem t m c 1 := by
    intro m c v h
    refine fetch_put_out _ _ _ _ h8 ?_
    rw [hk]
    omega
  unfold upd2
  refine ⟨fun i hi => ?_, fun x hx => ?_⟩
  · rcases (by omega : i = 0 ∨ i = 1) with rfl | rfl
    · rw [elem_put_other h8 _ _ _ _ _ (by decide), he0]
      obtain ⟨k, hk⟩ := val_ofInt_mod (t := t) (op (val t (elem t m a 0)) (val t (elem t m b 0)))
      exact ⟨k, by rw [hk, hp]⟩
    · rw [elem_put_same h8, ho _ _ _ (Or.inl rfl), ho _ _ _ (by omega)]
      obtain ⟨k, hk⟩ := val_ofInt_mod (t := t) (op (val t (elem t m a 1)) (val t (elem t m b 1)))
      exact ⟨k, by rw [hk, hp]⟩
  · rw [hk]
    rw [put_out _ _ _ _ (by rw [hk]; omega), put_out _ _ _ _ (by rw [hk]; omega)]

theorem new2_spec (t : ITy) (ht : t = ⟨16, true⟩ ∨ t = ⟨16, false⟩) (op : Int → Int → Int) (a b out : Nat) (m : Mem) :
    (∀ i < 2, ∃ k : Int, val t (elem t (new2 t op a b out m) out i) = op (val t (elem t m a i)) (val t (elem t m b i)) + k * 65536) ∧
    ∀ x, x < out ∨ out + 4 ≤ x → new2 t op a b out m x = m x := by
  have hb : t.bits = 16 := by rcases ht with rfl | rfl <;> rfl
  have h8 : t.bits % 8 = 0 := by rw [hb]
  have hk : t.bits / 8 = 2 := by rw [hb]
  have hp : (2 : Int) ^ t.bits = 65536 := by rw [hb]; rfl
  have he0 : ∀ (m : Mem) v, elem t (put t.bits m out v) out 0 = v := fun m v => by
    have := elem_put_same h8 m out 0 v
    rwa [Nat.mul_zero, Nat.add_zero] at this
  unfold new2
  refine ⟨fun i hi => ?_, fun x hx => ?_⟩
  · rcases (by omega : i = 0 ∨ i = 1) with rfl | rfl
    · rw [elem_put_other h8 _ _ _ _ _ (by decide), he0]
      obtain ⟨k, hk⟩ := val_ofInt_mod (t := t) (op (val t (elem t m a 0)) (val t (elem t m b 0)))
      exact ⟨k, by rw [hk, hp]⟩
    · rw [elem_put_same h8]
      obtain ⟨k, hk⟩ := val_ofInt_mod (t := t) (op (val t (elem t m a 1)) (val t (elem t m b 1)))
      exact ⟨k, by rw [hk, hp]⟩
  · rw [hk]
    rw [put_out _ _ _ _ (by rw [hk]; omega), put_out _ _ _ _ (by rw [hk]; omega)]

/-- **C93**: `+=` and `-=` of pairs of 16 bits make of both elements the sum or the difference modulo 65536, also `t += t`, and change nothing else. -/
theorem pair_update (t : ITy) (ht : t = ⟨16, true⟩ ∨ t = ⟨16, false⟩) (a b : Nat) (hA : a = b ∨ a + 4 ≤ b ∨ b + 4 ≤ a) (m : Mem) :
    (∀ i < 2, (∃ k : Int, val t (elem t (plusEq t a b m) a i) = val t (elem t m a i) + val t (elem t m b i) + k * 65536) ∧
      ∃ k : Int, val t (elem t (minusEq t a b m) a i) = val t (elem t m a i) - val t (elem t m b i) + k * 65536) ∧
    ∀ x, x < a ∨ a + 4 ≤ x → plusEq t a b m x = m x ∧ minusEq t a b m x = m x :=
  ⟨fun i hi => ⟨(upd2_spec t ht _ a b hA m).1 i hi, (upd2_spec t ht _ a b hA m).1 i hi⟩,
   fun x hx => ⟨(upd2_spec t ht _ a b hA m).2 x hx, (upd2_spec t ht _ a b hA m).2 x hx⟩⟩

example (m : Mem) : ∃ k : Int, val ⟨16, true⟩ (elem ⟨16, true⟩ (plusEq ⟨16, true⟩ 8 8 m) 8 1) =
    val ⟨16, true⟩ (elem ⟨16, true⟩ m 8 1) + val ⟨16, true⟩ (elem ⟨16, true⟩ m 8 1) + k * 65536 :=
  ((pair_update ⟨16, true⟩ (Or.inl rfl) 8 8 (Or.inl rfl) m).1 1 (by decide)).1

/-- **C93**: `t1 + t2` and `t1 - t2` are the same in a new pair, wherever the operands are. -/
theorem pair_new (t : ITy) (ht : t = ⟨16, true⟩ ∨ t = ⟨16, false⟩) (a b out : Nat) (m : Mem) :
    (∀ i < 2, (∃ k : Int, val t (elem t (plus2 t a b out m) out i) = val t (elem t m a i) + val t (elem t m b i) + k * 65536) ∧
      ∃ k : Int, val t (elem t (minus2 t a b out m) out i) = val t (elem t m a i) - val t (elem t m b i) + k * 65536) ∧
    ∀ x, x < out ∨ out + 4 ≤ x → plus2 t a b out m x = m x ∧ minus2 t a b out m x = m x :=
  ⟨fun i hi => ⟨(new2_spec t ht _ a b out m).1 i hi, (new2_spec t ht _ a b out m).1 i hi⟩,
   fun x hx => ⟨(new2_spec t ht _ a b out m).2 x hx, (new2_spec t ht _ a b out m).2 x hx⟩⟩

example (m : Mem) : ∃ k : Int, val ⟨16, false⟩ (elem ⟨16, false⟩ (minus2 ⟨16, false⟩ 0 4 2 m) 2 0) =
    val ⟨16, false⟩ (elem ⟨16, false⟩ m 0 0) - val ⟨16, false⟩ (elem ⟨16, false⟩ m 4 0) + k * 65536 :=
  ((pair_new ⟨16, false⟩ (Or.inr rfl) 0 4 2 m).1 0 (by decide)).2

/-- **C93**: assigning a pair of 16 bits to one of the same or the other sign gives both elements the value modulo 65536, the same value if the type is
the same, and changes nothing else. -/
theorem pair_assign (t u : ITy) (ht : t = ⟨16, true⟩ ∨ t = ⟨16, false⟩) (hu : u = ⟨16, true⟩ ∨ u = ⟨16, false⟩) (inp out : Nat) (m : Mem) :
    (∀ i < 2, (∃ k : Int, val t (elem t (assign2 inp out m) out i) = val u (elem u m inp i) + k * 65536) ∧
      (t = u → val t (elem t (assign2 inp out m) out i) = val u (elem u m inp i))) ∧
    ∀ x, x < out ∨ out + 4 ≤ x → assign2 inp out m x = m x := by
  have h16 : ∀ i < 2, fetch 16 (assign2 inp out m) (out + 2 * i) = fetch 16 m (inp + 2 * i) := by
    intro i hi
    have h1 : fetch 16 (assign2 inp out m) (out + 2 * i) = lane 16 i (fetch 32 m inp) := fetch_put_in (w := 16) (i := i) m out _ (by decide) (by decide) (by omega)
    rw [h1]
    exact lane_fetch (w := 16) (i := i) m inp (by decide) (by omega)
  refine ⟨fun i hi => ?_, fun x hx => put_out _ _ _ _ hx⟩
  have key : ∀ (v : BitVec 16), (∃ k : Int, v.toInt = (v.toNat : Int) + k * 65536) ∧ ∃ k : Int, (v.toNat : Int) = v.toInt + k * 65536 := by
    intro v
    rw [BitVec.toInt_eq_toNat_cond]
    split
    · exact ⟨⟨0, by omega⟩, ⟨0, by omega⟩⟩
    · exact ⟨⟨-1, by simp; omega⟩, ⟨1, by simp⟩⟩
  have := h16 i hi
  rcases ht with rfl | rfl <;> rcases hu with rfl | rfl
  · have e : val ⟨16, true⟩ (elem ⟨16, true⟩ (assign2 inp out m) out i) = val ⟨16, true⟩ (elem ⟨16, true⟩ m inp i) := congrArg BitVec.toInt this
    exact ⟨⟨0, by rw [e]; omega⟩, fun _ => e⟩
  · have e : val ⟨16, true⟩ (elem ⟨16, true⟩ (assign2 inp out m) out i) = (fetch 16 m (inp + 2 * i)).toInt := congrArg BitVec.toInt this
    exact ⟨by rw [e]; exact (key _).1, fun h => absurd h (by decide)⟩
  · have e : val ⟨16, false⟩ (elem ⟨16, false⟩ (assign2 inp out m) out i) = ((fetch 16 m (inp + 2 * i)).toNat : Int) := congrArg (fun v : BitVec 16 => (v.toNat : Int)) this
    exact ⟨by rw [e]; exact (key _).2, fun h => absurd h (by decide)⟩
  · have e : val ⟨16, false⟩ (elem ⟨16, false⟩ (assign2 inp out m) out i) = val ⟨16, false⟩ (elem ⟨16, false⟩ m inp i) := congrArg (fun v : BitVec 16 => (v.toNat : Int)) this
    exact ⟨⟨0, by rw [e]; omega⟩, fun _ => e⟩

example (m : Mem) : val ⟨16, true⟩ (elem ⟨16, true⟩ (assign2 0 2 m) 2 1) = val ⟨16, true⟩ (elem ⟨16, true⟩ m 0 1) :=
  ((pair_assign ⟨16, true⟩ ⟨16, true⟩ (Or.inl rfl) (Or.inl rfl) 0 2 m).1 1 (by decide)).2 rfl

/-- **C93**: `swap` of pairs of 16 bits swaps both elements, and changes nothing else; swapping a pair with itself changes nothing. -/
theorem pair_swap (t : ITy) (ht : t = ⟨16, true⟩ ∨ t = ⟨16, false⟩) (a b : Nat) (hA : a = b ∨ a + 4 ≤ b ∨ b + 4 ≤ a) (m : Mem) :
    (∀ i < 2, elem t (swap2 a b m) a i = elem t m b i ∧ elem t (swap2 a b m) b i = elem t m a i) ∧
    ∀ x, x < a ∨ a + 4 ≤ x → x < b ∨ b + 4 ≤ x → swap2 a b m x = m x := by
  have hb : t.bits = 16 := by rcases ht with rfl | rfl <;> rfl
  have h8 : t.bits % 8 = 0 := by rw [hb]
  have hk : t.bits / 8 = 2 := by rw [hb]
  have h2 : 2 * t.bits = 32 := by rw [hb]
  unfold swap2
  refine ⟨fun i hi => ⟨?_, ?_⟩, fun x h1 h2 => by rw [put_out _ _ _ _ h2, put_out _ _ _ _ h1]⟩
  · rcases hA with rfl | hA
    · rw [elem_put_in h8 h2 _ _ _ hi, lane_elem h8 h2 _ _ hi]
    · rw [elem_put_out (n := 2) h8 _ _ _ _ hi (by rw [hk]; omega), elem_put_in h8 h2 _ _ _ hi, lane_elem h8 h2 _ _ hi]
  · rw [elem_put_in h8 h2 _ _ _ hi, lane_elem h8 h2 _ _ hi]

example (m : Mem) : elem ⟨16, true⟩ (swap2 0 4 m) 4 1 = elem ⟨16, true⟩ m 0 1 := ((pair_swap ⟨16, true⟩ (Or.inl rfl) 0 4 (Or.inr (Or.inl (by decide))) m).1 1 (by decide)).2

/-- **C93**: a pair made without arguments holds zeros. -/
theorem pair_zero (t : ITy) (ht : t = ⟨16, true⟩ ∨ t = ⟨16, false⟩) (a : Nat) (m : Mem) :
    (∀ i < 2, val t (elem t (zero2 a m) a i) = 0) ∧ ∀ x, x < a ∨ a + 4 ≤ x → zero2 a m x = m x := by
  have hb : t.bits = 16 := by rcases ht with rfl | rfl <;> rfl
  have h8 : t.bits % 8 = 0 := by rw [hb]
  have h2 : 2 * t.bits = 32 := by rw [hb]
  refine ⟨fun i hi => ?_, fun x hx => put_out _ _ _ _ hx⟩
  unfold zero2
  rw [elem_put_in h8 h2 _ _ _ hi]
  have : lane t.bits i (0 : BitVec 32) = 0 := by
    apply BitVec.eq_of_getLsbD_eq
    intro j hj
    rw [lane, BitVec.getLsbD_extractLsb']
    simp
  rw [this]
  unfold val
  split <;> simp

example (m : Mem) : val ⟨16, true⟩ (elem ⟨16, true⟩ (zero2 6 m) 6 1) = 0 := (pair_zero ⟨16, true⟩ (Or.inl rfl) 6 m).1 1 (by decide)

end Ustl.LinAlg.Packed
