import Verif.LinAlg.Sat
import Batteries.Data.BitVec.Lemmas
import Mathlib.Tactic.Ring
/-!
# Packed operations with MMX and SSE registers (C85)

Tuples of integers as bytes of memory, the packed operations of simd.h as the lists of instructions they are, on registers of `R` bits, and the
generic loops they replace. What an instruction does is taken from the manual of the processor. Floating point is not modelled.
-/
namespace Ustl.LinAlg.Packed
open Ustl.LinAlg

/-- The memory: a byte at every address. -/
abbrev Mem := Nat → BitVec 8

/-- The value of `w` bits at an address, low byte first. -/
def fetch (w : Nat) (m : Mem) (a : Nat) : BitVec w := BitVec.ofFnLE fun j => (m (a + j.val / 8)).getLsbD (j.val % 8)

/-- Storing a value of `w` bits. -/
def put (w : Nat) (m : Mem) (a : Nat) (v : BitVec w) : Mem := fun x => if a ≤ x ∧ x < a + w / 8 then v.extractLsb' (8 * (x - a)) 8 else m x

/-- The number an object of the type stands for. -/
def val (t : ITy) (v : BitVec t.bits) : Int := if t.sgn then v.toInt else v.toNat

/-- Element `i` of a tuple at `a`. -/
def elem (t : ITy) (m : Mem) (a i : Nat) : BitVec t.bits := fetch t.bits m (a + t.bits / 8 * i)

/-! ### The processor -/

/-- Part `i` of a register that is seen as parts of `w` bits. -/
def lane {R : Nat} (w i : Nat) (r : BitVec R) : BitVec w := r.extractLsb' (w * i) w

/-- The same operation on all the parts. -/
def lanewise {R : Nat} (w : Nat) (f : BitVec w → BitVec w → BitVec w) (x y : BitVec R) : BitVec R :=
  BitVec.ofFnLE fun j => (f (lane w (j.val / w) x) (lane w (j.val / w) y)).getLsbD (j.val % w)

/-- The instructions simd.h uses on integers. Models simd.h:269-352. -/
inductive Instr where
  /-- `paddb`, `paddw`, `paddd` -/
  | padd (w : Nat)
  /-- `psubb`, `psubw`, `psubd` -/
  | psub (w : Nat)
  | pand | por | pxor
  /-- `paddusb`, `paddsb`, `paddusw`, `paddsw` -/
  | padds (t : ITy)
  /-- `psubusb`, `psubsb`, `psubusw`, `psubsw` -/
  | psubs (t : ITy)
  /-- `pavgb`, `pavgw`: unsigned whatever the type -/
  | pavg (w : Nat)
  /-- `pminub`, `pminsw` -/
  | pmin (t : ITy)
  /-- `pmaxub`, `pmaxsw` -/
  | pmax (t : ITy)
deriving DecidableEq

/-- `instr src, dst`: the new contents of `dst`. By the manual. -/
def Instr.exec {R : Nat} : Instr → BitVec R → BitVec R → BitVec R
  | .padd w, d, s => lanewise w (fun a b => a + b) d s
  | .psub w, d, s => lanewise w (fun a b => a - b) d s
  | .pand, d, s => d &&& s
  | .por, d, s => d ||| s
  | .pxor, d, s => d ^^^ s
  | .padds t, d, s => lanewise t.bits (fun a b => BitVec.ofInt t.bits (mmxAdds t (val t a) (val t b))) d s
  | .psubs t, d, s => lanewise t.bits (fun a b => BitVec.ofInt t.bits (mmxSubs t (val t a) (val t b))) d s
  | .pavg w, d, s => lanewise w (fun a b => BitVec.ofNat w ((a.toNat + b.toNat + 1) / 2)) d s
  | .pmin t, d, s => lanewise t.bits (fun a b => if val t a ≤ val t b then a else b) d s
  | .pmax t, d, s => lanewise t.bits (fun a b => if val t b ≤ val t a then a else b) d s

/-- Two registers and the memory. -/
structure St (R : Nat) where
  mem : Mem
  r0 : BitVec R
  r1 : BitVec R

/-- A line of assembly. Models simd.h:248-267, 391-400. -/
inductive Asm where
  /-- `movq mem, %mm0` or `movups mem, %xmm0`; register 1 if `r` -/
  | load (r : Bool) (a : Nat)
  /-- `movq %mm0, mem` -/
  | store (r : Bool) (a : Nat)
  /-- `instr mem, %mm0` -/
  | op (i : Instr) (r : Bool) (a : Nat)
  /-- `pxor %mm0, %mm0` -/
  | zero

/-- One line. -/
def Asm.step {R : Nat} (s : St R) : Asm → St R
  | .load false a => { s with r0 := fetch R s.mem a }
  | .load true a => { s with r1 := fetch R s.mem a }
  | .store false a => { s with mem := put R s.mem a s.r0 }
  | .store true a => { s with mem := put R s.mem a s.r1 }
  | .op i false a => { s with r0 := i.exec s.r0 (fetch R s.mem a) }
  | .op i true a => { s with r1 := i.exec s.r1 (fetch R s.mem a) }
  | .zero => { s with r0 := 0 }

/-- All of them: the memory afterwards. -/
def exec {R : Nat} (p : List Asm) (s : St R) : Mem := (p.foldl Asm.step s).mem

/-! ### The library -/

/-- The two-operand packed operations on integers that have a hardware version. Models simd.h:149-161. -/
inductive POp where
  | plus | minus | and | or | xor | adds | subs | avg | min | max
deriving DecidableEq

/-- The instruction a specialisation uses. Models simd.h:269-352. -/
def instr (t : ITy) : POp → Option Instr
  | .plus => some (.padd t.bits)
  | .minus => some (.psub t.bits)
  | .and => some .pand
  | .or => some .por
  | .xor => some .pxor
  | .adds => if t.bits ≤ 16 then some (.padds t) else none
  | .subs => if t.bits ≤ 16 then some (.psubs t) else none
  | .avg => if t.bits ≤ 16 then some (.pavg t.bits) else none
  | .min => if t = ⟨8, false⟩ ∨ t = ⟨16, true⟩ then some (.pmin t) else none
  | .max => if t = ⟨8, false⟩ ∨ t = ⟨16, true⟩ then some (.pmax t) else none

/-- `MMX_PKOP2_SPEC`. Models simd.h:250-252. -/
def mmxOp (i : Instr) (inp out : Nat) : List Asm := [.load false out, .op i false inp, .store false out]

/-- `MMX_DBL_PKOP2_SPEC`: elements 0 and 2 of 32 bits are 8 bytes apart. Models simd.h:249, 253-255. -/
def mmxDblOp (i : Instr) (inp out : Nat) : List Asm :=
  [.load false out, .load true (out + 8), .op i false inp, .op i true (inp + 8), .store false out, .store true (out + 8)]

/-- The types of the elements. -/
def elemTypes : List ITy := [⟨8, false⟩, ⟨8, true⟩, ⟨16, false⟩, ⟨16, true⟩, ⟨32, false⟩, ⟨32, true⟩]

/-- The specialisation of `packop` for `tuple<n,T>`, if there is one. Models simd.h:269-352. -/
def special (op : POp) (t : ITy) (n inp out : Nat) : Option (List Asm) :=
  if t ∈ elemTypes ∧ n * t.bits = 64 then (instr t op).map fun i => mmxOp i inp out
  else if t ∈ elemTypes ∧ t.bits = 32 ∧ n = 4 then (instr t op).map fun i => mmxDblOp i inp out
  else none

/-- The result of a bit operation of C++ on operands that are converted to 32 bits before it, converted back. -/
def bitop (t : ITy) (f : BitVec 32 → BitVec 32 → BitVec 32) (a b : BitVec t.bits) : BitVec t.bits :=
  (f (BitVec.ofInt 32 (val t a)) (BitVec.ofInt 32 (val t b))).setWidth t.bits

/-- The function objects the generic `packop` is given: `none` if undefined. Models ufunction.h:50-51, 58-60, simd.h:87-93, uutility.h:48-55. -/
def functor (t : ITy) : POp → BitVec t.bits → BitVec t.bits → Option (BitVec t.bits)
  | .plus, a, b => (t.arith (val t a + val t b)).map (BitVec.ofInt _)
  | .minus, a, b => (t.arith (val t a - val t b)).map (BitVec.ofInt _)
  | .and, a, b => some (bitop t (fun x y => x &&& y) a b)
  | .or, a, b => some (bitop t (fun x y => x ||| y) a b)
  | .xor, a, b => some (bitop t (fun x y => x ^^^ y) a b)
  | .adds, a, b => (fpadds t (val t a) (val t b)).map (BitVec.ofInt _)
  | .subs, a, b => (fpsubs t (val t a) (val t b)).map (BitVec.ofInt _)
  | .avg, a, b => (fpavg t (val t a) (val t b)).map (BitVec.ofInt _)
  | .min, a, b => some (if val t a < val t b then a else b)
  | .max, a, b => some (if val t b < val t a then a else b)

/-- The loop of the generic `packop (op1, op2, op)`: `n` elements from `i`. Models simd.h:44-46. -/
def generic (op : POp) (t : ITy) (inp out : Nat) : Nat → Nat → Mem → Option Mem
  | 0, _, m => some m
  | n + 1, i, m =>
    match functor t op (elem t m out i) (elem t m inp i) with
    | none => none
    | some r => generic op t inp out n (i + 1) (put t.bits m (out + t.bits / 8 * i) r)

/-- `padd (op1, op2)` and so on for tuples of `n` elements at `inp` and `out`, as compiled for x86-64. Models simd.h:39-47, 119-125, 234-255. -/
def packop (op : POp) (t : ITy) (n inp out : Nat) (m : Mem) (r0 r1 : BitVec 64) : Option Mem :=
  match special op t n inp out with
  | some p => some (exec p { mem := m, r0, r1 })
  | none => generic op t inp out n 0 m

/-! ### Bytes and parts -/

theorem fetch_bit (w : Nat) (m : Mem) (a j : Nat) (h : j < w) : (fetch w m a).getLsbD j = (m (a + j / 8)).getLsbD (j % 8) := by
  rw [fetch, BitVec.getLsbD_ofFnLE, dif_pos h]

theorem lane_fetch {R w i : Nat} (m : Mem) (a : Nat) (hw : w % 8 = 0) (h : w * (i + 1) ≤ R) : lane w i (fetch R m a) = fetch w m (a + w / 8 * i) := by
  obtain ⟨k, rfl⟩ : ∃ k, w = 8 * k := ⟨w / 8, by omega⟩
  apply BitVec.eq_of_getLsbD_eq
  intro j hj
  rw [Nat.mul_add, Nat.mul_one] at h
  rw [lane, BitVec.getLsbD_extractLsb', fetch_bit _ _ _ _ (by omega), fetch_bit _ _ _ _ hj]
  simp only [hj, decide_true, Bool.true_and]
  rw [Nat.mul_assoc, show 8 * k / 8 = k by omega]
  generalize k * i = p
  rw [show (8 * p + j) / 8 = p + j / 8 by omega, show (8 * p + j) % 8 = j % 8 by omega, Nat.add_assoc]

theorem fetch_put_in {R w i : Nat} (m : Mem) (a : Nat) (v : BitVec R) (hw : w % 8 = 0) (hR : R % 8 = 0) (h : w * (i + 1) ≤ R) :
    fetch w (put R m a v) (a + w / 8 * i) = lane w i v := by
  obtain ⟨k, rfl⟩ : ∃ k, w = 8 * k := ⟨w / 8, by omega⟩
  apply BitVec.eq_of_getLsbD_eq
  intro j hj
  rw [Nat.mul_add, Nat.mul_one] at h
  rw [lane, BitVec.getLsbD_extractLsb', fetch_bit _ _ _ _ hj, show 8 * k / 8 = k by omega, put]
  rw [Nat.mul_assoc] at h ⊢
  generalize k * i = p at h ⊢
  rw [if_pos ⟨by omega, by omega⟩, BitVec.getLsbD_extractLsb', show 8 * (a + p + j / 8 - a) + j % 8 = 8 * p + j by omega]
  have : j % 8 < 8 := Nat.mod_lt _ (by decide)
  simp [hj, this]

theorem fetch_put_out {R w : Nat} (m : Mem) (a b : Nat) (v : BitVec R) (hw : w % 8 = 0) (h : b + w / 8 ≤ a ∨ a + R / 8 ≤ b) :
    fetch w (put R m a v) b = fetch w m b := by
  apply BitVec.eq_of_getLsbD_eq
  intro j hj
  rw [fetch_bit _ _ _ _ hj, fetch_bit _ _ _ _ hj, put, if_neg (by omega)]

theorem put_out {R : Nat} (m : Mem) (a x : Nat) (v : BitVec R) (h : x < a ∨ a + R / 8 ≤ x) : put R m a v x = m x := if_neg (by omega)

theorem lane_lanewise {R w i : Nat} (f : BitVec w → BitVec w → BitVec w) (x y : BitVec R) (h : w * (i + 1) ≤ R) :
    lane w i (lanewise w f x y) = f (lane w i x) (lane w i y) := by
  apply BitVec.eq_of_getLsbD_eq
  intro j hj
  rw [Nat.mul_add, Nat.mul_one] at h
  rw [lane, BitVec.getLsbD_extractLsb', lanewise, BitVec.getLsbD_ofFnLE, dif_pos (by omega)]
  have h1 : (w * i + j) / w = i := by
    rw [Nat.mul_add_div (by omega), Nat.div_eq_of_lt hj, Nat.add_zero]
  have h2 : (w * i + j) % w = j := by
    rw [Nat.mul_add_mod, Nat.mod_eq_of_lt hj]
  simp [hj, h1, h2]

/-- Memories with the same elements and the same other bytes are the same. -/
theorem mem_ext {w n : Nat} (hw : w % 8 = 0) (h0 : 0 < w) {m m' : Mem} {a : Nat} (h : ∀ i < n, fetch w m (a + w / 8 * i) = fetch w m' (a + w / 8 * i))
    (hx : ∀ x, x < a ∨ a + w / 8 * n ≤ x → m x = m' x) : m = m' := by
  funext x
  by_cases hin : x < a ∨ a + w / 8 * n ≤ x
  · exact hx x hin
  · obtain ⟨k, rfl⟩ : ∃ k, w = 8 * k := ⟨w / 8, by omega⟩
    rw [show 8 * k / 8 = k by omega] at h hx hin
    have hk : 0 < k := by omega
    have hi : (x - a) / k < n := Nat.div_lt_of_lt_mul (by omega)
    have he := h _ hi
    have hdm := Nat.div_add_mod (x - a) k
    have hm := Nat.mod_lt (x - a) hk
    apply BitVec.eq_of_getLsbD_eq
    intro b hb
    have : (fetch (8 * k) m (a + k * ((x - a) / k))).getLsbD (8 * ((x - a) % k) + b) = (fetch (8 * k) m' (a + k * ((x - a) / k))).getLsbD (8 * ((x - a) % k) + b) := by rw [he]
    rw [fetch_bit _ _ _ _ (by omega), fetch_bit _ _ _ _ (by omega)] at this
    rw [show (8 * ((x - a) % k) + b) / 8 = (x - a) % k by omega, show (8 * ((x - a) % k) + b) % 8 = b by omega,
      show a + k * ((x - a) / k) + (x - a) % k = x by omega] at this
    exact this

/-! ### What an instruction does to each element -/

/-- The function an instruction applies to each element. -/
def Instr.on (t : ITy) : Instr → Option (BitVec t.bits → BitVec t.bits → BitVec t.bits)
  | .padd w => if w = t.bits then some fun a b => a + b else none
  | .psub w => if w = t.bits then some fun a b => a - b else none
  | .pand => some fun a b => a &&& b
  | .por => some fun a b => a ||| b
  | .pxor => some fun a b => a ^^^ b
  | .padds u => if u = t then some fun a b => BitVec.ofInt t.bits (mmxAdds t (val t a) (val t b)) else none
  | .psubs u => if u = t then some fun a b => BitVec.ofInt t.bits (mmxSubs t (val t a) (val t b)) else none
  | .pavg w => if w = t.bits then some fun a b => BitVec.ofNat t.bits ((a.toNat + b.toNat + 1) / 2) else none
  | .pmin u => if u = t then some fun a b => if val t a ≤ val t b then a else b else none
  | .pmax u => if u = t then some fun a b => if val t b ≤ val t a then a else b else none

theorem lane_exec {R i : Nat} {t : ITy} {ins : Instr} {f} (hf : ins.on t = some f) (d s : BitVec R) (h : t.bits * (i + 1) ≤ R) :
    lane t.bits i (ins.exec d s) = f (lane t.bits i d) (lane t.bits i s) := by
  cases ins <;> simp only [Instr.on] at hf
  case padd w =>
    by_cases e : w = t.bits
    · subst e
      rw [if_pos rfl, Option.some.injEq] at hf
      subst hf
      rw [Instr.exec]
      exact lane_lanewise _ _ _ h
    · rw [if_neg e] at hf; cases hf
  case psub w =>
    by_cases e : w = t.bits
    · subst e
      rw [if_pos rfl, Option.some.injEq] at hf
      subst hf
      rw [Instr.exec]
      exact lane_lanewise _ _ _ h
    · rw [if_neg e] at hf; cases hf
  case pand => cases hf; simp only [Instr.exec, lane, BitVec.extractLsb'_and]
  case por => cases hf; simp only [Instr.exec, lane, BitVec.extractLsb'_or]
  case pxor => cases hf; simp only [Instr.exec, lane, BitVec.extractLsb'_xor]
  case padds w =>
    by_cases e : w = t
    · subst e
      rw [if_pos rfl, Option.some.injEq] at hf
      subst hf
      rw [Instr.exec]
      exact lane_lanewise _ _ _ h
    · rw [if_neg e] at hf; cases hf
  case psubs w =>
    by_cases e : w = t
    · subst e
      rw [if_pos rfl, Option.some.injEq] at hf
      subst hf
      rw [Instr.exec]
      exact lane_lanewise _ _ _ h
    · rw [if_neg e] at hf; cases hf
  case pavg w =>
    by_cases e : w = t.bits
    · subst e
      rw [if_pos rfl, Option.some.injEq] at hf
      subst hf
      rw [Instr.exec]
      exact lane_lanewise _ _ _ h
    · rw [if_neg e] at hf; cases hf
  case pmin w =>
    by_cases e : w = t
    · subst e
      rw [if_pos rfl, Option.some.injEq] at hf
      subst hf
      rw [Instr.exec]
      exact lane_lanewise _ _ _ h
    · rw [if_neg e] at hf; cases hf
  case pmax w =>
    by_cases e : w = t
    · subst e
      rw [if_pos rfl, Option.some.injEq] at hf
      subst hf
      rw [Instr.exec]
      exact lane_lanewise _ _ _ h
    · rw [if_neg e] at hf; cases hf

theorem instr_on {t : ITy} {op : POp} {ins : Instr} (h : instr t op = some ins) : ∃ f, ins.on t = some f := by
  cases op <;> simp only [instr] at h <;> (try split at h) <;> cases h <;> simp [Instr.on]

/-- All the elements of a tuple at `out` are replaced by `f` of them and those of the tuple at `inp`, and nothing else. -/
def Applied (t : ITy) (n : Nat) (inp out : Nat) (f : BitVec t.bits → BitVec t.bits → BitVec t.bits) (m m' : Mem) : Prop :=
  (∀ i < n, elem t m' out i = f (elem t m out i) (elem t m inp i)) ∧ ∀ x, x < out ∨ out + t.bits / 8 * n ≤ x → m' x = m x

theorem mmx_applied {R n : Nat} {t : ITy} {ins : Instr} {f} (hf : ins.on t = some f) (h8 : t.bits % 8 = 0) (hR : n * t.bits = R)
    (inp out : Nat) (s : St R) : Applied t n inp out f s.mem (exec (mmxOp ins inp out) s) := by
  have hR8 : R % 8 = 0 := by rw [← hR, Nat.mul_mod, h8]; simp
  refine ⟨fun i hi => ?_, fun x hx => ?_⟩
  · have hle : t.bits * (i + 1) ≤ R := by rw [← hR, Nat.mul_comm]; exact Nat.mul_le_mul_right _ hi
    show fetch t.bits (put R s.mem out (ins.exec (fetch R s.mem out) (fetch R s.mem inp))) _ = _
    rw [fetch_put_in _ _ _ h8 hR8 hle, lane_exec hf _ _ hle, lane_fetch _ _ h8 hle, lane_fetch _ _ h8 hle]
    rfl
  · refine put_out _ _ _ _ ?_
    have : t.bits / 8 * n = R / 8 := by
      rw [← hR, Nat.mul_comm n, Nat.mul_comm _ n, Nat.mul_comm _ n, Nat.mul_div_assoc _ (Nat.dvd_of_mod_eq_zero h8)]
    omega

theorem dbl_applied {t : ITy} {ins : Instr} {f} (hf : ins.on t = some f) (ht : t.bits = 32) (inp out : Nat) (s : St 64) :
    Applied t 4 inp out f s.mem (exec (mmxDblOp ins inp out) s) := by
  have h8 : t.bits % 8 = 0 := by omega
  have hk : t.bits / 8 = 4 := by omega
  have he : ∀ (m : Mem) (a i : Nat), elem t m (a + 8) i = elem t m a (i + 2) := by
    intro m a i
    unfold elem
    rw [hk]
    congr 1
    omega
  refine ⟨fun i hi => ?_, fun x hx => ?_⟩
  · show elem t (put 64 (put 64 s.mem out (ins.exec (fetch 64 s.mem out) (fetch 64 s.mem inp))) (out + 8)
      (ins.exec (fetch 64 s.mem (out + 8)) (fetch 64 s.mem (inp + 8)))) out i = _
    by_cases h2 : i < 2
    · have hle : t.bits * (i + 1) ≤ 64 := by rw [ht]; omega
      unfold elem
      rw [fetch_put_out _ _ _ _ h8 (by rw [hk]; omega), fetch_put_in _ _ _ h8 (by decide) hle, lane_exec hf _ _ hle, lane_fetch _ _ h8 hle,
        lane_fetch _ _ h8 hle]
    · obtain ⟨j, rfl⟩ : ∃ j, i = j + 2 := ⟨i - 2, by omega⟩
      have hle : t.bits * (j + 1) ≤ 64 := by rw [ht]; omega
      rw [← he, ← he, ← he]
      unfold elem
      rw [fetch_put_in _ _ _ h8 (by decide) hle, lane_exec hf _ _ hle, lane_fetch _ _ h8 hle, lane_fetch _ _ h8 hle]
  · rw [hk] at hx
    refine (put_out _ _ _ _ (by omega)).trans (put_out _ _ _ _ (by omega))

/-! ### The property -/

/-- What the operation is to make of two elements: sums and differences modulo the size of the type, bit by bit, the nearest value of the type, the
average rounded up, the smaller and the larger. -/
def Does (t : ITy) : POp → BitVec t.bits → BitVec t.bits → BitVec t.bits → Prop
  | .plus, a, b, r => ∃ k : Int, val t r = val t a + val t b + k * 2 ^ t.bits
  | .minus, a, b, r => ∃ k : Int, val t r = val t a - val t b + k * 2 ^ t.bits
  | .and, a, b, r => ∀ i, r.getLsbD i = (a.getLsbD i && b.getLsbD i)
  | .or, a, b, r => ∀ i, r.getLsbD i = (a.getLsbD i || b.getLsbD i)
  | .xor, a, b, r => ∀ i, r.getLsbD i = (a.getLsbD i != b.getLsbD i)
  | .adds, a, b, r => Nearest t (val t a + val t b) (val t r)
  | .subs, a, b, r => Nearest t (val t a - val t b) (val t r)
  | .avg, a, b, r => IsAvg (val t a) (val t b) (val t r)
  | .min, a, b, r => val t r = min (val t a) (val t b)
  | .max, a, b, r => val t r = max (val t a) (val t b)

theorem val_fits {t : ITy} (ht : t ∈ elemTypes) (v : BitVec t.bits) : t.Fits (val t v) := by
  have h := v.isLt
  have h1 := BitVec.two_mul_toInt_lt (x := v)
  have h2 := BitVec.le_two_mul_toInt (x := v)
  simp only [elemTypes, List.mem_cons, List.not_mem_nil, or_false] at ht
  rcases ht with rfl | rfl | rfl | rfl | rfl | rfl <;>
    simp only [ITy.Fits, ITy.min, ITy.max, val, if_true, Bool.false_eq_true, if_false] at h h1 h2 ⊢ <;> omega

theorem elem_all {t : ITy} (ht : t ∈ elemTypes) : t ∈ ITy.all := by revert t; decide

theorem val_ofInt {t : ITy} (ht : t ∈ elemTypes) {x : Int} (h : t.Fits x) : val t (BitVec.ofInt t.bits x) = x := by
  simp only [elemTypes, List.mem_cons, List.not_mem_nil, or_false] at ht
  rcases ht with rfl | rfl | rfl | rfl | rfl | rfl <;>
    simp only [ITy.Fits, ITy.min, ITy.max, val, if_true, Bool.false_eq_true, if_false, BitVec.toInt_ofInt, BitVec.toNat_ofInt] at h ⊢ <;>
    first
    | rw [Int.bmod_eq_of_le (by omega) (by omega)]
    | omega

theorem val_toNat {t : ITy} (v : BitVec t.bits) : ∃ k : Int, val t v = v.toNat + k * 2 ^ t.bits := by
  unfold val
  split
  · rw [BitVec.toInt_eq_toNat_cond]
    split
    · exact ⟨0, by simp⟩
    · exact ⟨-1, by push_cast; omega⟩
  · exact ⟨0, by simp⟩

theorem val_add {t : ITy} (a b : BitVec t.bits) : ∃ k : Int, val t (a + b) = val t a + val t b + k * 2 ^ t.bits := by
  obtain ⟨k1, h1⟩ := val_toNat a
  obtain ⟨k2, h2⟩ := val_toNat b
  obtain ⟨k3, h3⟩ := val_toNat (a + b)
  have h4 : ((a + b).toNat : Int) = a.toNat + b.toNat - (a.toNat + b.toNat) / (2 ^ t.bits) * 2 ^ t.bits := by
    rw [BitVec.toNat_add]
    push_cast
    have := Int.mul_ediv_add_emod ((a.toNat : Int) + b.toNat) (2 ^ t.bits)
    linarith
  exact ⟨k3 - k1 - k2 - (a.toNat + b.toNat) / (2 ^ t.bits), by rw [h3, h4, h1, h2]; ring⟩

theorem val_sub {t : ITy} (a b : BitVec t.bits) : ∃ k : Int, val t (a - b) = val t a - val t b + k * 2 ^ t.bits := by
  obtain ⟨k, h⟩ := val_add (a - b) b
  rw [BitVec.sub_add_cancel] at h
  exact ⟨-k, by rw [h]; ring⟩

theorem on_does {t : ITy} {op : POp} {ins : Instr} {f} (ht : t ∈ elemTypes) (h : instr t op = some ins) (hf : ins.on t = some f)
    (hs : ¬ (op = .avg ∧ t.sgn = true)) (a b : BitVec t.bits) : Does t op a b (f a b) := by
  have ha := val_fits ht a
  have hb := val_fits ht b
  have hl := (limits (elem_all ht)).1
  cases op <;> simp only [instr] at h
  case plus =>
    cases h; simp only [Instr.on, if_true] at hf; cases hf
    exact val_add a b
  case minus =>
    cases h; simp only [Instr.on, if_true] at hf; cases hf
    exact val_sub a b
  case and =>
    cases h; simp only [Instr.on] at hf; cases hf
    exact fun i => BitVec.getLsbD_and
  case or =>
    cases h; simp only [Instr.on] at hf; cases hf
    exact fun i => BitVec.getLsbD_or
  case xor =>
    cases h; simp only [Instr.on] at hf; cases hf
    exact fun i => by rw [BitVec.getLsbD_xor]
  case adds =>
    split at h <;> cases h
    simp only [Instr.on, if_true] at hf; cases hf
    have hn := mmxAdds_spec (elem_all ht) (val t a) (val t b)
    rw [Does, val_ofInt ht hn.1]
    exact hn
  case subs =>
    split at h <;> cases h
    simp only [Instr.on, if_true] at hf; cases hf
    have hn := mmxSubs_spec (elem_all ht) (val t a) (val t b)
    rw [Does, val_ofInt ht hn.1]
    exact hn
  case avg =>
    split at h <;> cases h
    simp only [Instr.on, if_true] at hf; cases hf
    have hs : t.sgn = false := by simpa using hs
    have h1 := a.isLt
    have h2 := b.isLt
    simp only [Does, IsAvg, val, hs, Bool.false_eq_true, if_false, BitVec.toNat_ofNat]
    have h3 : (a.toNat + b.toNat + 1) / 2 < 2 ^ t.bits := by omega
    rw [Nat.mod_eq_of_lt h3]
    omega
  case min =>
    split at h <;> cases h
    simp only [Instr.on, if_true] at hf; cases hf
    simp only [Does]
    split <;> omega
  case max =>
    split at h <;> cases h
    simp only [Instr.on, if_true] at hf; cases hf
    simp only [Does]
    split <;> omega

theorem bits_mod {t : ITy} (h : t ∈ elemTypes) : t.bits % 8 = 0 := by revert t; decide

theorem special_applied {op : POp} {t : ITy} {n inp out : Nat} {p : List Asm} (h : special op t n inp out = some p) (s : St 64) :
    t ∈ elemTypes ∧ ∃ ins f, instr t op = some ins ∧ ins.on t = some f ∧ Applied t n inp out f s.mem (exec p s) := by
  have h8 : t ∈ elemTypes → t.bits % 8 = 0 := bits_mod
  unfold special at h
  split at h
  · rename_i hc
    obtain ⟨ins, hi, rfl⟩ := Option.map_eq_some_iff.1 h
    obtain ⟨f, hf⟩ := instr_on hi
    exact ⟨hc.1, ins, f, hi, hf, mmx_applied hf (h8 hc.1) hc.2 inp out s⟩
  · split at h
    · rename_i hc
      obtain ⟨ins, hi, rfl⟩ := Option.map_eq_some_iff.1 h
      obtain ⟨f, hf⟩ := instr_on hi
      obtain ⟨hm, hb, rfl⟩ := hc
      exact ⟨hm, ins, f, hi, hf, dbl_applied hf hb inp out s⟩
    · cases h

/-- **C85** (partial): a packed operation with a hardware version makes of every element of the second tuple what the operation is to make of it and
the element of the first, all at once, and changes no other byte, whatever the tuples hold, wherever they are, and whatever is in the registers.
What is missing: averages of signed elements, see `packed_avg_violated`. -/
theorem packed_partial (op : POp) (t : ITy) (n inp out : Nat) (p : List Asm) (h : special op t n inp out = some p) (hs : ¬ (op = .avg ∧ t.sgn = true))
    (m : Mem) (r0 r1 : BitVec 64) : ∃ m', packop op t n inp out m r0 r1 = some m' ∧
      (∀ i < n, Does t op (elem t m out i) (elem t m inp i) (elem t m' out i)) ∧ ∀ x, x < out ∨ out + t.bits / 8 * n ≤ x → m' x = m x := by
  obtain ⟨ht, ins, f, hi, hf, ha⟩ := special_applied h { mem := m, r0, r1 }
  refine ⟨_, by rw [packop, h], fun i hi' => ?_, ha.2⟩
  rw [ha.1 i hi']
  exact on_does ht hi hf hs _ _

/-- Bytes for the examples: a tuple at 0 and one at 8. -/
def sample : Mem := fun x => [250, 1, 2, 3, 4, 5, 128, 7, 10, 20, 30, 40, 50, 60, 200, 80].getD x 0

example : ∃ m', packop .plus ⟨8, false⟩ 8 8 0 sample 5 6 = some m' ∧ (∃ k : Int, val ⟨8, false⟩ (elem ⟨8, false⟩ m' 0 0) = 250 + 10 + k * 2 ^ 8) ∧ m' 8 = 10 := by
  obtain ⟨m', h1, h2, h3⟩ := packed_partial .plus ⟨8, false⟩ 8 8 0 _ rfl (by simp) sample 5 6
  exact ⟨m', h1, h2 0 (by decide), h3 8 (by decide)⟩

/-- **C85** is false for averages of signed elements: the instruction takes them as unsigned. The average of tuples of -1 and of 1, of 8 bits, is
-128 in every element. -/
theorem packed_avg_violated (m : Mem) (r0 r1 : BitVec 64) (h1 : ∀ i < 8, val ⟨8, true⟩ (elem ⟨8, true⟩ m 0 i) = -1)
    (h2 : ∀ i < 8, val ⟨8, true⟩ (elem ⟨8, true⟩ m 8 i) = 1) :
    ∃ m', packop .avg ⟨8, true⟩ 8 8 0 m r0 r1 = some m' ∧ ∀ i < 8, val ⟨8, true⟩ (elem ⟨8, true⟩ m' 0 i) = -128 := by
  have hp : special .avg ⟨8, true⟩ 8 8 0 = some (mmxOp (.pavg 8) 8 0) := rfl
  obtain ⟨-, ins, f, hi, hf, ha⟩ := special_applied hp { mem := m, r0, r1 }
  cases hi
  cases hf
  refine ⟨_, rfl, fun i hi => ?_⟩
  have e1 : elem ⟨8, true⟩ m 0 i = 255 := BitVec.eq_of_toInt_eq (h1 i hi)
  have e2 : elem ⟨8, true⟩ m 8 i = 1 := BitVec.eq_of_toInt_eq (h2 i hi)
  rw [ha.1 i hi, e1, e2]
  decide

example : ∀ i < 8, val ⟨8, true⟩ (elem ⟨8, true⟩ (fun x => if x < 8 then 255 else 1) 0 i) = -1 := by decide +kernel
example : ∀ i < 8, val ⟨8, true⟩ (elem ⟨8, true⟩ (fun x => if x < 8 then 255 else 1) 8 i) = 1 := by decide +kernel

/-! ### The generic loop -/

/-- The tuples are the same or do not overlap. -/
def Apart (t : ITy) (n inp out : Nat) : Prop := inp = out ∨ inp + t.bits / 8 * n ≤ out ∨ out + t.bits / 8 * n ≤ inp

theorem elem_put_other {t : ITy} (h8 : t.bits % 8 = 0) (m : Mem) (a i j : Nat) (v : BitVec t.bits) (h : j ≠ i) :
    elem t (put t.bits m (a + t.bits / 8 * i) v) a j = elem t m a j := by
  refine fetch_put_out _ _ _ _ h8 ?_
  rcases Nat.lt_or_gt_of_ne h with h | h
  · left
    have := Nat.mul_le_mul_left (t.bits / 8) h
    rw [Nat.mul_succ] at this
    omega
  · right
    have := Nat.mul_le_mul_left (t.bits / 8) h
    rw [Nat.mul_succ] at this
    omega

theorem elem_put_same {t : ITy} (h8 : t.bits % 8 = 0) (m : Mem) (a i : Nat) (v : BitVec t.bits) :
    elem t (put t.bits m (a + t.bits / 8 * i) v) a i = v := by
  have := fetch_put_in (w := t.bits) (i := 0) m (a + t.bits / 8 * i) v h8 h8 (by omega)
  rw [Nat.mul_zero, Nat.add_zero] at this
  refine this.trans ?_
  apply BitVec.eq_of_getLsbD_eq
  intro j hj
  rw [lane, BitVec.getLsbD_extractLsb']
  simp [hj]

theorem generic_spec {op : POp} {t : ITy} {N inp out : Nat} (h8 : t.bits % 8 = 0) (hA : Apart t N inp out) : ∀ (n i : Nat) (m : Mem), i + n = N →
    (∀ m', generic op t inp out n i m = some m' →
      (∀ j, i ≤ j → j < N → functor t op (elem t m out j) (elem t m inp j) = some (elem t m' out j)) ∧
      (∀ j < i, elem t m' out j = elem t m out j) ∧ ∀ x, x < out ∨ out + t.bits / 8 * N ≤ x → m' x = m x) ∧
    (generic op t inp out n i m = none → ∃ j, i ≤ j ∧ j < N ∧ functor t op (elem t m out j) (elem t m inp j) = none)
  | 0, i, m, hN => by
    refine ⟨fun m' h => ?_, fun h => by simp [generic] at h⟩
    cases h
    exact ⟨fun j h1 h2 => by omega, fun j h => rfl, fun x h => rfl⟩
  | n + 1, i, m, hN => by
    rw [generic]
    cases hf : functor t op (elem t m out i) (elem t m inp i) with
    | none => exact ⟨fun m' h => (by cases h), fun _ => ⟨i, Nat.le_refl _, by omega, hf⟩⟩
    | some r =>
      obtain ⟨ih1, ih2⟩ := generic_spec h8 hA n (i + 1) (put t.bits m (out + t.bits / 8 * i) r) (by omega)
      have hi : t.bits / 8 * (i + 1) ≤ t.bits / 8 * N := Nat.mul_le_mul_left _ (by omega)
      rw [Nat.mul_add] at hi
      have hother : ∀ j, i + 1 ≤ j → j < N → functor t op (elem t (put t.bits m (out + t.bits / 8 * i) r) out j) (elem t (put t.bits m (out + t.bits / 8 * i) r) inp j) =
          functor t op (elem t m out j) (elem t m inp j) := by
        intro j h1 h2
        have hj : t.bits / 8 * (j + 1) ≤ t.bits / 8 * N := Nat.mul_le_mul_left _ (by omega)
        rw [Nat.mul_add] at hj
        rw [elem_put_other h8 _ _ _ _ _ (by omega)]
        rcases hA with rfl | hA
        · rw [elem_put_other h8 _ _ _ _ _ (by omega)]
        · congr 1
          exact fetch_put_out _ _ _ _ h8 (by omega)
      refine ⟨fun m' h => ?_, fun h => ?_⟩
      · obtain ⟨e1, e2, e3⟩ := ih1 m' h
        refine ⟨fun j h1 h2 => ?_, fun j hj => ?_, fun x hx => ?_⟩
        · rcases Nat.eq_or_lt_of_le h1 with rfl | h1
          · rw [e2 i (by omega), elem_put_same h8]
            exact hf
          · rw [← hother j h1 h2]
            exact e1 j h1 h2
        · rw [e2 j (by omega), elem_put_other h8 _ _ _ _ _ (by omega)]
        · rw [e3 x hx, put_out _ _ _ _ (by omega)]
      · obtain ⟨j, h1, h2, h3⟩ := ih2 h
        exact ⟨j, by omega, h2, (hother j (by omega) h2).symm.trans h3⟩

theorem ofInt_val {t : ITy} (v : BitVec t.bits) : BitVec.ofInt t.bits (val t v) = v := by
  unfold val
  split
  · exact BitVec.ofInt_toInt
  · exact BitVec.eq_of_toNat_eq (by simp)

theorem val_inj {t : ITy} {a b : BitVec t.bits} (h : val t a = val t b) : a = b := by rw [← ofInt_val a, h, ofInt_val]

theorem ofInt_mod (n : Nat) (x : Int) : BitVec.ofInt n (x % 2 ^ n) = BitVec.ofInt n x :=
  BitVec.eq_of_toNat_eq (by simp [BitVec.toNat_ofInt])

theorem ofInt_narrow {t : ITy} (h : t.bits ≤ 32) (a : BitVec t.bits) : (BitVec.ofInt 32 (val t a)).setWidth t.bits = a := by
  apply BitVec.eq_of_toInt_eq
  rw [BitVec.toInt_setWidth]
  conv => rhs; rw [← ofInt_val a]
  rw [BitVec.toInt_ofInt]
  rw [BitVec.toNat_ofInt]
  have hd : ((2 ^ t.bits : Nat) : Int) ∣ ((2 ^ 32 : Nat) : Int) := Int.natCast_dvd_natCast.2 (Nat.pow_dvd_pow 2 h)
  have e : ((val t a % ((2 ^ 32 : Nat) : Int)).toNat : Int) = val t a % ((2 ^ 32 : Nat) : Int) := Int.toNat_of_nonneg (Int.emod_nonneg _ (by decide))
  rw [e]
  rw [Int.bmod_def, Int.bmod_def, Int.emod_emod_of_dvd _ hd]

theorem arith_ofInt {t : ITy} {x y : Int} (h : t.arith x = some y) : BitVec.ofInt t.bits y = BitVec.ofInt t.bits x := by
  unfold ITy.arith at h
  split at h
  · cases h; rfl
  · split at h
    · split at h <;> cases h
      rfl
    · cases h
      exact ofInt_mod _ _

theorem arith_none {t : ITy} {x : Int} (h : t.arith x = none) : t.bits ≥ 32 ∧ t.sgn = true ∧ ¬ t.Fits x := by
  unfold ITy.arith at h
  split at h
  · cases h
  · split at h
    · split at h <;> cases h
      exact ⟨by omega, by assumption, by assumption⟩
    · cases h

/-- The operations whose two versions agree. -/
def POp.exact : POp → Bool
  | .adds | .subs | .avg => false
  | _ => true

theorem bits_pos {t : ITy} (h : t ∈ elemTypes) : 0 < t.bits := by revert t; decide

theorem bits_le {t : ITy} (h : t ∈ elemTypes) : t.bits ≤ 32 := by revert t; decide

theorem functor_does {t : ITy} (ht : t ∈ elemTypes) {op : POp} (he : op.exact = true) (a b r : BitVec t.bits) (h : functor t op a b = some r) : Does t op a b r := by
  have hb := bits_le ht
  cases op <;> simp only [POp.exact, Bool.false_eq_true] at he <;> simp only [functor] at h
  case plus =>
    obtain ⟨y, hy, rfl⟩ := Option.map_eq_some_iff.1 h
    rw [arith_ofInt hy, BitVec.ofInt_add, ofInt_val, ofInt_val]
    exact val_add a b
  case minus =>
    obtain ⟨y, hy, rfl⟩ := Option.map_eq_some_iff.1 h
    have e : BitVec.ofInt t.bits (val t a - val t b) + b = a := by
      conv => lhs; rhs; rw [← ofInt_val b]
      rw [← BitVec.ofInt_add, Int.sub_add_cancel, ofInt_val]
    have e' : BitVec.ofInt t.bits (val t a - val t b) = a - b := by
      generalize BitVec.ofInt t.bits (val t a - val t b) = x at e
      rw [← e, BitVec.add_sub_cancel]
    rw [arith_ofInt hy, e']
    exact val_sub a b
  case and =>
    cases h
    intro i
    rw [bitop, BitVec.setWidth_and, ofInt_narrow hb, ofInt_narrow hb, BitVec.getLsbD_and]
  case or =>
    cases h
    intro i
    rw [bitop, BitVec.setWidth_or, ofInt_narrow hb, ofInt_narrow hb, BitVec.getLsbD_or]
  case xor =>
    cases h
    intro i
    rw [bitop, BitVec.setWidth_xor, ofInt_narrow hb, ofInt_narrow hb, BitVec.getLsbD_xor]
  case min =>
    cases h
    simp only [Does]
    split <;> omega
  case max =>
    cases h
    simp only [Does]
    split <;> omega

/-- There is one such result. -/
theorem does_unique {t : ITy} {op : POp} (he : op.exact = true) {a b r r' : BitVec t.bits} (h : Does t op a b r) (h' : Does t op a b r') : r = r' := by
  have key : ∀ x : Int, (∃ k : Int, val t r = x + k * 2 ^ t.bits) → (∃ k : Int, val t r' = x + k * 2 ^ t.bits) → r = r' := by
    rintro x ⟨k, hk⟩ ⟨k', hk'⟩
    rw [← ofInt_val r, ← ofInt_val r', hk, hk', ← ofInt_mod, ← ofInt_mod _ (x + k' * _), Int.add_mul_emod_self_right, Int.add_mul_emod_self_right]
  cases op <;> simp only [POp.exact, Bool.false_eq_true] at he <;> simp only [Does] at h h'
  case plus => exact key _ h h'
  case minus => exact key _ h h'
  case and => exact BitVec.eq_of_getLsbD_eq fun i _ => (h i).trans (h' i).symm
  case or => exact BitVec.eq_of_getLsbD_eq fun i _ => (h i).trans (h' i).symm
  case xor => exact BitVec.eq_of_getLsbD_eq fun i _ => (h i).trans (h' i).symm
  case min => exact val_inj (h.trans h'.symm)
  case max => exact val_inj (h.trans h'.symm)

/-- **C85**: the packed operations without a hardware version do the same to each element, for tuples of any size that do not overlap or are the same
one, and change no other byte. The only undefined case is signed overflow of 32 bits. -/
theorem packed_loop (op : POp) (t : ITy) (n inp out : Nat) (ht : t ∈ elemTypes) (he : op.exact = true) (hA : Apart t n inp out) (m : Mem) :
    (∀ m', generic op t inp out n 0 m = some m' →
      (∀ i < n, Does t op (elem t m out i) (elem t m inp i) (elem t m' out i)) ∧ ∀ x, x < out ∨ out + t.bits / 8 * n ≤ x → m' x = m x) ∧
    (generic op t inp out n 0 m = none → t.bits = 32 ∧ t.sgn = true ∧ ∃ i < n,
      (op = .plus ∧ ¬ t.Fits (val t (elem t m out i) + val t (elem t m inp i))) ∨ (op = .minus ∧ ¬ t.Fits (val t (elem t m out i) - val t (elem t m inp i)))) := by
  obtain ⟨h1, h2⟩ := generic_spec (op := op) (bits_mod ht) hA n 0 m (by omega)
  refine ⟨fun m' h => ?_, fun h => ?_⟩
  · obtain ⟨e1, -, e3⟩ := h1 m' h
    exact ⟨fun i hi => functor_does ht he _ _ _ (e1 i (Nat.zero_le _) hi), e3⟩
  · obtain ⟨j, -, hj, hn⟩ := h2 h
    have hb := bits_le ht
    cases op <;> simp only [POp.exact, Bool.false_eq_true] at he <;> simp only [functor, Option.map_eq_none_iff] at hn
    case plus =>
      obtain ⟨h1, h2, h3⟩ := arith_none hn
      exact ⟨by omega, h2, j, hj, Or.inl ⟨rfl, h3⟩⟩
    case minus =>
      obtain ⟨h1, h2, h3⟩ := arith_none hn
      exact ⟨by omega, h2, j, hj, Or.inr ⟨rfl, h3⟩⟩
    all_goals cases hn

example : Apart ⟨16, true⟩ 3 0 8 ∧ special .plus ⟨16, true⟩ 3 0 8 = none := ⟨Or.inr (Or.inl (by decide)), rfl⟩

/-- **C85**: `padd` and the others, as they are called, on tuples for which there is no hardware version, as `packed_partial` on the others: the result of each
element is right and no other byte changes, unless a signed sum or difference of 32 bits overflows. -/
theorem packed_plain (op : POp) (t : ITy) (n inp out : Nat) (ht : t ∈ elemTypes) (he : op.exact = true) (hA : Apart t n inp out) (hs : special op t n inp out = none)
    (m : Mem) (r0 r1 : BitVec 64) (hd : t.bits = 32 → t.sgn = true → ∀ i < n, (op = .plus → t.Fits (val t (elem t m out i) + val t (elem t m inp i))) ∧
      (op = .minus → t.Fits (val t (elem t m out i) - val t (elem t m inp i)))) :
    ∃ m', packop op t n inp out m r0 r1 = some m' ∧
      (∀ i < n, Does t op (elem t m out i) (elem t m inp i) (elem t m' out i)) ∧ ∀ x, x < out ∨ out + t.bits / 8 * n ≤ x → m' x = m x := by
  obtain ⟨h1, h2⟩ := packed_loop op t n inp out ht he hA m
  unfold packop
  rw [hs]
  simp only
  cases hg : generic op t inp out n 0 m with
  | some m' => exact ⟨m', rfl, h1 m' hg⟩
  | none =>
    obtain ⟨hb, hsg, i, hi, h3⟩ := h2 hg
    have h4 := hd hb hsg i hi
    rcases h3 with ⟨ho, hf⟩ | ⟨ho, hf⟩
    · exact absurd (h4.1 ho) hf
    · exact absurd (h4.2 ho) hf

example (r0 r1 : BitVec 64) : ∃ m', packop .plus ⟨16, true⟩ 3 0 8 sample r0 r1 = some m' ∧
    (∀ i < 3, Does ⟨16, true⟩ .plus (elem ⟨16, true⟩ sample 8 i) (elem ⟨16, true⟩ sample 0 i) (elem ⟨16, true⟩ m' 8 i)) ∧ ∀ x, x < 8 ∨ 14 ≤ x → m' x = sample x :=
  packed_plain .plus ⟨16, true⟩ 3 0 8 (by decide) rfl (Or.inr (Or.inl (by decide))) rfl sample r0 r1 (fun h => absurd h (by decide))

/-- **C85**: the version for MMX and the generic one leave the same memory wherever the generic one is defined, for sums, differences, bit
operations, minima and maxima. -/
theorem builds_agree (op : POp) (t : ITy) (n inp out : Nat) (p : List Asm) (he : op.exact = true) (h : special op t n inp out = some p)
    (hA : Apart t n inp out) (m m' : Mem) (r0 r1 : BitVec 64) (hg : generic op t inp out n 0 m = some m') : packop op t n inp out m r0 r1 = some m' := by
  have ht := (special_applied h { mem := m, r0, r1 }).1
  obtain ⟨m2, hp, e2, x2⟩ := packed_partial op t n inp out p h (by rintro ⟨rfl, -⟩; cases he) m r0 r1
  obtain ⟨e1, x1⟩ := (packed_loop op t n inp out ht he hA m).1 m' hg
  rw [hp]
  congr 1
  refine mem_ext (n := n) (a := out) (bits_mod ht) (bits_pos ht) (fun i hi => does_unique he (e2 i hi) (e1 i hi)) (fun x hx => (x2 x hx).trans (x1 x hx).symm)

example : Apart ⟨8, false⟩ 8 8 0 ∧ (∃ m', generic .xor ⟨8, false⟩ 8 0 8 0 sample = some m') := ⟨Or.inr (Or.inr (by decide)), _, rfl⟩

/-- **C85** is false of the saturating operations: the generic version and the one for MMX differ. With -128 and -128 in every element the first
makes 0 of it and the second -128. -/
theorem builds_adds_violated (a : BitVec 8) (h : val ⟨8, true⟩ a = -128) : functor ⟨8, true⟩ .adds a a = some 0 ∧
    ∃ f, (Instr.padds ⟨8, true⟩).on ⟨8, true⟩ = some f ∧ f a a = a := by
  have : a = 128 := BitVec.eq_of_toInt_eq h
  subst this
  exact ⟨by decide, _, rfl, by decide⟩

/-! ### Copies, swaps and zeros -/

/-- `MMX_PASSIGN_SPEC`, `MMX_IPASSIGN_SPEC`, `SSE_PASSIGN_SPEC`, `SSE_IPASSIGN_SPEC`. Models simd.h:256-258, 262-264, 394-399. -/
def moveOp (inp out : Nat) : List Asm := [.load false inp, .store false out]

/-- `MMX_DBL_PASSIGN_SPEC`, `MMX_DBL_IPASSIGN_SPEC`. Models simd.h:259-261, 265-267. -/
def moveDblOp (inp out : Nat) : List Asm := [.load false inp, .load true (inp + 8), .store false out, .store true (out + 8)]

/-- `tuple::swap` of `SSE_TUPLE_SPECS` and `MMX_TUPLE_SPECS`; the one of `LONG_TUPLE_SPECS` has the compiler do it with a `long`.
Models utuple.h:240-245, 256-260, 275-279. -/
def swapOp (a b : Nat) : List Asm := [.load false a, .load true b, .store false b, .store true a]

/-- `tuple()` of `MMX_TUPLE_SPECS`, `SSE_TUPLE_SPECS` and `LONG_TUPLE_SPECS`: as many zero bits as the register has. Models utuple.h:236-239, 253-255, 271-273. -/
def zeroOp (a : Nat) : List Asm := [.zero, .store false a]

/-- The generic `passign` and `ipassign`: one element after another. Models simd.h:59-74. -/
def moveLoop (t : ITy) (inp out : Nat) : Nat → Nat → Mem → Mem
  | 0, _, m => m
  | n + 1, i, m => moveLoop t inp out n (i + 1) (put t.bits m (out + t.bits / 8 * i) (elem t m inp i))

/-- The tuple at `out` holds what the one at `inp` held, and no other byte has changed. -/
def Moved (t : ITy) (n inp out : Nat) (m m' : Mem) : Prop :=
  (∀ i < n, elem t m' out i = elem t m inp i) ∧ ∀ x, x < out ∨ out + t.bits / 8 * n ≤ x → m' x = m x

theorem size_eq {t : ITy} {n R : Nat} (h8 : t.bits % 8 = 0) (hR : n * t.bits = R) : t.bits / 8 * n = R / 8 := by
  rw [← hR, Nat.mul_comm n, Nat.mul_comm _ n, Nat.mul_comm _ n, Nat.mul_div_assoc _ (Nat.dvd_of_mod_eq_zero h8)]

theorem elem_put_in {t : ITy} {n R : Nat} (h8 : t.bits % 8 = 0) (hR : n * t.bits = R) (m : Mem) (a : Nat) (v : BitVec R) {i : Nat} (hi : i < n) :
    elem t (put R m a v) a i = lane t.bits i v := by
  have hR8 : R % 8 = 0 := by rw [← hR, Nat.mul_mod, h8]; simp
  have hle : t.bits * (i + 1) ≤ R := by rw [← hR, Nat.mul_comm]; exact Nat.mul_le_mul_right _ hi
  exact fetch_put_in _ _ _ h8 hR8 hle

theorem lane_elem {t : ITy} {n R : Nat} (h8 : t.bits % 8 = 0) (hR : n * t.bits = R) (m : Mem) (a : Nat) {i : Nat} (hi : i < n) :
    lane t.bits i (fetch R m a) = elem t m a i := by
  have hle : t.bits * (i + 1) ≤ R := by rw [← hR, Nat.mul_comm]; exact Nat.mul_le_mul_right _ hi
  exact lane_fetch _ _ h8 hle

theorem elem_put_out {t : ITy} {n R : Nat} (h8 : t.bits % 8 = 0) (m : Mem) (a b : Nat) (v : BitVec R) {i : Nat} (hi : i < n)
    (h : b + t.bits / 8 * n ≤ a ∨ a + R / 8 ≤ b) : elem t (put R m a v) b i = elem t m b i := by
  refine fetch_put_out _ _ _ _ h8 ?_
  have := Nat.mul_le_mul_left (t.bits / 8) hi
  rw [Nat.mul_succ] at this
  omega

/-- **C85**: copying a tuple with one register of its size, as `passign`, `ipassign`, the copy constructor and assignment do, copies every element and
nothing else, wherever the two are, even if they overlap. -/
theorem packed_copy (t : ITy) (n R inp out : Nat) (h8 : t.bits % 8 = 0) (hR : n * t.bits = R) (s : St R) : Moved t n inp out s.mem (exec (moveOp inp out) s) := by
  refine ⟨fun i hi => ?_, fun x hx => ?_⟩
  · show elem t (put R s.mem out (fetch R s.mem inp)) out i = _
    rw [elem_put_in h8 hR _ _ _ hi, lane_elem h8 hR _ _ hi]
  · exact put_out _ _ _ _ (by rw [← size_eq h8 hR]; exact hx)

example (s : St 64) : elem ⟨16, true⟩ (exec (moveOp 8 0) s) 0 2 = elem ⟨16, true⟩ s.mem 8 2 := (packed_copy ⟨16, true⟩ 4 64 8 0 (by decide) (by decide) s).1 2 (by decide)

/-- **C85**: the same for tuples of 16 bytes copied with two registers of 8, even if they overlap. -/
theorem packed_copy2 (t : ITy) (inp out : Nat) (ht : t.bits = 32) (s : St 64) : Moved t 4 inp out s.mem (exec (moveDblOp inp out) s) := by
  have h8 : t.bits % 8 = 0 := by omega
  have hk : t.bits / 8 = 4 := by omega
  have h2 : 2 * t.bits = 64 := by omega
  have he : ∀ (m : Mem) (a i : Nat), elem t m (a + 8) i = elem t m a (i + 2) := by
    intro m a i
    unfold elem
    rw [hk]
    congr 1
    omega
  refine ⟨fun i hi => ?_, fun x hx => ?_⟩
  · show elem t (put 64 (put 64 s.mem out (fetch 64 s.mem inp)) (out + 8) (fetch 64 s.mem (inp + 8))) out i = _
    by_cases hi2 : i < 2
    · rw [elem_put_out (n := 2) h8 _ _ _ _ hi2 (by rw [hk]; omega), elem_put_in h8 h2 _ _ _ hi2, lane_elem h8 h2 _ _ hi2]
    · obtain ⟨j, rfl⟩ : ∃ j, i = j + 2 := ⟨i - 2, by omega⟩
      rw [← he, ← he, elem_put_in h8 h2 _ _ _ (by omega), lane_elem h8 h2 _ _ (by omega)]
  · rw [hk] at hx
    exact (put_out _ _ _ _ (by omega)).trans (put_out _ _ _ _ (by omega))

/-- **C85**: swapping two tuples through registers swaps all the elements and changes nothing else; swapping a tuple with itself changes nothing. -/
theorem packed_swap (t : ITy) (n R a b : Nat) (h8 : t.bits % 8 = 0) (hR : n * t.bits = R) (hA : Apart t n a b) (s : St R) :
    (∀ i < n, elem t (exec (swapOp a b) s) a i = elem t s.mem b i ∧ elem t (exec (swapOp a b) s) b i = elem t s.mem a i) ∧
    ∀ x, x < a ∨ a + t.bits / 8 * n ≤ x → x < b ∨ b + t.bits / 8 * n ≤ x → exec (swapOp a b) s x = s.mem x := by
  have hs := size_eq h8 hR
  have hm : exec (swapOp a b) s = put R (put R s.mem b (fetch R s.mem a)) a (fetch R s.mem b) := rfl
  rw [hm]
  refine ⟨fun i hi => ?_, fun x h1 h2 => ?_⟩
  · rw [elem_put_in h8 hR _ _ _ hi, lane_elem h8 hR _ _ hi]
    refine ⟨rfl, ?_⟩
    rcases hA with rfl | hA
    · rw [elem_put_in h8 hR _ _ _ hi, lane_elem h8 hR _ _ hi]
    · rw [elem_put_out h8 _ _ _ _ hi (by omega), elem_put_in h8 hR _ _ _ hi, lane_elem h8 hR _ _ hi]
  · rw [put_out _ _ _ _ (by omega), put_out _ _ _ _ (by omega)]

example (s : St 128) : elem ⟨32, true⟩ (exec (swapOp 0 16) s) 0 3 = elem ⟨32, true⟩ s.mem 16 3 :=
  ((packed_swap ⟨32, true⟩ 4 128 0 16 (by decide) (by decide) (Or.inr (Or.inl (by decide))) s).1 3 (by decide)).1

/-- **C85**: a tuple made without arguments holds zeros, and no other byte has changed. -/
theorem packed_zero (t : ITy) (n R a : Nat) (h8 : t.bits % 8 = 0) (hR : n * t.bits = R) (s : St R) :
    (∀ i < n, val t (elem t (exec (zeroOp a) s) a i) = 0) ∧ ∀ x, x < a ∨ a + t.bits / 8 * n ≤ x → exec (zeroOp a) s x = s.mem x := by
  have hm : exec (zeroOp a) s = put R s.mem a 0 := rfl
  rw [hm]
  refine ⟨fun i hi => ?_, fun x hx => put_out _ _ _ _ (by rw [← size_eq h8 hR]; exact hx)⟩
  rw [elem_put_in h8 hR _ _ _ hi]
  have : lane t.bits i (0 : BitVec R) = 0 := by
    apply BitVec.eq_of_getLsbD_eq
    intro j hj
    rw [lane, BitVec.getLsbD_extractLsb']
    simp
  rw [this]
  unfold val
  split <;> simp

example (s : St 64) : val ⟨8, true⟩ (elem ⟨8, true⟩ (exec (zeroOp 24) s) 24 7) = 0 := (packed_zero ⟨8, true⟩ 8 64 24 (by decide) (by decide) s).1 7 (by decide)

theorem moveLoop_spec {t : ITy} {N inp out : Nat} (h8 : t.bits % 8 = 0) (hA : out ≤ inp ∨ inp + t.bits / 8 * N ≤ out) : ∀ (n i : Nat) (m : Mem), i + n = N →
    (∀ j, i ≤ j → j < N → elem t (moveLoop t inp out n i m) out j = elem t m inp j) ∧
    (∀ j < i, elem t (moveLoop t inp out n i m) out j = elem t m out j) ∧ ∀ x, x < out ∨ out + t.bits / 8 * N ≤ x → moveLoop t inp out n i m x = m x
  | 0, i, m, hN => ⟨fun j h1 h2 => by omega, fun j h => rfl, fun x h => rfl⟩
  | n + 1, i, m, hN => by
    obtain ⟨e1, e2, e3⟩ := moveLoop_spec h8 hA n (i + 1) (put t.bits m (out + t.bits / 8 * i) (elem t m inp i)) (by omega)
    have hi : t.bits / 8 * (i + 1) ≤ t.bits / 8 * N := Nat.mul_le_mul_left _ (by omega)
    rw [Nat.mul_add] at hi
    rw [moveLoop]
    refine ⟨fun j h1 h2 => ?_, fun j hj => ?_, fun x hx => ?_⟩
    · rcases Nat.eq_or_lt_of_le h1 with rfl | h1
      · rw [e2 i (by omega), elem_put_same h8]
      · rw [e1 j h1 h2]
        have hj : t.bits / 8 * (j + 1) ≤ t.bits / 8 * N := Nat.mul_le_mul_left _ (by omega)
        have hj2 := Nat.mul_le_mul_left (t.bits / 8) h1
        rw [Nat.mul_add] at hj
        rw [Nat.mul_succ] at hj2
        exact fetch_put_out _ _ _ _ h8 (by omega)
    · rw [e2 j (by omega), elem_put_other h8 _ _ _ _ _ (by omega)]
    · rw [e3 x hx, put_out _ _ _ _ (by omega)]

/-- **C85**: the generic copies do the same for tuples of any size, if the destination does not begin inside the source. -/
theorem packed_copy_loop (t : ITy) (n inp out : Nat) (h8 : t.bits % 8 = 0) (hA : out ≤ inp ∨ inp + t.bits / 8 * n ≤ out) (m : Mem) :
    Moved t n inp out m (moveLoop t inp out n 0 m) := by
  obtain ⟨e1, -, e3⟩ := moveLoop_spec h8 hA n 0 m (by omega)
  exact ⟨fun i hi => e1 i (Nat.zero_le _) hi, e3⟩

example : Moved ⟨16, true⟩ 3 2 0 sample (moveLoop ⟨16, true⟩ 2 0 3 0 sample) := packed_copy_loop ⟨16, true⟩ 3 2 0 (by decide) (Or.inl (by decide)) sample

/-- **C85** is false if it does: `tuple<3,int16_t>` filled with `ipassign` from two bytes before it has copies of one element, while the version of
four elements, with a register, is right. -/
theorem copy_overlap_violated (m : Mem) : (∀ i < 3, elem ⟨16, true⟩ (moveLoop ⟨16, true⟩ 0 2 3 0 m) 2 i = elem ⟨16, true⟩ m 0 0) ∧
    ∀ s : St 64, Moved ⟨16, true⟩ 4 0 2 s.mem (exec (moveOp 0 2) s) := by
  refine ⟨?_, fun s => packed_copy ⟨16, true⟩ 4 64 0 2 (by decide) (by decide) s⟩
  have h8 : (ITy.mk 16 true).bits % 8 = 0 := by decide
  have hd : ∀ m i, elem ⟨16, true⟩ m 0 (i + 1) = elem ⟨16, true⟩ m 2 i := by
    intro m i
    unfold elem
    congr 1
    show 0 + 16 / 8 * (i + 1) = 2 + 16 / 8 * i
    omega
  have h1 : moveLoop ⟨16, true⟩ 0 2 3 0 m = put 16 (put 16 (put 16 m (2 + 16 / 8 * 0) (elem ⟨16, true⟩ m 0 0)) (2 + 16 / 8 * 1)
      (elem ⟨16, true⟩ (put 16 m (2 + 16 / 8 * 0) (elem ⟨16, true⟩ m 0 0)) 0 1)) (2 + 16 / 8 * 2)
      (elem ⟨16, true⟩ (put 16 (put 16 m (2 + 16 / 8 * 0) (elem ⟨16, true⟩ m 0 0)) (2 + 16 / 8 * 1)
      (elem ⟨16, true⟩ (put 16 m (2 + 16 / 8 * 0) (elem ⟨16, true⟩ m 0 0)) 0 1)) 0 2) := rfl
  have s0 : ∀ m v i, elem ⟨16, true⟩ (put 16 m (2 + 16 / 8 * i) v) 2 i = v := fun m v i => elem_put_same (t := ⟨16, true⟩) h8 m 2 i v
  have so : ∀ m v i j, j ≠ i → elem ⟨16, true⟩ (put 16 m (2 + 16 / 8 * i) v) 2 j = elem ⟨16, true⟩ m 2 j := fun m v i j h => elem_put_other (t := ⟨16, true⟩) h8 m 2 i j v h
  rw [h1]
  intro i hi
  rcases (by omega : i = 0 ∨ i = 1 ∨ i = 2) with rfl | rfl | rfl
  · rw [so _ _ _ _ (by decide), so _ _ _ _ (by decide), s0]
  · rw [so _ _ _ _ (by decide), s0, hd, s0]
  · rw [s0, hd, s0, hd, s0]

end Ustl.LinAlg.Packed
