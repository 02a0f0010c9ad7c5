import Verif.Basic
/-!
# Tuples, arrays and matrices: the model

A `tuple<N,T>`, an `array<T,N>` and a `matrix<NX,NY,T>` is the list of its elements; element `[r][c]` of a matrix is number
`r * NX + c`. Reads and writes are checked: `none` is an access outside the object. The element type is any type with the
operations needed; machine arithmetic is covered when it is a ring (unsigned and wrapping integers), floating point only as far as
its operations are those of a ring.
-/
namespace Ustl.LinAlg
variable {α : Type _} {σ : Type _}

/-- `for (i = i0; n rounds; ++ i) body`. -/
def loopFrom (f : Nat → σ → Option σ) : Nat → Nat → σ → Option σ
  | _, 0, s => some s
  | i, n + 1, s => do
    let s ← f i s
    loopFrom f (i + 1) n s

/-- `for (i = 0; i < n; ++ i) body`. -/
def loop (n : Nat) (f : Nat → σ → Option σ) (s : σ) : Option σ := loopFrom f 0 n s

/-- `fill_n (first, count, value)` with `first` at `i`. Models ualgobase.h:144-150. -/
def fillN (v : α) (i n : Nat) (l : List α) : Option (List α) := loopFrom (fun i l => wr l i v) i n l

/-- A new object, whose memory contains anything, and `tuple()`. Models utuple.h:115-121. -/
def tupleNew [Zero α] (mem : List α) : Option (List α) := fillN 0 0 mem.length mem

/-- `operator+= (const_reference v)` and its like; `v` is not an element of the tuple.
Models utuple.h:56-63, uarray.h:70-73. -/
def opScalar (op : α → α → α) (v : α) (t : List α) : Option (List α) :=
  loop t.length (fun i t => do let a ← rd t i; wr t i (op a v)) t

/-- The same when `v` is a reference to element `k` of the tuple. Models utuple.h:56-63, uarray.h:70-73. -/
def opScalarRef (op : α → α → α) (k : Nat) (t : List α) : Option (List α) :=
  loop t.length (fun i t => do let a ← rd t i; let v ← rd t k; wr t i (op a v)) t

/-- `operator+ (const_reference v) const` and its like, `r` is the result. Models utuple.h:64-71, uarray.h:74-77. -/
def opScalarNew (op : α → α → α) (v : α) (t r : List α) : Option (List α) :=
  loop t.length (fun i r => do let a ← rd t i; wr r i (op a v)) r

/-- `t1 += t2` and its like. Models utuple.h:185-199, uarray.h:104-118. -/
def opAssign (op : α → α → α) (t1 t2 : List α) : Option (List α) :=
  loop t1.length (fun i t => do let a ← rd t i; let b ← rd t2 i; wr t i (op a b)) t1

/-- `t1 + t2` and its like, `r` is the result. Models utuple.h:201-231, uarray.h:120-150. -/
def opNew (op : α → α → α) (t1 t2 r : List α) : Option (List α) :=
  loop t1.length (fun i r => do let a ← rd t1 i; let b ← rd t2 i; wr r i (op a b)) r

/-- `t1 == t2`. Models utuple.h:167-174, uarray.h:86-93. -/
def tupleEqFrom [DecidableEq α] (t1 t2 : List α) : Nat → Nat → Option Bool
  | _, 0 => some true
  | i, n + 1 => do
    let a ← rd t1 i
    let b ← rd t2 i
    if a ≠ b then some false else tupleEqFrom t1 t2 (i + 1) n

/-- `t1 < t2`. Models utuple.h:176-183, uarray.h:95-102. -/
def tupleLtFrom [LT α] [LE α] [DecidableLT α] [DecidableLE α] (t1 t2 : List α) : Nat → Nat → Option Bool
  | _, 0 => some false
  | i, n + 1 => do
    let a ← rd t1 i
    let b ← rd t2 i
    if a ≤ b then (if a < b then some true else tupleLtFrom t1 t2 (i + 1) n) else some false

/-- `t.swap (v)`. Models utuple.h:72-73; `array::swap` does the same, ualgo.h:17-22. -/
def tupleSwap (t v : List α) : Option (List α × List α) :=
  loop t.length (fun i (t, v) => do
    let a ← rd t i
    let b ← rd v i
    let t ← wr t i b
    let v ← wr v i a
    some (t, v)) (t, v)

/-- `tuple (v0)`, `tuple (v0, v1)`, ...: the first are stored, and the last fills the rest; `N - 1` and so on are of type `size_t`.
Models utuple.h:119-145. -/
def tupleOf (mem : List α) : List α → Option (List α)
  | [v0] => fillN v0 0 mem.length mem
  | [v0, v1] => do
    let m ← wr mem 0 v0
    fillN v1 1 ((mem.length + 2 ^ 64 - 1) % 2 ^ 64) m
  | [v0, v1, v2] => do
    let m ← wr mem 0 v0
    let m ← wr m 1 v1
    fillN v2 2 ((mem.length + 2 ^ 64 - 2) % 2 ^ 64) m
  | [v0, v1, v2, v3] => do
    let m ← wr mem 0 v0
    let m ← wr m 1 v1
    let m ← wr m 2 v2
    fillN v3 3 ((mem.length + 2 ^ 64 - 3) % 2 ^ 64) m
  | _ => some mem

/-- `assign (initializer_list)`. Models utuple.h:148-155. -/
def tupleAssign [Zero α] (mem v : List α) : Option (List α) := do
  let isz := min v.length mem.length
  let m ← loop isz (fun i m => do let a ← rd v i; wr m i a) mem
  fillN 0 isz (mem.length - isz) m

/-- `tuple += { ... }` and its like. Models utuple.h:83-90. -/
def tupleOpList (op : α → α → α) (t v : List α) : Option (List α) :=
  loop (min t.length v.length) (fun i t => do let a ← rd t i; let b ← rd v i; wr t i (op a b)) t

/-- `array += { ... }` and its like. Models uarray.h:33-36. -/
def arrayOpList (op : α → α → α) (t v : List α) : Option (List α) :=
  loop t.length (fun i t => do let a ← rd t i; let b ← rd v i; wr t i (op a b)) t

/-! ## Matrices -/

/-- `m[r][c]`. Models umatrix.h:41-44. -/
def at_ (nx : Nat) (m : List α) (r c : Nat) : Option α := rd m (r * nx + c)

/-- `m[r][c] = v`. Models umatrix.h:41-44. -/
def put (nx : Nat) (m : List α) (r c : Nat) (v : α) : Option (List α) := wr m (r * nx + c) v

/-- `swap (m[x][y], m[y][x])`. Models ualgobase.h:52-57. -/
def swapAt (n : Nat) (m : List α) (x y : Nat) : Option (List α) := iterSwap m (x * n + y) (y * n + x)

/-- The diagonal loop of `load_identity`, the pointer at `i`. Models ulaalgo.h:18-19. -/
def diagLoop [One α] (step : Nat) (hs : 0 < step) (i : Nat) (m : List α) : Option (List α) :=
  if _h : i < m.length then do
    let m' ← wr m i 1
    if m'.length = m.length then diagLoop step hs (i + step) m' else none
  else some m
termination_by m.length - i
decreasing_by omega

/-- `load_identity (m)`. The test of the length in the loop is always true (`wr` keeps it). Models ulaalgo.h:14-20. -/
def loadIdentity [Zero α] [One α] (nx ny : Nat) (m : List α) : Option (List α) := do
  let m ← fillN 0 0 (nx * ny) m
  diagLoop (nx + 1) (Nat.succ_pos _) 0 m

/-- The inner loop of the product: `dpv += m1[ry][x] * m2[x][rx]`. Models ulaalgo.h:30-32. -/
def dot [Zero α] [Add α] [Mul α] (nx ny : Nat) (m1 m2 : List α) (ry rx : Nat) : Option α :=
  loop nx (fun x dpv => do
    let a ← at_ nx m1 ry x
    let b ← at_ ny m2 x rx
    some (dpv + a * b)) 0

/-- `m1 * m2`, with `m1` a `matrix<NX,NY,T>`, `m2` a `matrix<NY,NX,T>`, `mr` the memory of the result.
Models ulaalgo.h:24-37. -/
def mul [Zero α] [Add α] [Mul α] (nx ny : Nat) (m1 m2 mr : List α) : Option (List α) := do
  let mr ← tupleNew mr
  loop ny (fun ry mr => loop ny (fun rx mr => do
    let dpv ← dot nx ny m1 m2 ry rx
    put ny mr ry rx dpv) mr) mr

/-- The inner loop of `t * m`. Models ulaalgo.h:46-48. -/
def dotT [Zero α] [Add α] [Mul α] (nx ny : Nat) (t m : List α) (x : Nat) : Option α :=
  loop ny (fun y dpv => do
    let a ← rd t y
    let b ← at_ nx m y x
    some (dpv + a * b)) 0

/-- `t * m`. Models ulaalgo.h:41-52. -/
def transform [Zero α] [Add α] [Mul α] (nx ny : Nat) (t m tr : List α) : Option (List α) := do
  let tr ← tupleNew tr
  loop nx (fun x tr => do
    let dpv ← dotT nx ny t m x
    wr tr x dpv) tr

/-- `transpose (m)`. Models ulaalgo.h:56-62. -/
def transpose (n : Nat) (m : List α) : Option (List α) :=
  loop n (fun x m => loopFrom (fun y m => swapAt n m x y) x (n - x) m) m

/-- `m.row (r)`: `tuple (const_pointer)`. Models umatrix.h:45, utuple.h:111-113, simd.h:69-74. -/
def row (nx : Nat) (m : List α) (r : Nat) (t : List α) : Option (List α) :=
  loop nx (fun i t => do let a ← rd m (r * nx + i); wr t i a) t

/-- `m.column (c)`; `src` is the offset of the pointer. Models umatrix.h:66-74. -/
def column [Zero α] (nx ny : Nat) (m : List α) (c : Nat) (t : List α) : Option (List α) := do
  let t ← tupleNew t
  let (t, _) ← loop ny (fun i (t, src) => do
    let a ← rd m src
    let t ← wr t i a
    some (t, src + nx)) (t, c)
  some t

/-! ## Packed operations of simd.h -/

/-- `packop (op1, op2, op)`: `*i2 = op (*i2, *i1)`. Models simd.h:39-47. -/
def packop2 (op : α → α → α) (op1 op2 : List α) : Option (List α) :=
  loop op2.length (fun i r => do let a ← rd op1 i; let b ← rd r i; wr r i (op b a)) op2

/-- `packop (op1, op)`: the value `op` returns is not stored. Models simd.h:31-36. -/
def packop1 (op : α → α) (op1 : List α) : Option (List α) :=
  loop op1.length (fun i r => do let a ← rd r i; let _ := op a; some r) op1

/-- `passign (op1, result)`. Models simd.h:59-66. -/
def passign (op1 result : List α) : Option (List α) :=
  loop op1.length (fun i r => do let a ← rd op1 i; wr r i a) result

end Ustl.LinAlg
