/-!
# Byte-level copy, fill and rotate primitives (ualgobase.h, ualgobase.cc)

Memory is an address space: a map from integer addresses to cells, `none` meaning "not mapped". A load
or store at an unmapped address makes the whole operation `none` (a fault). Pointers are the addresses
themselves, so the alignment tests of the code (`uintptr_t(p) % 16`) are modelled literally. The CPU's
string instructions (`rep movsb` etc.) are modelled by their architectural definition; prefetches and
fences have no observable effect and are dropped. `size_t` is 64 bits wide.
-/
namespace Ustl.Bytes
variable {α : Type _}

/-- An address space. -/
abbrev Mem (α : Type _) := Int → Option α

/-- Replace the cell at `a`. -/
def Mem.upd (m : Mem α) (a : Int) (x : α) : Mem α := fun b => if b = a then some x else m b

/-- A store; faults on an unmapped address. -/
def Mem.st (m : Mem α) (a : Int) (x : α) : Option (Mem α) :=
  if (m a).isSome then some (m.upd a x) else none

/-- Every address of `[a, a + n)` is mapped. -/
def Mapped (m : Mem α) (a : Int) (n : Nat) : Prop := ∀ x, a ≤ x → x < a + n → (m x).isSome

/-- The specification of every copy: the address space in which `[d, d + n)` holds the old contents of
`[s, s + n)` and everything else is unchanged. -/
def copied (m : Mem α) (s : Int) (n : Nat) (d : Int) : Mem α :=
  fun x => if d ≤ x ∧ x < d + n then m (s + (x - d)) else m x

/-- `cld; rep movsb`: `n` cells upwards. Also the loop of the generic `copy_n`, and of `copy` when
`n = last - first`. Models ualgobase.cc:24-33, ualgobase.h:78-83 (`copy`), 95-101 (`copy_n`). -/
def movsbUp (m : Mem α) (s : Int) : Nat → Int → Option (Mem α)
  | 0, _ => some m
  | n + 1, d =>
    match m s with
    | none => none
    | some v =>
      match m.st d v with
      | none => none
      | some m' => movsbUp m' (s + 1) n (d + 1)

/-- `std; rep movsb`: `n` cells downwards; `s` and `d` address the first cell to be moved.
Models ualgobase.cc:24-33. The generic `copy_backward` (ualgobase.h:105-111) is
`movsbDown m (last - 1) (last - first) (result - 1)`. -/
def movsbDown (m : Mem α) (s : Int) : Nat → Int → Option (Mem α)
  | 0, _ => some m
  | n + 1, d =>
    match m s with
    | none => none
    | some v =>
      match m.st d v with
      | none => none
      | some m' => movsbDown m' (s - 1) n (d - 1)

/-- Load `n` consecutive cells. -/
def ldN (m : Mem α) (s : Int) : Nat → Option (List α)
  | 0 => some []
  | n + 1 =>
    match m s with
    | none => none
    | some v => (ldN m (s + 1) n).map (v :: ·)

/-- Store consecutive cells. -/
def stN (m : Mem α) (d : Int) : List α → Option (Mem α)
  | [] => some m
  | v :: vs =>
    match m.st d v with
    | none => none
    | some m' => stN m' (d + 1) vs

/-- One wide move: all `w` cells are loaded before any is stored. `movsl` moves 4, the SIMD block
32. -/
def wide (m : Mem α) (w : Nat) (s d : Int) : Option (Mem α) :=
  match ldN m s w with
  | none => none
  | some vs => stN m d vs

/-- `std; rep movsl`: `k` four-cell words downwards. Models ualgobase.cc:35-41. -/
def movsdDown (m : Mem α) (s : Int) : Nat → Int → Option (Mem α)
  | 0, _ => some m
  | k + 1, d =>
    match wide m 4 s d with
    | none => none
    | some m' => movsdDown m' (s - 4) k (d - 4)

/-- The block loop of `copy_n_fast`. `movaps`/`movntps` fault unless both addresses are multiples of 16;
the two 16-byte registers are loaded before either is stored.
Models ualgobase.cc:56-83 (`simd_block_copy`), 124-129. -/
def blockCopy (m : Mem α) (s : Int) : Nat → Int → Option (Mem α)
  | 0, _ => some m
  | k + 1, d =>
    if s % 16 = 0 ∧ d % 16 = 0 then
      match wide m 32 s d with
      | none => none
      | some m' => blockCopy m' (s + 32) k (d + 32)
    else none

/-- `Align (p, g) - p` for an address. Models uutility.h `Align`: `((n + g - 1) / g) * g`. -/
def padTo (p : Int) (g : Nat) : Nat := (((p + g - 1) / g) * g - p).toNat

/-- `copy_n_fast`, MMX/SSE build. Models ualgobase.cc:115-134. -/
def copyNFast (m : Mem α) (src : Int) (n : Nat) (dest : Int) : Option (Mem α) :=
  let h := min (padTo src 16) n
  match movsbUp m src h dest with
  | none => none
  | some m1 =>
    let n1 := n - h
    if (dest + h) % 16 = 0 then
      match blockCopy m1 (src + h) (n1 / 32) (dest + h) with
      | none => none
      | some m2 => movsbUp m2 (src + h + 32 * (n1 / 32)) (n1 % 32) (dest + h + 32 * (n1 / 32))
    else movsbUp m1 (src + h) n1 (dest + h)

/-- `copy_backward_fast`, x86 build. `nBytes -= nHeadBytes` wraps modulo `2^64`.
Models ualgobase.cc:138-159. -/
def copyBackwardFast (m : Mem α) (first last result : Int) : Option (Mem α) :=
  let n := (last - first).toNat
  let h := (last % 4).toNat
  match movsbDown m (last - 1) h (result - 1) with
  | none => none
  | some m1 =>
    let n1 := (n + 2 ^ 64 - h) % 2 ^ 64
    let l1 := last - 1 - h
    let r1 := result - 1 - h
    if r1 % 4 = 3 then
      let k := n1 / 4
      match movsdDown m1 (l1 - 3) k (r1 - 3) with
      | none => none
      | some m2 => movsbDown m2 (l1 - 3 - 4 * k) (n1 % 4) (r1 - 3 - 4 * k)
    else movsbDown m1 l1 n1 r1

/-- `memmove`: load everything, then store everything (its C definition). This is `copy_n_fast` on a
build without MMX and, with `result - n` as destination, `copy_backward_fast` on a build other than x86.
Models ualgobase.h:155-166. -/
def memmove (m : Mem α) (src : Int) (n : Nat) (dest : Int) : Option (Mem α) := wide m n src dest

/-- `copy_backward_fast` on a build other than x86. Models ualgobase.h:161-165. -/
def copyBackwardMove (m : Mem α) (first last result : Int) : Option (Mem α) :=
  memmove m first (last - first).toNat (result - (last - first).toNat)

/-- `stosv`: `n` elements, each stored as its cells `p`. With a one-cell `p` this is the loop of the
generic `fill_n`, and of `fill` with `n = last - first`.
Models ualgobase.cc:15-16, 43-50; ualgobase.h:132-150, 199-204. -/
def stosv (m : Mem α) (d : Int) (p : List α) : Nat → Option (Mem α)
  | 0 => some m
  | n + 1 =>
    match stN m d p with
    | none => none
    | some m' => stosv m' (d + p.length) p n

/-- The 32 cells of one block: the element's cells repeated `32 / sizeof(T)` times.
Models ualgobase.cc:166-184 (`build_block`). -/
def block (p : List α) : List α := (List.replicate (32 / p.length) p).flatten

/-- `fill_n_fast<T>` with `sizeof(T) = p.length`, exactly as written: the head count subtracts
`dest / sizeof(T)` (only the second operand is divided), and the tail count is `count % 32` elements.
The block stores are MMX `movntq`, which have no alignment requirement.
Models ualgobase.cc:185-208. -/
def fillNFast (m : Mem α) (dest : Int) (count : Nat) (p : List α) : Option (Mem α) :=
  let sz := p.length
  let h := min ((dest + padTo dest 16 - dest / sz).toNat) count
  match stosv m dest p h with
  | none => none
  | some m1 =>
    let c1 := count - h
    let d1 := dest + h * sz
    let k := c1 * sz / 32
    match stosv m1 d1 (block p) k with
    | none => none
    | some m2 => stosv m2 (d1 + 32 * k) p (c1 % 32)

/-- Swap two cells. -/
def swapAt (m : Mem α) (a b : Int) : Option (Mem α) :=
  match m a, m b with
  | some x, some y => some ((m.upd a y).upd b x)
  | _, _ => none

/-- `rotate_fast` with `alloca`: the scratch buffer `buf` is any mapped area of `min half1 half2` cells
disjoint from the range. `cn` and `cb` are the build's `copy_n_fast` and `copy_backward_fast`.
`alloca` never returns null in practice; the code after a null result is the triple-reverse algorithm of
the generic template (`Verif.Permute.Model`, `rotate`). Models ualgobase.cc:223-245. -/
def rotateFast (cn : Mem α → Int → Nat → Int → Option (Mem α))
    (cb : Mem α → Int → Int → Int → Option (Mem α))
    (m : Mem α) (first middle last buf : Int) : Option (Mem α) :=
  let half1 := (middle - first).toNat
  let half2 := (last - middle).toNat
  if min half1 half2 = 0 then some m
  else if half2 < half1 then
    match cn m middle half2 buf with
    | none => none
    | some m1 =>
      match cb m1 first middle last with
      | none => none
      | some m2 => cn m2 buf half2 first
  else
    match cn m first half1 buf with
    | none => none
    | some m1 =>
      match cn m1 middle half2 first with
      | none => none
      | some m2 => cn m2 buf half1 (first + half2)

end Ustl.Bytes
