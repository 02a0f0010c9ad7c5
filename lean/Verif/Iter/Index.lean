import Verif.Iter.Props
/-! # Containers of indexes, and positions carried over to another container (C52) -/
namespace Ustl.Iter

/-- `copy_n (first, count, result)` where `first` is an `index_iterate` over the indexes `xs` and `result` the position `k` of the container `ic`.
Models ualgobase.h:93-99. -/
def copyIdx (xs : List Nat) : Nat → Idx → Nat → List Int → Option (List Int)
  | 0, _, _, ic => some ic
  | n + 1, a, k, ic =>
    match a.get xs with
    | some v => if k < ic.length then copyIdx xs n a.inc (k + 1) (ic.set k v) else none
    | none => none

/-- `ic.resize (n)`: whatever new elements hold. Models uvector.h:151-161. -/
def resizeIc (junk : Nat → Int) (n : Nat) (ic : List Int) : List Int := ic.take n ++ (List.range (n - ic.length)).map junk

/-- `indexv_to_iteratorv (ibase, xc, ic)`. Models uiterator.h:471-476. -/
def indexv (junk : Nat → Int) (ibase : Int) (xc : List Nat) (ic : List Int) : Option (List Int) :=
  copyIdx xc xc.length ⟨ibase, 0⟩ 0 (resizeIc junk xc.length ic)

/-- `ibyi (idx, c1, c2)`; the containers begin at `b1`, `b2` and have `n1`, `n2` elements. `none`: the assertion fails. Models uiterator.h:489-500. -/
def ibyi (idx b1 b2 : Int) (n1 n2 : Nat) : Option Int := if n1 = n2 then some (b2 + (idx - b1)) else none

theorem copyIdx_ok (xs : List Nat) (p : Int) : ∀ (n k : Nat) (ic : List Int), k + n = xs.length → ic.length = xs.length →
    copyIdx xs n ⟨p, k⟩ k ic = some (ic.take k ++ (xs.drop k).map fun x : Nat => p + (x : Int))
  | 0, k, ic, h, hl => by
    rw [copyIdx, List.take_of_length_le (by omega), List.drop_of_length_le (by omega)]
    simp
  | n + 1, k, ic, h, hl => by
    have hk : k < xs.length := by omega
    have hg : Idx.get xs ⟨p, k⟩ = some (p + (xs[k] : Int)) := by
      simp only [Idx.get, deref_nat, List.getElem?_eq_getElem hk]
      rfl
    rw [copyIdx, hg]
    simp only
    rw [if_pos (by omega)]
    have := copyIdx_ok xs p n (k + 1) (ic.set k (p + (xs[k] : Int))) (by omega) (by simp [hl])
    have e : Idx.inc ⟨p, k⟩ = ⟨p, ((k + 1 : Nat) : Int)⟩ := by simp [Idx.inc]
    rw [e, this]
    congr 1
    have hd : (xs.drop k).map (fun x : Nat => p + (x : Int)) = (p + (xs[k] : Int)) :: (xs.drop (k + 1)).map fun x : Nat => p + (x : Int) := by
      rw [List.drop_eq_getElem_cons hk, List.map_cons]
    rw [hd, List.take_succ_eq_append_getElem (by simp; omega), List.take_set_of_le (Nat.le_refl k), List.getElem_set_self, List.append_assoc]
    rfl

/-- **C52**: the positions of the elements that the indexes name, in their order, whatever the container held before. -/
theorem indexv_spec (junk : Nat → Int) (ibase : Int) (xc : List Nat) (ic : List Int) : indexv junk ibase xc ic = some (xc.map fun x : Nat => ibase + (x : Int)) := by
  have := copyIdx_ok xc ibase xc.length 0 (resizeIc junk xc.length ic) (by omega) (by simp [resizeIc]; omega)
  simpa [indexv] using this

example : indexv (fun _ => 9) 100 [2, 0, 2] [7, 7, 7, 7] = some [102, 100, 102] := by decide

/-- **C52**: the position at the same distance in another container of the same size: element `i` for element `i`, end for end; carried back it is the position it was. -/
theorem ibyi_spec (b1 b2 : Int) (n i : Nat) (_ : i ≤ n) : ibyi (b1 + i) b1 b2 n n = some (b2 + i) ∧ (ibyi (b1 + i) b1 b2 n n).bind (fun p => ibyi p b2 b1 n n) = some (b1 + i) := by
  have h : ∀ c1 c2 : Int, ibyi (c1 + i) c1 c2 n n = some (c2 + i) := by
    intro c1 c2
    simp only [ibyi, if_pos]
    congr 1
    omega
  exact ⟨h _ _, by rw [h, Option.bind_some, h]⟩

example : ibyi 103 100 200 5 5 = some 203 := by decide

end Ustl.Iter
