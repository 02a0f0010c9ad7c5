import Verif.Text.Props
/-! # istringstream: lines, blocks, peek and ignore (C43) -/
namespace Ustl.Text
open Ustl.Stream

theorem setCount_eq (n : Nat) (s : TIS) : setCount n s = .ret () (s.cnt (n % 2 ^ 32)) := rfl

theorem TIS.Ok.cnt {s : TIS} (h : s.Ok) (n : Nat) : (s.cnt n).Ok := ⟨h.1, h.2, h.3, h.4⟩

theorem TIS.cnt_unread (s : TIS) (n : Nat) : (s.cnt n).unread = s.unread := rfl

theorem TIS.cnt_adv (s : TIS) (n k : Nat) : (s.cnt n).adv k = (s.adv k).cnt n := rfl

theorem TIS.cnt_cnt (s : TIS) (n k : Nat) : (s.cnt n).cnt k = s.cnt k := rfl

theorem takeWhile_split {α : Type} (p : α → Bool) (l : List α) : l = l.takeWhile p ++ l.dropWhile p :=
  List.takeWhile_append_dropWhile.symm

/-- The part of the text before `delim`. -/
def upTo (delim : Byte) (l : List Byte) : List Byte := l.takeWhile (· ≠ delim)

theorem upTo_nil_or {delim : Byte} {l : List Byte} :
    l = upTo delim l ∨ ∃ r, l = upTo delim l ++ delim :: r := by
  induction l with
  | nil => exact .inl rfl
  | cons c l ih =>
    by_cases h : c = delim
    · right; exact ⟨l, by simp [upTo, h]⟩
    · rcases ih with e | ⟨r, e⟩
      · left; simpa [upTo, h] using e
      · right; refine ⟨r, ?_⟩; simpa [upTo, h] using e

theorem upTo_not_mem {delim : Byte} {l : List Byte} : delim ∉ upTo delim l := by
  intro h
  have : ∀ l : List Byte, delim ∉ l.takeWhile (· ≠ delim) := by
    intro l
    induction l with
    | nil => simp
    | cons c l ih =>
      by_cases e : c = delim
      · simp [e]
      · rw [List.takeWhile_cons_of_pos (by simpa using e)]
        simp only [List.mem_cons, not_or]
        exact ⟨fun e' => e e'.symm, ih⟩
  exact this l h

theorem upTo_append {delim : Byte} {l r : List Byte} (h : delim ∉ l) : upTo delim (l ++ r) = l ++ upTo delim r := by
  unfold upTo
  rw [List.takeWhile_append_of_pos]
  intro a ha
  simp only [ne_eq, decide_eq_true_eq]
  rintro rfl
  exact h ha

theorem getStr_at_delim {s : TIS} (h : s.Ok) {delim : Byte} {r v : List Byte} (hu : s.unread = delim :: r) (f : Nat) :
    getStrLoop delim (f + 1) v s = .ret v s := by
  have hc : s.is.buf[s.is.pos]? = some delim := by
    have : (s.is.buf.drop s.is.pos)[0]? = some delim := by
      have hu' : s.is.buf.drop s.is.pos = delim :: r := hu
      rw [hu']; rfl
    simpa using this
  rw [getStrLoop, getStrRound, M.bind_ret (more_yes h (by simp [hu])), if_pos rfl, M.bind_ret (look_eq _ _), hc]
  simp only [if_pos]
  rfl

theorem getStr_at_end {s : TIS} (h : s.Ok) {delim : Byte} {v : List Byte} (hu : s.unread = []) (f : Nat) :
    getStrLoop delim (f + 1) v s = .ret v s.eof := by
  rw [getStrLoop, getStrRound, M.bind_ret (more_no h hu), if_neg (by simp)]
  rfl

theorem getStrLoop_eq {s : TIS} (h : s.Ok) {delim : Byte} (f : Nat) (hg : s.gcount = 0) :
    getStrLoop delim (f + 2) [] s = .ret (upTo delim s.unread)
      (if upTo delim s.unread = s.unread then ((s.adv (upTo delim s.unread).length).cnt (upTo delim s.unread).length).eof
       else (s.adv (upTo delim s.unread).length).cnt (upTo delim s.unread).length) := by
  have c0 : s.cnt 0 = s := by unfold TIS.cnt; rw [← hg]
  by_cases h0 : s.unread = []
  · rw [getStr_at_end h h0]
    simp [h0, upTo, TIS.adv_zero, c0]
  · obtain ⟨c, r, hcr⟩ : ∃ c r, s.unread = c :: r := by
      cases e : s.unread with
      | nil => exact absurd e h0
      | cons c r => exact ⟨c, r, rfl⟩
    by_cases hd : c = delim
    · subst hd
      rw [getStr_at_delim h hcr]
      simp [hcr, upTo, TIS.adv_zero, c0]
    · -- the run before the delimiter
      obtain ⟨t, ht⟩ : ∃ t, s.unread = upTo delim s.unread ++ t := ⟨_, takeWhile_split _ _⟩
      have ha := h.adv ht
      have hc : s.is.buf[s.is.pos]? = some c := by
        have : (s.is.buf.drop s.is.pos)[0]? = some c := by
          have hu' : s.is.buf.drop s.is.pos = c :: r := hcr
          rw [hu']; rfl
        simpa using this
      have hn : (upTo delim s.unread).length < 2 ^ 32 := by
        have := h.remaining_lt
        have e := congrArg List.length ht
        simp at e
        omega
      rw [getStrLoop, getStrRound, M.bind_ret (more_yes h h0), if_pos rfl, M.bind_ret (look_eq _ _), hc]
      simp only
      rw [if_neg hd, M.bind_ret (look_eq _ _)]
      rw [show (s.is.buf.drop s.is.pos).takeWhile (· ≠ delim) = upTo delim s.unread from rfl]
      rw [M.bind_ret (skip_ok h ht), M.bind_ret (look_eq _ _), M.bind_ret (setCount_eq _ _)]
      rw [show (s.adv (upTo delim s.unread).length).gcount = 0 from hg, Nat.zero_add, Nat.mod_eq_of_lt hn, List.nil_append]
      rcases (upTo_nil_or (delim := delim) (l := s.unread)) with e | ⟨r', e⟩
      · rw [if_pos e.symm]
        have : t = [] := by
          have := ht.symm.trans e
          simpa using this
        exact getStr_at_end (ha.1.cnt _) (by rw [TIS.cnt_unread, ha.2, this]) f
      · rw [if_neg]
        · have : t = delim :: r' := by
            have := ht.symm.trans e
            simpa using this
          exact getStr_at_delim (ha.1.cnt _) (by rw [TIS.cnt_unread, ha.2, this]) f
        · intro e'
          have hm : delim ∈ s.unread := by rw [e]; simp
          rw [← e'] at hm
          exact upTo_not_mem hm

/-- **C43**: `get (string, delim)` gives the text up to the next `delim` or the end and leaves the position there;
`gcount` is its length. Only if there is no `delim` are the error bits set. -/
theorem getStr_spec {s : TIS} (h : s.Ok) (delim : Byte) :
    (∀ w r, delim ∉ w → s.unread = w ++ delim :: r → getStr delim s = .ret w ((s.adv w.length).cnt w.length)) ∧
    (delim ∉ s.unread → getStr delim s = .ret s.unread ((s.adv s.unread.length).cnt s.unread.length).eof) := by
  have e : getStr delim s = getStrLoop delim ((s.cnt 0).is.remaining + 2) [] (s.cnt 0) := by
    rw [getStr, M.bind_ret (setCount_eq _ _)]
    rfl
  have := getStrLoop_eq (h.cnt 0) (delim := delim) ((s.cnt 0).is.remaining) rfl
  rw [e, this, TIS.cnt_unread]
  constructor
  · intro w r hw hu
    have : upTo delim s.unread = w := by rw [hu, upTo_append hw]; simp [upTo]
    rw [this, if_neg (by rw [hu]; simp)]
    rfl
  · intro hd
    have : upTo delim s.unread = s.unread := by
      have := upTo_append (r := []) hd
      simpa [upTo] using this
    rw [this, if_pos rfl]
    rfl

example : getStr 10 (.mk' [97, 98, 10, 99]) = .ret [97, 98] (((TIS.mk' [97, 98, 10, 99]).adv 2).cnt 2) :=
  (getStr_spec (s := .mk' [97, 98, 10, 99]) ⟨by decide, by decide, rfl, rfl⟩ 10).1 [97, 98] [99] (by decide) rfl

theorem eatDelim_no {s : TIS} (h : s.Ok) (delim : Byte) (hu : s.unread = [] ∨ ∃ c r, s.unread = c :: r ∧ c ≠ delim) :
    eatDelim delim s = .ret () s := by
  rw [eatDelim, M.bind_ret (look_eq _ _), h.remaining]
  rcases hu with hu | ⟨c, r, hu, hc⟩
  · rw [if_neg (by simp [hu])]; rfl
  · have hp : s.is.buf[s.is.pos]? = some c := by
      have : (s.is.buf.drop s.is.pos)[0]? = some c := by
        have hu' : s.is.buf.drop s.is.pos = c :: r := hu
        rw [hu']; rfl
      simpa using this
    rw [if_pos (by simp [hu]), M.bind_ret (look_eq _ _), hp]
    simp only
    rw [if_neg hc]
    rfl

theorem eatDelim_yes {s : TIS} (h : s.Ok) {delim : Byte} {r : List Byte} (hu : s.unread = delim :: r) (hg : s.gcount + 1 < 2 ^ 32) :
    eatDelim delim s = .ret () ((s.adv 1).cnt (s.gcount + 1)) := by
  rw [eatDelim, M.bind_ret (look_eq _ _), h.remaining]
  have hp : s.is.buf[s.is.pos]? = some delim := by
    have : (s.is.buf.drop s.is.pos)[0]? = some delim := by
      have hu' : s.is.buf.drop s.is.pos = delim :: r := hu
      rw [hu']; rfl
    simpa using this
  rw [if_pos (by simp [hu]), M.bind_ret (look_eq _ _), hp]
  simp only [if_pos]
  have hs : lift (IS.skip 1) s = .ret () (s.adv 1) := skip_ok h (l := [delim]) hu
  rw [M.bind_ret hs, M.bind_ret (look_eq _ _), setCount_eq]
  rw [show (s.adv 1).gcount = s.gcount from rfl, Nat.mod_eq_of_lt hg]

/-- **C43**: `getline (string, delim)` gives the next line without the delimiter, and moves the position past the delimiter;
`gcount` counts the delimiter. The last line may lack the delimiter: then the error bits are set. -/
theorem getline_spec {s : TIS} (h : s.Ok) (delim : Byte) :
    (∀ w r, delim ∉ w → s.unread = w ++ delim :: r →
      getlineStr delim s = .ret w ((s.adv (w.length + 1)).cnt (w.length + 1))) ∧
    (delim ∉ s.unread → getlineStr delim s = .ret s.unread ((s.adv s.unread.length).cnt s.unread.length).eof) := by
  obtain ⟨h1, h2⟩ := getStr_spec h delim
  constructor
  · intro w r hw hu
    have ha := h.adv hu
    have hl := h.remaining_lt
    rw [hu] at hl
    simp at hl
    rw [getlineStr, M.bind_ret (h1 w r hw hu),
      M.bind_ret (eatDelim_yes (ha.1.cnt _) (r := r) (by rw [TIS.cnt_unread]; exact ha.2) (by simp only [TIS.cnt]; omega))]
    simp only [TIS.cnt_adv, TIS.adv_adv, TIS.cnt_cnt]
    rfl
  · intro hd
    have ha := h.adv (l := s.unread) (r := []) (by simp)
    rw [getlineStr, M.bind_ret (h2 hd), M.bind_ret (eatDelim_no (ha.1.cnt _).eof _ (.inl ha.2))]
    rfl

example : getlineStr 10 (.mk' [97, 98, 10, 99]) = .ret [97, 98] (((TIS.mk' [97, 98, 10, 99]).adv 3).cnt 3) :=
  (getline_spec (s := .mk' [97, 98, 10, 99]) ⟨by decide, by decide, rfl, rfl⟩ 10).1 [97, 98] [99] (by decide) rfl

/-- Read a line, then the rest by `k`. -/
def lineThen (delim : Byte) (k : M TIS (List (List Byte))) : M TIS (List (List Byte)) := do
  let w ← getlineStr delim
  let l ← k
  pure (w :: l)

/-- Reading lines one after another. -/
def getlines (delim : Byte) : Nat → M TIS (List (List Byte))
  | 0 => pure []
  | n + 1 => lineThen delim (getlines delim n)

/-- **C43**: a text that consists of lines, each with its delimiter, is read back as these lines by that many calls of
`getline`, and all of it is consumed with no error bit set. -/
theorem getlines_spec (delim : Byte) (ls : List (List Byte)) : ∀ {s : TIS}, s.Ok → ∀ t,
    s.unread = ls.flatMap (· ++ [delim]) ++ t → (∀ w ∈ ls, delim ∉ w) →
    ∃ s', getlines delim ls.length s = .ret ls s' ∧ s'.Ok ∧ s'.unread = t ∧ s'.is.ios = s.is.ios := by
  induction ls with
  | nil =>
    intro s h t hu _
    exact ⟨s, rfl, h, by simpa using hu, rfl⟩
  | cons w ls ih =>
    intro s h t hu hw
    have hu' : s.unread = w ++ delim :: (ls.flatMap (· ++ [delim]) ++ t) := by rw [hu]; simp
    have e := (getline_spec h delim).1 w _ (hw w (by simp)) hu'
    have hu2 : s.unread = (w ++ [delim]) ++ (ls.flatMap (· ++ [delim]) ++ t) := by rw [hu']; simp
    have ha := h.adv hu2
    have hl : (w ++ [delim]).length = w.length + 1 := by simp
    rw [hl] at ha
    obtain ⟨s', e1, e2, e3, e4⟩ := ih (ha.1.cnt (w.length + 1)) t ha.2 (fun w' h' => hw w' (by simp [h']))
    refine ⟨s', ?_, e2, e3, e4⟩
    rw [List.length_cons, getlines, lineThen, M.bind_ret e, M.bind_ret e1]
    rfl

example : ∃ s', getlines 10 3 (.mk' [97, 10, 10, 98, 99, 10]) = .ret [[97], [], [98, 99]] s' :=
  let ⟨s', e, _⟩ := getlines_spec 10 [[97], [], [98, 99]] (s := .mk' [97, 10, 10, 98, 99, 10]) ⟨by decide, by decide, rfl, rfl⟩ [] rfl
    (by decide)
  ⟨s', e⟩

/-! ## get (p, n, delim) -/

theorem getLoop_eq (delim : Byte) (k : Nat) : ∀ (s : TIS) (x : Byte) (acc : List Byte), s.Ok → s.gcount + s.unread.length < 2 ^ 32 →
    getLoop delim k x acc s = .ret (acc ++ (upTo delim s.unread).take k)
      (if upTo delim s.unread = s.unread ∧ s.unread.length < k
       then ((s.adv s.unread.length).cnt (s.gcount + s.unread.length)).eof
       else (s.adv ((upTo delim s.unread).take k).length).cnt (s.gcount + ((upTo delim s.unread).take k).length)) := by
  induction k with
  | zero =>
    intro s x acc h hg
    rw [getLoop, if_neg (by omega)]
    simp [TIS.adv_zero, TIS.cnt, M.pure_eq]
  | succ k ih =>
    intro s x acc h hg
    rw [getLoop, getRound]
    cases hu : s.unread with
    | nil =>
      rw [M.bind_ret (more_no h hu), if_neg (by simp), if_pos (by simp [upTo])]
      simp [upTo, TIS.adv_zero, M.pure_eq]
      rfl
    | cons c r =>
      have ha := h.adv1 hu
      have hk : s.is.pos + (0 + 1) ≤ s.is.buf.length := by
        have := congrArg List.length hu
        simp [TIS.unread] at this
        omega
      rw [M.bind_ret (more_yes h (by simp [hu])), if_pos rfl, M.bind_ret (getc_ok h hu)]
      by_cases hc : c = delim
      · subst hc
        have e1 : lift IS.ungetc (s.adv 1) = .ret () s := ungetc_adv h hk
        rw [if_pos rfl, M.bind_ret e1, if_neg (by simp [upTo])]
        simp [upTo, TIS.adv_zero, TIS.cnt, M.pure_eq]
      · rw [hu] at hg
        simp only [List.length_cons] at hg
        have hg1 : (s.adv 1).gcount + 1 = s.gcount + 1 := rfl
        rw [if_neg hc, M.bind_ret (look_eq _ _), M.bind_ret (setCount_eq _ _), hg1, Nat.mod_eq_of_lt (by omega)]
        have := ih ((s.adv 1).cnt (s.gcount + 1)) c (acc ++ [c]) (ha.1.cnt _) (by
          rw [TIS.cnt_unread, ha.2]; simp only [TIS.cnt]; omega)
        rw [this, TIS.cnt_unread, ha.2]
        have eu : upTo delim (c :: r) = c :: upTo delim r := by simp [upTo, hc]
        rw [eu]
        simp only [List.take_succ_cons, List.append_assoc, List.singleton_append, List.cons.injEq, true_and, List.length_cons,
          TIS.cnt_adv, TIS.adv_adv, TIS.cnt_cnt, Nat.add_lt_add_iff_right]
        have a1 : 1 + r.length = r.length + 1 := by omega
        have a2 : ∀ n : Nat, (s.cnt (s.gcount + 1)).gcount + n = s.gcount + (n + 1) := by intro n; simp only [TIS.cnt]; omega
        have a3 : 1 + ((upTo delim r).take k).length = ((upTo delim r).take k).length + 1 := by omega
        have a4 : ∀ n : Nat, ((s.adv 1).cnt (s.gcount + 1)).gcount + n = s.gcount + (n + 1) := by intro n; simp only [TIS.cnt]; omega
        simp only [a1, a3, a4]

/-- **C43**: `get (p, n, delim)` for `n > 0` stores, followed by a zero, the text up to the next `delim`, but no more than
`n - 1` characters; it does not consume the delimiter; `gcount` is the number of characters. The error bits are set if and
only if the text ended before that. -/
theorem getBuf_spec {s : TIS} (h : s.Ok) (n : Nat) (hn : 0 < n) (delim : Byte) :
    ∃ w, w = (upTo delim s.unread).take (n - 1) ∧
      getBuf n delim s = .ret (w ++ [0]) (if delim ∉ s.unread ∧ s.unread.length < n - 1
        then ((s.adv w.length).cnt w.length).eof else (s.adv w.length).cnt w.length) := by
  refine ⟨_, rfl, ?_⟩
  rw [getBuf, if_neg (by omega), M.bind_ret (setCount_eq _ _)]
  have := getLoop_eq delim (n - 1) (s.cnt (0 % 2 ^ 32)) 0 [] (h.cnt _) (by
    have := h.remaining_lt
    rw [TIS.cnt_unread]
    simp only [TIS.cnt]
    omega)
  rw [M.bind_ret this, M.pure_eq, TIS.cnt_unread, List.nil_append]
  have e0 : ∀ k, (s.cnt (0 % 2 ^ 32)).gcount + k = k := by intro k; simp [TIS.cnt]
  have hm : upTo delim s.unread = s.unread ↔ delim ∉ s.unread := by
    constructor
    · intro e; rw [← e]; exact upTo_not_mem
    · intro e
      have := upTo_append (r := []) e
      simpa [upTo] using this
  simp only [e0, TIS.cnt_adv, TIS.cnt_cnt, hm]
  by_cases hc : delim ∉ s.unread ∧ s.unread.length < n - 1
  · rw [if_pos hc, if_pos hc, hm.2 hc.1, List.take_of_length_le (by omega)]
  · rw [if_neg hc, if_neg hc]

example : getBuf 3 10 (.mk' [97, 98, 99, 10]) = .ret [97, 98, 0] (((TIS.mk' [97, 98, 99, 10]).adv 2).cnt 2) := by
  obtain ⟨w, hw, e⟩ := getBuf_spec (s := .mk' [97, 98, 99, 10]) ⟨by decide, by decide, rfl, rfl⟩ 3 (by decide) 10
  have : w = [97, 98] := hw
  subst this
  exact e

/-- **C43**: `getline (p, n, delim)` does the same, and consumes a delimiter that comes next; `gcount` counts it. -/
theorem getlineBuf_spec {s : TIS} (h : s.Ok) (n : Nat) (hn : 0 < n) (delim : Byte) :
    ∃ w, w = (upTo delim s.unread).take (n - 1) ∧
      ((∃ r, s.unread = w ++ delim :: r) →
        getlineBuf n delim s = .ret (w ++ [0]) ((s.adv (w.length + 1)).cnt (w.length + 1))) ∧
      ((∀ r, s.unread ≠ w ++ delim :: r) →
        getlineBuf n delim s = .ret (w ++ [0]) (if delim ∉ s.unread ∧ s.unread.length < n - 1
          then ((s.adv w.length).cnt w.length).eof else (s.adv w.length).cnt w.length)) := by
  obtain ⟨w, hw, e⟩ := getBuf_spec h n hn delim
  have hl := h.remaining_lt
  have hpre : ∃ t, s.unread = w ++ t := by
    refine ⟨s.unread.drop w.length, ?_⟩
    have h1 : w <+: s.unread := by
      rw [hw]; exact (List.take_prefix _ _).trans (List.takeWhile_prefix _)
    obtain ⟨t, ht⟩ := h1
    rw [← ht]; simp
  refine ⟨w, hw, ?_, ?_⟩
  · rintro ⟨r, hr⟩
    have ha := h.adv hr
    have hm : ¬ (delim ∉ s.unread ∧ s.unread.length < n - 1) := by
      rintro ⟨h1, _⟩; apply h1; rw [hr]; simp
    rw [if_neg hm] at e
    have hl' : w.length + 1 < 2 ^ 32 := by
      rw [hr] at hl; simp at hl; omega
    rw [getlineBuf, M.bind_ret e,
      M.bind_ret (eatDelim_yes (ha.1.cnt _) (r := r) (by rw [TIS.cnt_unread]; exact ha.2) (by simp only [TIS.cnt]; omega))]
    simp only [TIS.cnt_adv, TIS.adv_adv, TIS.cnt_cnt]
    rfl
  · intro hr
    obtain ⟨t, ht⟩ := hpre
    have ha := h.adv ht
    have ht' : t = [] ∨ ∃ c r, t = c :: r ∧ c ≠ delim := by
      cases t with
      | nil => exact .inl rfl
      | cons c r =>
        right
        refine ⟨c, r, rfl, ?_⟩
        rintro rfl
        exact hr r ht
    have key : ∀ s' : TIS, s'.Ok → s'.unread = t → eatDelim delim s' = .ret () s' := by
      intro s' h' hu'
      refine eatDelim_no h' _ ?_
      rw [hu']; exact ht'
    rw [getlineBuf, M.bind_ret e]
    split
    · rw [M.bind_ret (key _ (ha.1.cnt w.length).eof ha.2)]; rfl
    · rw [M.bind_ret (key _ (ha.1.cnt w.length) ha.2)]; rfl

example : getlineBuf 9 10 (.mk' [97, 98, 10, 99]) = .ret [97, 98, 0] (((TIS.mk' [97, 98, 10, 99]).adv 3).cnt 3) := by
  obtain ⟨w, hw, e, _⟩ := getlineBuf_spec (s := .mk' [97, 98, 10, 99]) ⟨by decide, by decide, rfl, rfl⟩ 9 (by decide) 10
  have : w = [97, 98] := hw
  subst this
  exact e ⟨[99], rfl⟩

/-- **C43** is false for `n = 0`: the terminating zero is stored where there is no room for it. -/
theorem getBuf_violated (s : TIS) (delim : Byte) : getBuf 0 delim s = .oob := rfl

/-! ## read, get, peek, ignore -/

theorem read_enough {s : TIS} (h : s.Ok) {old w r : List Byte} (hu : s.unread = w ++ r) :
    read old w.length s = .ret w ((s.adv w.length).cnt w.length) := by
  have hl := h.remaining_lt
  rw [hu] at hl
  simp at hl
  have e : read old w.length s = (do setCount w.length; lift (IS.read old (w.length % 2 ^ 32)) : M TIS (List Byte)) s := by
    rw [read, M.bind_ret (look_eq _ _), h.remaining, if_neg (by rw [hu]; simp)]
    rfl
  rw [e, M.bind_ret (setCount_eq _ _), Nat.mod_eq_of_lt (by omega)]
  exact read_ok (h.cnt _) hu

/-- **C43**: `read (p, n)` when that many bytes are left gives the next `n` bytes, whatever they are; `gcount` is `n`. -/
theorem readBlock_spec {s : TIS} (h : s.Ok) (old : List Byte) {w r : List Byte} (hu : s.unread = w ++ r) :
    read old w.length s = .ret w ((s.adv w.length).cnt w.length) := read_enough h hu

example : read [] 2 (.mk' [0, 98, 10, 99]) = .ret [0, 98] (((TIS.mk' [0, 98, 10, 99]).adv 2).cnt 2) :=
  readBlock_spec (s := .mk' [0, 98, 10, 99]) ⟨by decide, by decide, rfl, rfl⟩ [] (w := [0, 98]) (r := [10, 99]) rfl

/-- **C43** is false for `read (p, n)` when fewer bytes are left: what is left is read only up to the first zero byte, and
only `n - 1` bytes at most. Of the three bytes left here only one is read. -/
theorem readBlock_violated :
    ∃ s : TIS, s.Ok ∧ s.unread.length = 3 ∧ ∃ s', read [] 5 s = .ret [97, 0] s' ∧ s'.unread.length = 2 :=
  ⟨.mk' [97, 0, 98], ⟨by decide, by decide, rfl, rfl⟩, rfl, (((TIS.mk' [97, 0, 98]).adv 1).cnt 1).failed, by decide, by decide⟩

theorem get_ok {s : TIS} (h : s.Ok) {c : Byte} {r : List Byte} (hu : s.unread = c :: r) :
    get s = .ret c ((s.adv 1).cnt 1) := by
  have e : read [255] 1 s = .ret [c] ((s.adv 1).cnt 1) := read_enough h (old := [255]) (w := [c]) hu
  rw [get, M.bind_ret e]
  rfl

/-- **C43**: `get ()` gives the next character, delimiter or not, and `peek ()` gives it without consuming it. -/
theorem get_peek_spec {s : TIS} (h : s.Ok) {c : Byte} {r : List Byte} (hu : s.unread = c :: r) :
    get s = .ret c ((s.adv 1).cnt 1) ∧ peek s = .ret c (s.cnt 1) := by
  refine ⟨get_ok h hu, ?_⟩
  have hk : s.is.pos + (0 + 1) ≤ s.is.buf.length := by
    have := congrArg List.length hu
    simp [TIS.unread] at this
    omega
  have e1 : lift IS.ungetc ((s.cnt 1).adv (0 + 1)) = .ret () ((s.cnt 1).adv 0) := ungetc_adv (h.cnt 1) hk
  rw [peek, M.bind_ret (get_ok h hu)]
  have e2 : lift IS.ungetc ((s.adv 1).cnt 1) = .ret () (s.cnt 1) := e1
  rw [M.bind_ret e2]
  rfl

example : peek (.mk' [97, 98]) = .ret 97 ((TIS.mk' [97, 98]).cnt 1) :=
  (get_peek_spec (s := .mk' [97, 98]) ⟨by decide, by decide, rfl, rfl⟩ rfl).2

/-- **C43** is false for `peek ()` at the end of the text: it moves the position one back, so that the last character is read
again. -/
theorem peek_violated : ∃ s : TIS, s.Ok ∧ s.unread = [] ∧ ∃ c s', peek s = .ret c s' ∧ s'.unread = [98] :=
  ⟨(TIS.mk' [97, 98]).adv 2, ⟨by decide, by decide, rfl, rfl⟩, rfl, 0, ((TIS.mk' [97, 98]).adv 1).eof, by decide, by decide⟩

theorem ignoreLoop_eq (delim : Byte) (n : Nat) : ∀ s : TIS, s.Ok →
    ∃ k s', ignoreLoop delim n s = .ret k s' ∧ s'.Ok ∧
      ((∃ w r, delim ∉ w ∧ w.length < n ∧ s.unread = w ++ delim :: r ∧ s'.unread = r ∧ s'.is.pos = s.is.pos + w.length + 1) ∨
       ((∀ w r, s.unread = w ++ delim :: r → n ≤ w.length) ∧ s'.unread = s.unread.drop n)) := by
  induction n with
  | zero =>
    intro s h
    exact ⟨_, s, rfl, h, .inr ⟨fun _ _ _ => Nat.zero_le _, rfl⟩⟩
  | succ n ih =>
    intro s h
    rw [ignoreLoop, ignoreRound]
    cases hu : s.unread with
    | nil =>
      refine ⟨n, s.eof, ?_, h.eof, .inr ⟨?_, ?_⟩⟩
      · rw [M.bind_ret (more_no h hu), if_neg (by simp)]; rfl
      · intro w r e; simp at e
      · show s.unread = _; rw [hu]; rfl
    | cons c r =>
      have ha := h.adv1 hu
      rw [M.bind_ret (more_yes h (by simp [hu])), if_pos rfl, M.bind_ret (get_ok h hu)]
      by_cases hc : c = delim
      · subst hc
        refine ⟨n, (s.adv 1).cnt 1, ?_, ha.1.cnt _, .inl ⟨[], r, by simp, by simp, rfl, ha.2, rfl⟩⟩
        rw [if_pos rfl]; rfl
      · rw [if_neg hc]
        obtain ⟨k, s', e, h', e'⟩ := ih _ (ha.1.cnt 1)
        refine ⟨k, s', e, h', ?_⟩
        rw [TIS.cnt_unread, ha.2] at e'
        rcases e' with ⟨w, t, a1, a2, a3, a4, a5⟩ | ⟨a1, a2⟩
        · refine .inl ⟨c :: w, t, ?_, by simp; omega, by rw [a3]; rfl, a4, ?_⟩
          · simp [a1]; exact fun e => hc e.symm
          · rw [a5]; simp only [TIS.cnt, TIS.adv, List.length_cons]; omega
        · refine .inr ⟨?_, ?_⟩
          · intro w t e
            cases w with
            | nil => simp at e; exact absurd e.1 hc
            | cons d w =>
              simp at e
              have := a1 w t e.2
              simp; omega
          · rw [a2]; rfl

/-- **C43** (partial): `ignore (n, delim)` consumes the text up to and including the next `delim`, but no more than `n`
characters. What is missing: `gcount`, see `ignore_violated`. -/
theorem ignore_partial {s : TIS} (h : s.Ok) (n : Nat) (delim : Byte) :
    ∃ s', ignore n delim s = .ret () s' ∧ s'.Ok ∧
      (∀ w r, delim ∉ w → s.unread = w ++ delim :: r → s'.unread = if w.length < n then r else s.unread.drop n) ∧
      (delim ∉ s.unread → s'.unread = s.unread.drop n) := by
  obtain ⟨k, s', e, h', e'⟩ := ignoreLoop_eq delim n _ (h.cnt (n % 2 ^ 32))
  refine ⟨s'.cnt ((s'.gcount + W - k) % 2 ^ 32), ?_, h'.cnt _, ?_, ?_⟩
  · rw [ignore, M.bind_ret (setCount_eq _ _), M.bind_ret e, M.bind_ret (look_eq _ _), setCount_eq]
  · intro w r hw hu
    rw [TIS.cnt_unread] at e' ⊢
    rcases e' with ⟨w', t, a1, a2, a3, a4, _⟩ | ⟨a1, a2⟩
    · have u1 : upTo delim s.unread = w := by rw [hu, upTo_append hw]; simp [upTo]
      have u2 : upTo delim s.unread = w' := by rw [a3, upTo_append a1]; simp [upTo]
      have e1 : w = w' := u1.symm.trans u2
      subst e1
      rw [if_pos a2, a4]
      have := hu.symm.trans a3
      simpa using this.symm
    · rw [if_neg (by have := a1 w r hu; omega), a2]
  · intro hd
    rw [TIS.cnt_unread] at e' ⊢
    rcases e' with ⟨w', t, a1, a2, a3, a4, _⟩ | ⟨a1, a2⟩
    · exact absurd (by rw [a3]; simp) hd
    · exact a2

example : ∃ s', ignore 9 10 (.mk' [97, 98, 10, 99]) = .ret () s' ∧ s'.unread = [99] := by
  obtain ⟨s', e, _, h1, _⟩ := ignore_partial (s := .mk' [97, 98, 10, 99]) ⟨by decide, by decide, rfl, rfl⟩ 9 10
  exact ⟨s', e, h1 [97, 98] [99] (by decide) rfl⟩

/-- **C43** is false for `gcount` after `ignore`: two characters were consumed, `gcount` is 4294967289 (that is, -7). -/
theorem ignore_violated : ∃ s s' : TIS, s.Ok ∧ ignore 10 98 s = .ret () s' ∧ s'.unread = [99] ∧ s.unread.length = 3 ∧
    s'.gcount = 4294967289 :=
  ⟨.mk' [97, 98, 99], ((TIS.mk' [97, 98, 99]).adv 2).cnt 4294967289, ⟨by decide, by decide, rfl, rfl⟩, by decide, by decide, by decide, rfl⟩

end Ustl.Text
