import Verif.Exn.Info
import Verif.Exn.Names
import Verif.Str.Props
import Verif.Text.OutProps
/-! # What exceptions say: theorems for C91 -/
namespace Ustl.Exn
open Ustl.Stream
open Ustl.Text (digits)

/-! ## Specification -/

/-- The C strings passed to the constructor contain no NUL. -/
def New.CStrings : New → Prop
  | .plain _ => True
  | .alloc _ => True
  | .msg _ a => 0 ∉ a.getD []
  | .sys _ op => 0 ∉ op.getD []
  | .sysCode _ op => 0 ∉ op.getD []
  | .file _ op f => 0 ∉ op.getD [] ∧ 0 ∉ f.getD []
  | .bounds _ op t _ _ _ => 0 ∉ op.getD [] ∧ 0 ∉ t.2

/-- What a user expects to read. A null pointer reads as nothing, of a file name the first 4095 characters are kept. -/
def New.says (strerror : Nat → List Byte) (dm : Demangler) : New → List Byte
  | .plain .exception => asc "error"
  | .plain .badCast => asc "bad cast"
  | .plain .badTypeid => asc "bad typeid"
  | .alloc n => asc "failed to allocate " ++ digits 10 false n ++ asc " bytes"
  | .msg .errorMessage a => asc "error: " ++ a.getD []
  | .msg .logicError a => asc "logic error: " ++ a.getD []
  | .msg .domainError a => asc "domain error: " ++ a.getD []
  | .msg .invalidArgument a => asc "invalid argument: " ++ a.getD []
  | .msg .lengthError a => asc "length error: " ++ a.getD []
  | .msg .outOfRange a => asc "out of range: " ++ a.getD []
  | .msg .runtimeError a => asc "runtime error: " ++ a.getD []
  | .msg .rangeError a => asc "range error: " ++ a.getD []
  | .msg .overflowError a => asc "overflow error: " ++ a.getD []
  | .msg .underflowError a => asc "underflow error: " ++ a.getD []
  | .sys e op => op.getD [] ++ asc ": " ++ strerror e
  | .sysCode e op => op.getD [] ++ asc ": " ++ strerror e
  | .file e op f => op.getD [] ++ asc " " ++ (f.getD []).take 4095 ++ asc ": " ++ strerror e
  | .bounds _ op t o n r => (dm t.2).getD t.2 ++ asc " stream " ++ op.getD [] ++ asc ": @0x" ++ digits 16 true o ++
      asc ": need " ++ digits 10 false n ++ asc " bytes, have " ++ digits 10 false r

/-- The numbers are small enough for the conversions the library uses, and a type name fits its buffer, demangled or not. -/
def New.Small (dm : Demangler) : New → Prop
  | .alloc n => n < 2 ^ 31
  | .bounds _ _ t o n r => o < 2 ^ 32 ∧ n < 2 ^ 32 ∧ r < 2 ^ 32 ∧ t.2.length ≤ 255 ∧ ∀ d, dm t.2 = some d → d.length ≤ 255
  | _ => True

/-! ## `printf` -/

theorem printf_lit {p : List Byte} (h : (37 : Byte) ∉ p) (f : List Byte) (as : List Arg) :
    printf (p ++ f) as = (printf f as).map (p ++ ·) := by
  induction p with
  | nil => simp
  | cons c r ih =>
    have hc : c ≠ 37 := fun e => h (by simp [e])
    rw [List.cons_append, printf.eq_8, ih (fun e => h (by simp [e]))]
    · simp [Option.map_map, Function.comp_def]
    all_goals (intros; simp_all)

theorem printf_s (f : List Byte) (s : List Byte) (as : List Arg) :
    printf (37 :: 115 :: f) (.str s :: as) = (printf f as).map (s ++ ·) := by
  rw [printf.eq_5]
  · simp [convArg]
  all_goals (intros; simp_all)

theorem printf_n {c : Byte} (hc : c = 100 ∨ c = 117 ∨ c = 120 ∨ c = 88) (f : List Byte) (v : Nat) (as : List Arg) :
    printf (37 :: c :: f) (.num v :: as) =
      (printf f as).map (Text.convPrint { conv := c, bits := 32 } v ++ ·) := by
  rw [printf.eq_5]
  · simp [convArg, hc]
  all_goals (intros; rcases hc with h | h | h | h <;> simp_all)

theorem printf_z {c : Byte} (hc : c = 100 ∨ c = 117 ∨ c = 120 ∨ c = 88) (f : List Byte) (v : Nat) (as : List Arg) :
    printf (37 :: 122 :: c :: f) (.num v :: as) =
      (printf f as).map (Text.convPrint { conv := c, bits := 64 } v ++ ·) := by
  rw [printf.eq_3]
  simp [convArg, hc]

/-- What the conversions print of a number that fits. -/
theorem conv_d {v : Nat} (h : v < 2 ^ 31) : Text.convPrint { conv := 100, bits := 32 } v = digits 10 false v := by
  have : Text.toS 32 v = v := by unfold Text.toS; omega
  simp only [Text.convPrint, Text.convText, this, Bool.false_eq_true, if_true, if_false]
  rw [if_neg (by omega)]
  simp [Text.digs_digits]

theorem conv_u {bits v : Nat} (h : v < 2 ^ bits) : Text.convPrint { conv := 117, bits := bits } v = digits 10 false v := by
  have : Text.toU bits v = v := by
    unfold Text.toU
    have : ((v : Int) % 2 ^ bits) = ((v % 2 ^ bits : Nat) : Int) := by push_cast; rfl
    rw [this, Nat.mod_eq_of_lt h]; rfl
  simp [Text.convPrint, Text.convText, this, Text.digs_digits]

theorem conv_X {v : Nat} (h : v < 2 ^ 32) : Text.convPrint { conv := 88, bits := 32 } v = digits 16 true v := by
  have : Text.toU 32 v = v := by unfold Text.toU; omega
  simp [Text.convPrint, Text.convText, this, Text.digs_digits]

/-! ## The fields -/

theorem cstr_ofPtr {p : Option (List Byte)} (h : 0 ∉ p.getD []) : cstr (ofPtr p) = p.getD [] := by
  cases p with
  | none => rfl
  | some s =>
    have e : cstr s = s := cstr_self h
    show cstr (cstr s) = s
    rw [e, e]

theorem cstr_setName_short {n : Nat} {s : List Byte} (hn : 0 < n) (h : 0 ∉ s) : cstr (setName n s) = s.take (n - 1) := by
  unfold setName
  rw [cstr_self h]
  by_cases hl : s.length < n
  · have e : ((s ++ List.replicate n 0).take n).set (n - 1) 0 = s ++ List.replicate (n - s.length) 0 := by
      apply List.ext_getElem
      · simp; omega
      · intro i h1 h2
        rw [List.getElem_set]
        simp only [List.getElem_take, List.getElem_append, List.getElem_replicate]
        split
        · rw [dif_neg (by omega)]
        · rfl
    rw [e, show n - s.length = (n - s.length - 1) + 1 by omega, List.replicate_succ, cstr_end h,
      List.take_of_length_le (by omega)]
  · have e : ((s ++ List.replicate n 0).take n).set (n - 1) 0 = s.take (n - 1) ++ [0] := by
      apply List.ext_getElem
      · simp; omega
      · intro i h1 h2
        rw [List.getElem_set]
        simp only [List.length_append, List.length_take, List.length_cons, List.length_nil] at h2
        by_cases hi : n - 1 = i
        · rw [if_pos hi, List.getElem_append_right (by simp; omega)]; simp
        · rw [if_neg hi, List.getElem_take, List.getElem_append_left (by omega), List.getElem_append_left (by simp; omega),
            List.getElem_take]
    rw [e, cstr_end (fun m => h (List.mem_of_mem_take m))]

theorem cstr_fileName {f : Option (List Byte)} (h : 0 ∉ f.getD []) : cstr (fileName f) = (f.getD []).take 4095 := by
  cases f with
  | none =>
    show cstr (List.replicate 4096 0) = _
    rw [show (4096 : Nat) = 4095 + 1 from rfl, List.replicate_succ]
    rfl
  | some s => exact cstr_setName_short (n := 4096) (by omega) h

theorem typeBuf_short {t : List Byte} (h : 0 ∉ t) (hl : t.length ≤ 255) : typeBuf t = t := by
  unfold typeBuf
  rw [cstr_setName_short (by omega) h, List.take_of_length_le (by omega)]

/-! ## What `info` prints -/

theorem fmt_two (a b : List Byte) : printf (asc "%s: %s") [.str a, .str b] = some (a ++ asc ": " ++ b) := by
  rw [show asc "%s: %s" = 37 :: 115 :: (asc ": " ++ [37, 115]) from rfl, printf_s, printf_lit (by decide), printf_s]
  simp [printf]

theorem fmt_three (a b c : List Byte) :
    printf (asc "%s %s: %s") [.str a, .str b, .str c] = some (a ++ asc " " ++ b ++ asc ": " ++ c) := by
  rw [show asc "%s %s: %s" = 37 :: 115 :: (asc " " ++ 37 :: 115 :: (asc ": " ++ [37, 115])) from rfl, printf_s,
    printf_lit (by decide), printf_s, printf_lit (by decide), printf_s]
  simp [printf]

/-- **C91 (partial)** `info` with the default format describes the exception: for every class, every argument of its
constructor and every error code. Missing: numbers that do not fit `%d`, `%u`, `%X` (`info_alloc_violated`,
`info_bounds_violated`), type names beyond 255 characters. -/
theorem info_text_partial (strerror : Nat → List Byte) (hs : ∀ e, 0 ∉ strerror e) (dm : Demangler)
    (mem : Nat → Option (List Byte)) (bt : Bt) (x : New) (hc : x.CStrings) (hx : x.Small dm)
    (hm : ∀ e op t o n r, x = .bounds e op t o n r → mem t.1 = some t.2) :
    x.info dm mem (x.make strerror bt) none = some (x.says strerror dm) := by
  have hse : ∀ e, cstr (ofPtr (some (strerror e))) = strerror e := fun e => cstr_ofPtr (hs e)
  cases x with
  | plain k =>
    show printf (asc "%s") [.str k.what] = _
    rw [show asc "%s" = [37, 115] from rfl, printf_s]
    cases k <;> simp [printf, Plain.what, New.says]
  | alloc n =>
    show printf (asc "failed to allocate %d bytes") [.num n] = _
    rw [show asc "failed to allocate %d bytes" = asc "failed to allocate " ++ 37 :: 100 :: (asc " bytes" ++ []) from rfl,
      printf_lit (by decide), printf_n (by simp), printf_lit (by decide), conv_d hx]
    simp [printf, New.says]
  | msg k a =>
    show printf (asc "%s: %s") [.str k.name, .str (cstr (ofPtr a))] = _
    rw [fmt_two, cstr_ofPtr hc]
    cases k <;> rfl
  | sys e op =>
    show printf (asc "%s: %s") [.str (cstr (ofPtr op)), .str (cstr (ofPtr (some (strerror e))))] = _
    rw [fmt_two, cstr_ofPtr hc, hse]
    rfl
  | sysCode e op =>
    show printf (asc "%s: %s") [.str (cstr (ofPtr op)), .str (cstr (ofPtr (some (strerror e))))] = _
    rw [fmt_two, cstr_ofPtr hc, hse]
    rfl
  | file e op f =>
    show printf (asc "%s %s: %s") [.str (cstr (ofPtr op)), .str (cstr (fileName f)),
      .str (cstr (ofPtr (some (strerror e))))] = _
    rw [fmt_three, cstr_ofPtr hc.1, hse, cstr_fileName hc.2]
    rfl
  | bounds e op t o n r =>
    obtain ⟨h1, h2, h3, h4, h5⟩ := hx
    have hd : demangle dm 256 (typeBuf t.2) = some ((dm t.2).getD t.2) := by
      rw [typeBuf_short hc.2 h4]
      unfold demangle
      cases hq : dm t.2 with
      | none => rfl
      | some d =>
        have := h5 d hq
        simp only [Option.getD_some]
        rw [if_pos (by omega), show min d.length (256 - 1) = d.length by omega, List.take_length]
    show (match mem t.1 with
      | none => none
      | some s => match demangle dm 256 (typeBuf s) with
        | none => none
        | some d => printf (asc "%s stream %s: @0x%X: need %u bytes, have %u")
          [.str d, .str (cstr (ofPtr op)), .num o, .num n, .num r]) = _
    rw [hm _ _ _ _ _ _ rfl]
    simp only [hd]
    rw [show asc "%s stream %s: @0x%X: need %u bytes, have %u" = 37 :: 115 :: (asc " stream " ++ 37 :: 115 :: (asc ": @0x" ++
        37 :: 88 :: (asc ": need " ++ 37 :: 117 :: (asc " bytes, have " ++ [37, 117])))) from rfl, printf_s,
      printf_lit (by decide), printf_s, printf_lit (by decide), printf_n (by simp), printf_lit (by decide), printf_n (by simp),
      printf_lit (by decide), printf_n (by simp), cstr_ofPtr hc.1, conv_X h1, conv_u h2, conv_u h3]
    simp [printf, New.says]

/-- The hypotheses are met: opening `/x` failed with error 2. -/
example (dm : Demangler) (bt : Bt) :
    (New.file 2 (some (asc "open")) (some (asc "/x"))).info dm (fun _ => none)
      ((New.file 2 (some (asc "open")) (some (asc "/x"))).make (fun _ => asc "No such file or directory") bt) none =
      some (asc "open /x: No such file or directory") := by
  have h := info_text_partial (fun _ => asc "No such file or directory") (fun _ => by decide) dm (fun _ => none) bt
    (.file 2 (some (asc "open")) (some (asc "/x"))) ⟨by decide, by decide⟩ trivial (by intros; contradiction)
  rw [h]
  rfl

/-- Numbers show as numbers: a read of 8 bytes at offset 300 with 3 left. -/
example (bt : Bt) :
    (New.bounds 0 (some (asc "read")) (4096, asc "i") 300 8 3).info (fun n => if n = asc "i" then some (asc "int") else none)
      (fun _ => some (asc "i"))
      ((New.bounds 0 (some (asc "read")) (4096, asc "i") 300 8 3).make (fun _ => asc "Success") bt) none =
      some (asc "int stream read: @0x12C: need 8 bytes, have 3") := by
  have h := info_text_partial (fun _ => asc "Success") (fun _ => by decide)
    (fun n => if n = asc "i" then some (asc "int") else none) (fun _ => some (asc "i")) bt
    (.bounds 0 (some (asc "read")) (4096, asc "i") 300 8 3) ⟨by decide, by decide⟩
    ⟨by decide, by decide, by decide, by decide, by
      intro d h
      have h : some (asc "int") = some d := h
      cases h
      decide⟩ (by rintro _ _ _ _ _ _ ⟨⟩; rfl)
  rw [h]
  decide +kernel

/-- **C91** `what` is the fixed title of the class, or the message of a message class. -/
theorem what_text (strerror : Nat → List Byte) (bt : Bt) (x : New) (hc : x.CStrings) :
    x.what (x.make strerror bt) = match x with
      | .plain .exception => asc "error"
      | .plain .badCast => asc "bad cast"
      | .plain .badTypeid => asc "bad typeid"
      | .alloc _ => asc "memory allocation failed"
      | .msg _ a => a.getD []
      | .sys _ _ | .sysCode _ _ => asc "system error"
      | .file _ _ _ => asc "file error"
      | .bounds .. => asc "stream bounds exception" := by
  cases x with
  | plain k => cases k <;> rfl
  | msg k a => exact cstr_ofPtr hc
  | _ => rfl

example (strerror : Nat → List Byte) (bt : Bt) :
    (New.msg .rangeError (some (asc "7"))).what ((New.msg .rangeError (some (asc "7"))).make strerror bt) = asc "7" := by
  rw [what_text strerror bt (.msg .rangeError (some (asc "7"))) (show 0 ∉ asc "7" by decide)]
  rfl

/-- **C91 violated** `bad_alloc (0x80000000)` says that it failed to allocate -2147483648 bytes: the format of `size_t` is
`%d`. -/
theorem info_alloc_violated (strerror : Nat → List Byte) (dm : Demangler) (mem : Nat → Option (List Byte)) (bt : Bt) :
    (New.alloc 0x80000000).info dm mem ((New.alloc 0x80000000).make strerror bt) none =
      some (asc "failed to allocate -2147483648 bytes") ∧
    (New.alloc 0x100000000).info dm mem ((New.alloc 0x100000000).make strerror bt) none =
      some (asc "failed to allocate 0 bytes") ∧
    (New.alloc 0x80000000).says strerror dm = asc "failed to allocate 2147483648 bytes" := by
  have h : ∀ n, (New.alloc n).info dm mem ((New.alloc n).make strerror bt) none =
      printf (asc "failed to allocate %d bytes") [.num n] := fun _ => rfl
  rw [h, h]
  refine ⟨?_, ?_, ?_⟩
  · decide +kernel
  · decide +kernel
  · show asc "failed to allocate " ++ digits 10 false 0x80000000 ++ asc " bytes" = _
    decide +kernel

/-- **C91 violated** a position of 4 GB in a stream is shown as 0: the format of the 64-bit offset is `%X`. -/
theorem info_bounds_violated (strerror : Nat → List Byte) (bt : Bt) :
    (New.bounds 0 (some (asc "read")) (4096, asc "x") 0x100000000 8 0).info (fun _ => none) (fun _ => some (asc "x"))
      ((New.bounds 0 (some (asc "read")) (4096, asc "x") 0x100000000 8 0).make strerror bt) none =
      some (asc "x stream read: @0x0: need 8 bytes, have 0") ∧
    (New.bounds 0 (some (asc "read")) (4096, asc "x") 0x100000000 8 0).says strerror (fun _ => none) =
      asc "x stream read: @0x100000000: need 8 bytes, have 0" := by
  constructor
  · show (match demangle (fun _ => none) 256 (typeBuf (asc "x")) with
      | none => none
      | some d => printf (asc "%s stream %s: @0x%X: need %u bytes, have %u")
        [.str d, .str (cstr (ofPtr (some (asc "read")))), .num 0x100000000, .num 8, .num 0]) = _
    rw [typeBuf_short (by decide) (by decide)]
    decide +kernel
  · show (asc "x" ++ asc " stream " ++ asc "read" ++ asc ": @0x" ++ digits 16 true 0x100000000 ++
      asc ": need " ++ digits 10 false 8 ++ asc " bytes, have " ++ digits 10 false 0) = _
    decide +kernel

/-! ## Formats of the caller -/

/-- **C91** a translated format: the pieces of the description appear in their order between the texts of the format. -/
theorem info_fmt_file (strerror : Nat → List Byte) (hs : ∀ e, 0 ∉ strerror e) (dm : Demangler)
    (mem : Nat → Option (List Byte)) (bt : Bt) (e : Nat) (op f : Option (List Byte))
    (hc : (New.file e op f).CStrings) (p q r s : List Byte) (hp : (37 : Byte) ∉ p ++ q ++ r ++ s) :
    (New.file e op f).info dm mem ((New.file e op f).make strerror bt)
      (some (p ++ asc "%s" ++ q ++ asc "%s" ++ r ++ asc "%s" ++ s)) =
      some (p ++ op.getD [] ++ q ++ (f.getD []).take 4095 ++ r ++ strerror e ++ s) := by
  show printf (p ++ [37, 115] ++ q ++ [37, 115] ++ r ++ [37, 115] ++ s) [.str (cstr (ofPtr op)), .str (cstr (fileName f)),
    .str (cstr (ofPtr (some (strerror e))))] = _
  simp only [List.mem_append, not_or] at hp
  rw [show p ++ [37, 115] ++ q ++ [37, 115] ++ r ++ [37, 115] ++ s =
      p ++ 37 :: 115 :: (q ++ 37 :: 115 :: (r ++ 37 :: 115 :: (s ++ []))) by simp, printf_lit hp.1.1.1, printf_s,
    printf_lit hp.1.1.2, printf_s, printf_lit hp.1.2, printf_s, printf_lit hp.2, cstr_ofPtr hc.1, cstr_fileName hc.2,
    cstr_ofPtr (p := some (strerror e)) (hs e)]
  simp [printf]

example (dm : Demangler) (mem : Nat → Option (List Byte)) (bt : Bt) :
    (New.file 2 (some (asc "open")) none).info dm mem ((New.file 2 (some (asc "open")) none).make (fun _ => asc "E") bt)
      (some (asc "<%s|%s|%s>")) = some (asc "<open||E>") :=
  info_fmt_file (fun _ => asc "E") (fun _ => by decide) dm mem bt 2 _ _ ⟨by decide, by decide⟩ (asc "<") (asc "|") (asc "|") (asc ">") (by decide)

/-- **C91** the same for the classes with a name and a message. -/
theorem info_fmt_sys (strerror : Nat → List Byte) (hs : ∀ e, 0 ∉ strerror e) (dm : Demangler)
    (mem : Nat → Option (List Byte)) (bt : Bt) (e : Nat) (op : Option (List Byte))
    (hc : (New.sys e op).CStrings) (p q r : List Byte) (hp : (37 : Byte) ∉ p ++ q ++ r) :
    (New.sys e op).info dm mem ((New.sys e op).make strerror bt) (some (p ++ asc "%s" ++ q ++ asc "%s" ++ r)) =
      some (p ++ op.getD [] ++ q ++ strerror e ++ r) := by
  show printf (p ++ [37, 115] ++ q ++ [37, 115] ++ r) [.str (cstr (ofPtr op)), .str (cstr (ofPtr (some (strerror e))))] = _
  simp only [List.mem_append, not_or] at hp
  rw [show p ++ [37, 115] ++ q ++ [37, 115] ++ r = p ++ 37 :: 115 :: (q ++ 37 :: 115 :: (r ++ [])) by simp, printf_lit hp.1.1,
    printf_s, printf_lit hp.1.2, printf_s, printf_lit hp.2, cstr_ofPtr hc, cstr_ofPtr (p := some (strerror e)) (hs e)]
  simp [printf]

example (dm : Demangler) (mem : Nat → Option (List Byte)) (bt : Bt) :
    (New.sys 2 (some (asc "open"))).info dm mem ((New.sys 2 (some (asc "open"))).make (fun _ => asc "E") bt)
      (some (asc "%s failed: %s")) = some (asc "open failed: E") :=
  info_fmt_sys (fun _ => asc "E") (fun _ => by decide) dm mem bt 2 (some (asc "open")) (show 0 ∉ asc "open" by decide) [] (asc " failed: ") [] (by decide)

/-- **C91** with `%zu` in the caller's format the size of a failed allocation is shown correctly, whatever it is. -/
theorem info_fmt_alloc (strerror : Nat → List Byte) (dm : Demangler) (mem : Nat → Option (List Byte)) (bt : Bt) (n : Nat)
    (hn : n < 2 ^ 64) (p q : List Byte) (hp : (37 : Byte) ∉ p ++ q) :
    (New.alloc n).info dm mem ((New.alloc n).make strerror bt) (some (p ++ asc "%zu" ++ q)) =
      some (p ++ digits 10 false n ++ q) := by
  show printf (p ++ [37, 122, 117] ++ q) [.num n] = _
  simp only [List.mem_append, not_or] at hp
  rw [show p ++ [37, 122, 117] ++ q = p ++ 37 :: 122 :: 117 :: (q ++ []) by simp, printf_lit hp.1, printf_z (by simp),
    printf_lit hp.2, conv_u hn]
  simp [printf]

example (strerror : Nat → List Byte) (dm : Demangler) (mem : Nat → Option (List Byte)) (bt : Bt) :
    (New.alloc 5000000000).info dm mem ((New.alloc 5000000000).make strerror bt) (some (asc "%zu bytes")) =
      some (asc "5000000000 bytes") := by
  rw [show asc "%zu bytes" = [] ++ asc "%zu" ++ asc " bytes" from rfl, info_fmt_alloc _ _ _ _ _ (by decide) _ _ (by decide)]
  decide +kernel

/-! ## The string that receives the text -/

/-- **C91** `info` never throws: it returns with the text, whatever non-empty text it is, in the string, whatever it held;
or, if the allocator failed, with a string that owns what it should own. -/
theorem info_returns {lit : Nat × Nat} {h : Memblock.Heap Byte} {o : Memblock.Obj} {s : List Byte} (text : List Byte) (ht : text ≠ [])
    (fuel : Nat) (asks : Nat → Option (Nat → Byte)) (hh : Memblock.HOK h) (r : Str.SRep h o s) (hl : Str.HasLit lit h) :
    ∃ h' o', infoInto lit text (fuel + 2) h o asks = some (some (h', o')) ∧ Memblock.Eff h o h' o' ∧
      (Str.SRep h' o' text ∨ ∃ n, asks n = none) := by
  rcases Str.format_partial fuel asks hh r hl (f := text) (Or.inr ht) with ⟨h1, h', o', h2, h3⟩ | ⟨h', o', h2, h3, h4⟩
  · exact ⟨h', o', by unfold infoInto; rw [h2]; rfl, h3, Or.inr h1⟩
  · exact ⟨h', o', by unfold infoInto; rw [h2]; rfl, h3, Or.inl h4⟩

/-- The text is never empty with the default format. -/
theorem info_ne (strerror : Nat → List Byte) (dm : Demangler) (mem : Nat → Option (List Byte)) (bt : Bt) (x : New)
    {text : List Byte} (h : x.info dm mem (x.make strerror bt) none = some text) : text ≠ [] := by
  rintro rfl
  cases x with
  | plain k =>
    have h : printf (asc "%s") [.str k.what] = some [] := h
    rw [show asc "%s" = [37, 115] from rfl, printf_s] at h
    cases k <;> simp [printf, Plain.what, asc] at h
  | alloc n =>
    have h : printf (asc "failed to allocate %d bytes") [.num n] = some [] := h
    rw [show asc "failed to allocate %d bytes" = asc "failed to allocate " ++ 37 :: 100 :: (asc " bytes" ++ []) from rfl,
      printf_lit (by decide)] at h
    simp [asc] at h
  | msg k a =>
    have h : printf (asc "%s: %s") [.str k.name, .str (cstr (ofPtr a))] = some [] := h
    rw [fmt_two] at h
    simp [asc] at h
  | sys e op =>
    have h : printf (asc "%s: %s") [.str (cstr (ofPtr op)), .str (cstr (ofPtr (some (strerror e))))] = some [] := h
    rw [fmt_two] at h
    simp [asc] at h
  | sysCode e op =>
    have h : printf (asc "%s: %s") [.str (cstr (ofPtr op)), .str (cstr (ofPtr (some (strerror e))))] = some [] := h
    rw [fmt_two] at h
    simp [asc] at h
  | file e op f =>
    have h : printf (asc "%s %s: %s") [.str (cstr (ofPtr op)), .str (cstr (fileName f)),
      .str (cstr (ofPtr (some (strerror e))))] = some [] := h
    rw [fmt_three] at h
    simp [asc] at h
  | bounds e op t o n r =>
    have h : (match mem t.1 with
      | none => none
      | some s => match demangle dm 256 (typeBuf s) with
        | none => none
        | some d => printf (asc "%s stream %s: @0x%X: need %u bytes, have %u")
          [.str d, .str (cstr (ofPtr op)), .num o, .num n, .num r]) = some [] := h
    split at h
    · cases h
    · split at h
      · cases h
      · rw [show asc "%s stream %s: @0x%X: need %u bytes, have %u" = 37 :: 115 :: (asc " stream " ++
          asc "%s: @0x%X: need %u bytes, have %u") from rfl, printf_s, printf_lit (by decide)] at h
        simp [asc] at h

theorem exHeap_hok : Memblock.HOK Str.exHeap := by
  intro id h
  have : 2 ≤ id := h
  show (if id = 0 then _ else if id = 1 then _ else _) = none
  rw [if_neg (by omega), if_neg (by omega)]

theorem exHeap_srep : Str.SRep Str.exHeap Str.ownedAb [97, 98] :=
  ⟨⟨fun _ => ⟨1, _, rfl, rfl, rfl, rfl, by decide⟩, fun h => absurd h (by decide)⟩, rfl, by decide⟩

theorem exHeap_lit : Str.HasLit (0, 2) Str.exHeap := ⟨_, rfl, rfl, by decide⟩

/-- The hypotheses are met: `info` of a bad cast into a string that holds `"ab"`. -/
example (asks : Nat → Option (Nat → Byte)) (ha : ∀ n, asks n ≠ none) :
    ∃ h' o', infoInto (0, 2) (asc "bad cast") 2 Str.exHeap Str.ownedAb asks = some (some (h', o')) ∧ Str.SRep h' o' (asc "bad cast") :=
  let ⟨h', o', e, _, h⟩ := info_returns (asc "bad cast") (by decide) 0 asks exHeap_hok exHeap_srep exHeap_lit
  ⟨h', o', e, h.resolve_right fun ⟨n, hn⟩ => ha n hn⟩

/-- **C91** so with the default format `info` always returns, for every exception, string and allocator. -/
theorem info_returns_default {lit : Nat × Nat} {h : Memblock.Heap Byte} {o : Memblock.Obj} {s : List Byte}
    (strerror : Nat → List Byte) (dm : Demangler) (mem : Nat → Option (List Byte)) (bt : Bt) (x : New) {text : List Byte}
    (hx : x.info dm mem (x.make strerror bt) none = some text)
    (fuel : Nat) (asks : Nat → Option (Nat → Byte)) (hh : Memblock.HOK h) (r : Str.SRep h o s) (hl : Str.HasLit lit h) :
    ∃ h' o', infoInto lit text (fuel + 2) h o asks = some (some (h', o')) ∧ Memblock.Eff h o h' o' ∧
      (Str.SRep h' o' text ∨ ∃ n, asks n = none) :=
  info_returns _ (info_ne strerror dm mem bt x hx) fuel asks hh r hl

/-- **C91 violated** a caller's format that produces nothing makes `info` loop for ever on a new string. -/
theorem info_empty_violated {lit : Nat × Nat} (h : Memblock.Heap Byte) (fuel : Nat) (asks : Nat → Option (Nat → Byte)) :
    infoInto lit [] fuel h (Str.ctor lit) asks = none := by
  unfold infoInto
  rw [Str.format_empty_violated h _ rfl]
  rfl

/-! ## Where the texts live -/

/-- **C91** a message is the exception's own copy: the string that holds it owns its memory (or is empty, or memory ran
out), and no other memory changes. -/
theorem message_owned {lit : Nat × Nat} {h : Memblock.Heap Byte} (hh : Memblock.HOK h) (hl : Str.HasLit lit h) (arg : List Byte)
    (a : Option (Nat → Byte)) :
    ∃ h' o', argObj lit h arg a = some (h', o') ∧ (∀ id, id < h.next → h'.blk id = h.blk id) ∧
      ((Str.SRep h' o' arg ∧ (arg ≠ [] → ∃ id, h.next ≤ id ∧ o'.ptr = some (id, 0))) ∨ (a = none ∧ Str.SRep h' o' [])) := by
  have r0 : Str.SRep h (Str.ctor lit) [] := by
    have := Str.CString.srep hl
    have e : Memblock.foreign h lit 0 = [] := by unfold Memblock.foreign; split <;> simp
    rwa [e] at this
  rcases Str.assign_s (lit := lit) arg a hh r0.ook hl with ⟨h1, h2⟩ | ⟨h1, o1, h2, h3, h4⟩
  · exact ⟨h, Str.ctor lit, by unfold argObj; rw [h2], fun _ _ => rfl, Or.inr ⟨h1, r0⟩⟩
  · refine ⟨h1, o1, by unfold argObj; rw [h2], fun id hid => h3.keep id hid (Or.inl rfl), Or.inl ⟨h4, fun hn => ?_⟩⟩
    have hcap : o1.cap ≠ 0 := by
      unfold Str.assign at h2
      rcases Str.resize_s (lit := lit) arg.length a hh r0.ook hl with ⟨_, k2⟩ | ⟨h5, o5, k2, _, t, _, _, k5⟩
      · rw [k2] at h2; simp [Str.thenStore] at h2
      · rw [k2] at h2
        unfold Str.thenStore at h2
        simp only at h2
        split at h2
        · simp at h2
        · simp only [Option.some.injEq, Prod.mk.injEq, true_and] at h2
          rw [← h2.2]
          exact k5 (by simpa using hn)
    rcases h3.own hcap with ⟨k1, _⟩ | k
    · exact absurd rfl k1
    · exact k

example (junk : Nat → Byte) : ∃ h' o', argObj (0, 2) Str.exHeap (asc "no") (some junk) = some (h', o') ∧ Str.SRep h' o' (asc "no") :=
  let ⟨h', o', e, _, h⟩ := message_owned exHeap_hok exHeap_lit (asc "no") (some junk)
  ⟨h', o', e, (h.resolve_right fun h => nomatch h.1).1⟩

/-- **C91 violated** the operation of a `system_error` is only a link: made from a `string` it dangles as soon as that string
is destroyed, which for a temporary is before the exception is caught. -/
theorem operation_dangles_violated {h : Memblock.Heap Byte} {o : Memblock.Obj} {s : List Byte}
    (r : Str.SRep h o s) (hown : o.cap ≠ 0) :
    ∃ op h' o', opObjStr o s = some op ∧ Memblock.deallocate h o = some (h', o') ∧
      operation h op (cstr s).length = some ((s ++ [0]).take ((cstr s).length + 1)) ∧
      operation h' op (cstr s).length = none := by
  obtain ⟨id, b, h1, h2, h3, h4, h5⟩ := r.ook.owned hown
  have hle : (cstr s).length ≤ s.length := by
    unfold cstr
    exact (List.takeWhile_sublist _).length_le
  have hf : h.free (id, 0) = some (h.setBlk id none) := by
    unfold Memblock.Heap.free
    rw [h2]
    obtain ⟨bh, bb⟩ := b
    cases h3
    rfl
  have hd : Memblock.deallocate h o = some (h.setBlk id none, Memblock.unlink o) := by
    unfold Memblock.deallocate
    rw [if_pos hown, h1]
    simp only [hf]
  refine ⟨opObj (id, 0) (cstr s).length, _, _, by unfold opObjStr; rw [h1]; rfl, hd, ?_, ?_⟩
  · have hr := r.read
    rw [h1] at hr
    show Memblock.ld h (some (id, 0)) _ = _
    unfold Memblock.ld at hr ⊢
    rw [if_neg (by omega)] at hr ⊢
    simp only [h2, Nat.zero_add, List.drop_zero] at hr ⊢
    split at hr
    · rename_i hb
      rw [if_pos (by omega)]
      have : b.bytes.take (s.length + 1) = s ++ [0] := by simpa using hr
      rw [← this, List.take_take, Nat.min_eq_left (by omega)]
    · simp at hr
  · show Memblock.ld _ (some (id, 0)) _ = _
    unfold Memblock.ld
    rw [if_neg (by omega)]
    simp [Memblock.Heap.setBlk]

/-- The string may be any that owns its text, such as `"ab"`. -/
example : ∃ op h' o', opObjStr Str.ownedAb [97, 98] = some op ∧ Memblock.deallocate Str.exHeap Str.ownedAb = some (h', o') ∧
    operation Str.exHeap op 2 = some [97, 98, 0] ∧ operation h' op 2 = none :=
  operation_dangles_violated exHeap_srep (by decide)

/-- **C91** made from characters that stay where they are (a literal), the operation stays readable whatever else the
program does to the memory. -/
theorem operation_literal {h h' : Memblock.Heap Byte} {p : Nat × Nat} {n : Nat} (hp : Str.CString h p n)
    (keep : ∀ id b, h.blk id = some b → b.heap = false → h'.blk id = some b) :
    operation h' (opObj p n) n = some (Memblock.foreign h p n ++ [0]) := by
  obtain ⟨b, h1, h2, h3⟩ := hp
  have hr : Memblock.ld h (some p) ((Memblock.foreign h p n).length + 1) = some (Memblock.foreign h p n ++ [0]) :=
    (Str.CString.srep ⟨b, h1, h2, h3⟩).read
  have hn : n = (Memblock.foreign h p n).length := (Str.CString.srep ⟨b, h1, h2, h3⟩).size
  rw [← hn] at hr
  show Memblock.ld h' (some p) (n + 1) = _
  rw [← hr]
  unfold Memblock.ld
  simp only [keep _ _ h1 h2, h1]

example : operation Str.exHeap (opObj (0, 0) 2) 2 = some [97, 98, 0] :=
  operation_literal (h := Str.exHeap) ⟨_, rfl, rfl, by decide⟩ fun _ _ h _ => h

/-- **C91 violated** two ways to make the same `system_error` give different `format ()`: the constructor from an error code
leaves that of `error_message`. -/
theorem format_code_violated (strerror : Nat → List Byte) (bt : Bt) :
    ((New.sys 2 none).make strerror bt).toBase.fmt = 3 ∧ ((New.sysCode 2 none).make strerror bt).toBase.fmt = 2 ∧
    ((New.msg .errorMessage none).make strerror bt).toBase.fmt = 2 := ⟨rfl, rfl, rfl⟩

end Ustl.Exn
