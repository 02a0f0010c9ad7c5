import Verif.Basic
/-!
# shared_ptr (umemory.h) with its atomic count (uatomic.h), under any interleaving

The threads work on `shared_ptr` objects (slots). Different threads may at any time use different objects; an object that
one thread is changing is not used by another (`busy`), except that several threads may copy from the same one. The count
is accessed by sequentially consistent atomic operations (`memory_order_seq_cst`, uatomic.h:58-61, 68), so a history is
an interleaving of them. Reading and writing the member `_p` of objects only one thread uses needs no steps of its own.

`--ov->refs` calls `atomic::operator--`, which does `sub_fetch (1); return *this;` (uatomic.h:73), and `!` then converts
the returned *reference* by `load()` (uatomic.h:68): the decrement and the test are two atomic operations, hence two
steps here.
-/
namespace Ustl.Shared

/-- What a thread is doing. -/
inductive PC
  | idle
  /-- in the copy constructor of slot `d` from slot `s`: has read `p._p`, is about to do `++_p->refs` -/
  | copyInc (d s c : Nat)
  /-- in `reset`, `_p` has been replaced: about to do `--ov->refs` -/
  | dec (c : Nat)
  /-- about to load `ov->refs` for the `!` -/
  | load (c : Nat)
  /-- the test succeeded: about to `delete ov`, which deletes the object -/
  | del (c : Nat)
deriving DecidableEq

/-- The state: the slots (`_p`, a container or null), the threads, and for each container its count, how many times it has
been deleted; the number of containers made; and whether a deleted container has been accessed. Containers are not
reused. The count is a `size_t`; it is at most the number of slots and threads, so it does not wrap. -/
structure St where
  slots : List (Option Nat)
  thr : List PC
  refs : Nat → Nat
  freed : Nat → Nat
  made : Nat
  bad : Bool

/-- `f` with the value at `i` replaced. -/
def upd {α : Type} (f : Nat → α) (i : Nat) (a : α) : Nat → α := fun j => if j = i then a else f j

/-- Slot `i` is being copied to or from. -/
def busy (s : St) (i : Nat) : Prop := ∃ d src c, PC.copyInc d src c ∈ s.thr ∧ (i = d ∨ i = src)

/-- Whether an access to container `c` is an access to a deleted one. -/
def touch (s : St) (c : Nat) : Bool := s.bad || decide (0 < s.freed c)

/-- One step of thread `t`. With `lock` the decrement in `reset` waits until no other thread is between the decrement and
the end of its own `reset` of the same container: this is what a lock around `reset` or a test of the value returned by
`sub_fetch` would do. The code is `lock = False`. -/
inductive Step (lock : Prop) (s : St) : St → Prop
  /-- `shared_ptr (pointer)`. Models umemory.h:172, 177. -/
  | create (t i : Nat) (ht : s.thr[t]? = some .idle) (hi : s.slots[i]? = some none) (hb : ¬ busy s i) :
      Step lock s { s with slots := s.slots.set i (some s.made), refs := upd s.refs s.made 1, made := s.made + 1 }
  /-- `shared_ptr (const shared_ptr&)`, first half: reads the pointer. Models umemory.h:179. -/
  | copyBegin (t d i c : Nat) (ht : s.thr[t]? = some .idle) (hd : s.slots[d]? = some none) (hi : s.slots[i]? = some (some c))
      (hb : ¬ busy s d) : Step lock s { s with thr := s.thr.set t (.copyInc d i c) }
  /-- second half: `if (_p) ++_p->refs`. Models umemory.h:179, uatomic.h:72. -/
  | copyEnd (t d i c : Nat) (ht : s.thr[t]? = some (.copyInc d i c)) :
      Step lock s { s with thr := s.thr.set t .idle, slots := s.slots.set d (some c),
                           refs := upd s.refs c (s.refs c + 1), bad := touch s c }
  /-- `shared_ptr (shared_ptr&&)`. Models umemory.h:178. -/
  | move (t d i c : Nat) (ht : s.thr[t]? = some .idle) (hd : s.slots[d]? = some none) (hi : s.slots[i]? = some (some c))
      (hb : ¬ busy s d) (hb' : ¬ busy s i) : Step lock s { s with slots := (s.slots.set i none).set d (some c) }
  /-- `swap` and `operator= (shared_ptr&&)`. Models umemory.h:191, 194. -/
  | swap (t i j : Nat) (p q : Option Nat) (ht : s.thr[t]? = some .idle) (hi : s.slots[i]? = some p) (hj : s.slots[j]? = some q)
      (hb : ¬ busy s i) (hb' : ¬ busy s j) : Step lock s { s with slots := (s.slots.set i q).set j p }
  /-- `reset ()` (also the destructor): `ov = _p; _p = nullptr`. Models umemory.h:180, 184-187. -/
  | reset (t i c : Nat) (ht : s.thr[t]? = some .idle) (hi : s.slots[i]? = some (some c)) (hb : ¬ busy s i) :
      Step lock s { s with slots := s.slots.set i none, thr := s.thr.set t (.dec c) }
  /-- `reset (p)`: `ov = _p; _p = new container (p)`. Models umemory.h:184-187. -/
  | resetTo (t i c : Nat) (ht : s.thr[t]? = some .idle) (hi : s.slots[i]? = some (some c)) (hb : ¬ busy s i) :
      Step lock s { s with slots := s.slots.set i (some s.made), thr := s.thr.set t (.dec c),
                           refs := upd s.refs s.made 1, made := s.made + 1 }
  /-- `--ov->refs`: `sub_fetch (1)`. Models umemory.h:188, uatomic.h:60-61, 73. -/
  | dec (t c : Nat) (ht : s.thr[t]? = some (.dec c)) (hl : lock → .load c ∉ s.thr ∧ .del c ∉ s.thr) :
      Step lock s { s with thr := s.thr.set t (.load c), refs := upd s.refs c (s.refs c - 1), bad := touch s c }
  /-- `!`: `load()`. Models umemory.h:188, uatomic.h:68. -/
  | load (t c : Nat) (ht : s.thr[t]? = some (.load c)) :
      Step lock s { s with thr := s.thr.set t (if s.refs c = 0 then .del c else .idle), bad := touch s c }
  /-- `delete ov`. Models umemory.h:189, 173. -/
  | del (t c : Nat) (ht : s.thr[t]? = some (.del c)) :
      Step lock s { s with thr := s.thr.set t .idle, freed := upd s.freed c (s.freed c + 1), bad := touch s c }
  /-- An owner uses its pointer: `use_count`, `unique`, `get`, `*`, `->`. Models umemory.h:181-183, 196-198. -/
  | use (t i c : Nat) (ht : s.thr[t]? = some .idle) (hi : s.slots[i]? = some (some c)) :
      Step lock s { s with bad := touch s c }

/-- At the beginning all slots are empty and all threads idle. -/
def init (slots threads : Nat) : St :=
  ⟨List.replicate slots none, List.replicate threads .idle, fun _ => 0, fun _ => 0, 0, false⟩

/-- The states that schedules lead to, for any numbers of slots and threads. -/
inductive Reach (lock : Prop) : St → Prop
  | init (slots threads : Nat) : Reach lock (init slots threads)
  | step {s s' : St} : Reach lock s → Step lock s s' → Reach lock s'

end Ustl.Shared
