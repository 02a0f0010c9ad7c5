/-
# `ustl::atomic` and `ustl::atomic_flag` (uatomic.h)

Every member function of the two classes is one GCC `__atomic` builtin.  A history of an
atomic object is a sequence of calls, by any threads, in the order in which the builtins
take effect; nothing is assumed about that order, so a theorem about all histories is a
theorem about all schedules.

Simplifications: `T` is an unsigned or two's complement integer of `b` bits (`atomic` of a
pointer or of `bool` has only the load, store, exchange and compare members); the memory
order arguments are dropped, since the order in which operations on one object take effect is
total for each of them.
-/
namespace Ustl.Atomic

/-- The five functions that the read-modify-write builtins apply. (uatomic.h:48-67) -/
inductive Fn where
  | add | sub | and | or | xor
  deriving DecidableEq, Repr

/-- What each of them computes, on `b`-bit words. (uatomic.h:48-67) -/
def Fn.ap {b : Nat} : Fn → BitVec b → BitVec b → BitVec b
  | .add, x, y => x + y
  | .sub, x, y => x - y
  | .and, x, y => x &&& y
  | .or, x, y => x ||| y
  | .xor, x, y => x ^^^ y

/-- The GCC builtins that uatomic.h calls on the word of an `atomic`. (uatomic.h:36-67) -/
inductive Builtin (b : Nat) where
  | loadN
  | storeN (v : BitVec b)
  | exchangeN (v : BitVec b)
  | casN (expected desired : BitVec b) (weak : Bool)
  | fetchOp (f : Fn) (v : BitVec b)
  | opFetch (f : Fn) (v : BitVec b)
  deriving DecidableEq

/-- What a call gives back: a value (for compare-exchange, the contents of `expected`
    afterwards) and, for compare-exchange, whether it succeeded. (uatomic.h:36-67) -/
structure Ret (b : Nat) where
  val : BitVec b
  ok : Bool := true
  deriving DecidableEq

/-- GCC's documentation of the builtins: `Does o w r w'` when `o`, applied to a word that holds
    `w`, can return `r` and leave `w'`.  Only a weak compare-exchange has a choice: it may fail
    although the word holds the expected value. (uatomic.h:36-67) -/
inductive Builtin.Does {b : Nat} : Builtin b → BitVec b → Ret b → BitVec b → Prop where
  | loadN (w) : Does .loadN w ⟨w, true⟩ w
  | storeN (v w) : Does (.storeN v) w ⟨v, true⟩ v
  | exchangeN (v w) : Does (.exchangeN v) w ⟨w, true⟩ v
  | casHit (w d k) : Does (.casN w d k) w ⟨w, true⟩ d
  | casMiss (e d k w) : w ≠ e → Does (.casN e d k) w ⟨w, false⟩ w
  | casSpurious (w d) : Does (.casN w d true) w ⟨w, false⟩ w
  | fetchOp (f v w) : Does (.fetchOp f v) w ⟨w, true⟩ (f.ap w v)
  | opFetch (f v w) : Does (.opFetch f v) w ⟨f.ap w v, true⟩ (f.ap w v)

/-- The member functions of `atomic<T>`.  `operator++ (int)` and `operator-- (int)` are left
    out: they return an `atomic` by value, whose copy constructor is deleted, so that a use of
    them does not compile. (uatomic.h:36-78) -/
inductive Call (b : Nat) where
  | store (v : BitVec b) | load | exchange (v : BitVec b)
  | compareExchangeWeak (expected desired : BitVec b)
  | compareExchangeStrong (expected desired : BitVec b)
  | fetchAdd (v : BitVec b) | fetchSub (v : BitVec b) | fetchAnd (v : BitVec b)
  | fetchOr (v : BitVec b) | fetchXor (v : BitVec b)
  | addFetch (v : BitVec b) | subFetch (v : BitVec b) | andFetch (v : BitVec b)
  | orFetch (v : BitVec b) | xorFetch (v : BitVec b)
  | conv | assign (v : BitVec b)
  | preInc | preDec
  | addAssign (v : BitVec b) | subAssign (v : BitVec b) | andAssign (v : BitVec b)
  | orAssign (v : BitVec b) | xorAssign (v : BitVec b)
  deriving DecidableEq

/-- The builtin behind each member function.  The compound assignments and the increments
    return `*this`, a reference: what the builtin returned is dropped, and reading the value
    out of the result is a further `operator T`. (uatomic.h:36-78) -/
def Call.code {b : Nat} : Call b → Builtin b
  | .store v => .storeN v
  | .load => .loadN
  | .exchange v => .exchangeN v
  | .compareExchangeWeak e d => .casN e d true
  | .compareExchangeStrong e d => .casN e d false
  | .fetchAdd v => .fetchOp .add v
  | .fetchSub v => .fetchOp .sub v
  | .fetchAnd v => .fetchOp .and v
  | .fetchOr v => .fetchOp .or v
  | .fetchXor v => .fetchOp .xor v
  | .addFetch v => .opFetch .add v
  | .subFetch v => .opFetch .sub v
  | .andFetch v => .opFetch .and v
  | .orFetch v => .opFetch .or v
  | .xorFetch v => .opFetch .xor v
  | .conv => .loadN
  | .assign v => .storeN v
  | .preInc => .opFetch .add 1
  | .preDec => .opFetch .sub 1
  | .addAssign v => .opFetch .add v
  | .subAssign v => .opFetch .sub v
  | .andAssign v => .opFetch .and v
  | .orAssign v => .opFetch .or v
  | .xorAssign v => .opFetch .xor v

/-- One call in a history: who made it, what it was, what it returned. (uatomic.h:26-79) -/
structure Event (b : Nat) where
  tid : Nat
  call : Call b
  ret : Ret b
  deriving DecidableEq

/-- `Hist w es w'`: the calls `es`, taking effect in that order on an object that holds `w`,
    can return what they returned and leave `w'`. (uatomic.h:26-79) -/
inductive Hist {b : Nat} : BitVec b → List (Event b) → BitVec b → Prop where
  | nil (w) : Hist w [] w
  | cons {w e w' es w''} : Builtin.Does (Call.code e.call) w e.ret w' → Hist w' es w'' →
      Hist w (e :: es) w''

/-- The value that `atomic_flag::test_and_set` returns, and what it leaves. (uatomic.h:94-95) -/
def testAndSet (v : Bool) : Bool × Bool := (v, true)

/-- What `atomic_flag::clear` leaves. (uatomic.h:92-93) -/
def clear (_ : Bool) : Bool := false

end Ustl.Atomic
