import Verif.Basic
/-!
# Several fstream objects in one process: the model (fstream.h, fstream.cc)

The system keeps a table of descriptors; each entry refers to an open file. Objects keep descriptors. A descriptor that `open` returns may
be any that is free then, in particular one that was closed before. Interrupted, short and failing transfers are the subject of the File
modules; here writes are complete, and a call fails exactly if its descriptor is not open. Exceptions are off, as constructed.
-/
namespace Ustl.Fds

/-- A byte. -/
abbrev Byte := BitVec 8

/-- A map with one entry changed. -/
def upd {α : Type} (f : Nat → α) (i : Nat) (v : α) : Nat → α := fun k => if k = i then v else f k

/-- The system: what it knows of descriptors and files. Not code of the library: POSIX `open`, `close` and `write`. -/
structure Kernel where
  /-- the open file of a descriptor -/
  table : Nat → Option Nat := fun _ => none
  /-- what was written to each file since it was opened -/
  data : Nat → List Byte := fun _ => []
  /-- how many times `open` has succeeded; that number names the next open file -/
  next : Nat := 0

/-- The open file of descriptor `fd`; negative ones have none. -/
def Kernel.file (k : Kernel) (fd : Int) : Option Nat := if fd < 0 then none else k.table fd.toNat

/-- An `fstream`: `_fd` and the state. Models fstream.h:23-72; the name is the subject of C60. -/
structure Obj where
  /-- `_fd`. Models fstream.cc:19-22. -/
  fd : Int := -1
  /-- `rdstate ()`: 1 is bad, 2 is eof, 4 is fail -/
  state : Nat := 0
deriving DecidableEq, Repr

/-- `close ()`: a refusal of the system is noted, and the descriptor is forgotten. Models fstream.cc:117-128. -/
def closeF (o : Obj) (k : Kernel) : Obj × Kernel :=
  if o.fd < 0 then (o, k)
  else match k.file o.fd with
    | some _ => ({ o with fd := -1 }, { k with table := upd k.table o.fd.toNat none })
    | none => ({ fd := -1, state := o.state ||| 5 }, k)

/-- `detach ()`. Models fstream.cc:76-80. -/
def detachF (o : Obj) : Obj := { o with fd := -1 }

/-- `attach (nfd)`. Models fstream.cc:64-73. -/
def attachF (nfd : Int) (o : Obj) (k : Kernel) : Obj × Kernel :=
  let o := { o with state := 0 }
  let o := if nfd < 0 then { o with state := o.state ||| 1 } else o
  let (o, k) := closeF o k
  ({ o with fd := nfd }, k)

/-- `open (filename, mode)`: `ans` is the descriptor that the system chose, `none` that it refused; a descriptor in use is never the
answer. Models fstream.cc:109-113. -/
def openF (ans : Option Nat) (o : Obj) (k : Kernel) : Option (Obj × Kernel) :=
  match ans with
  | none => some (attachF (-1) o k)
  | some n =>
    match k.table n with
    | some _ => none
    | none => some (attachF n o { k with table := upd k.table n (some k.next), data := upd k.data k.next [], next := k.next + 1 })

/-- `write (p, n)`, its result and the rest. Models fstream.cc:169-188. -/
def writeF (d : List Byte) (o : Obj) (k : Kernel) : Nat × Obj × Kernel :=
  if d = [] then (0, o, k)
  else match k.file o.fd with
    | some f => (d.length, o, { k with data := upd k.data f (k.data f ++ d) })
    | none => (0, { o with state := o.state ||| 4 }, k)

/-- `~fstream ()`; the first result is whether its assertion fails. Models fstream.cc:48-54. -/
def destroyF (o : Obj) (k : Kernel) : Bool × Kernel :=
  let (o, k) := closeF { o with state := 0 } k
  (decide (o.state &&& 1 ≠ 0), k)

/-- All that there is: the system, the objects that are alive, and how many assertions have failed. -/
structure World where
  /-- the system -/
  k : Kernel := {}
  /-- the objects -/
  objs : Nat → Option Obj := fun _ => none
  /-- failed assertions -/
  asserts : Nat := 0

/-- What a program does. -/
inductive Op
  /-- `fstream i;` -/
  | make (i : Nat)
  /-- `i.open (...)`, and what the system answers -/
  | open (i : Nat) (ans : Option Nat)
  /-- `i.write (d)` -/
  | write (i : Nat) (d : List Byte)
  /-- `i.close ()` -/
  | close (i : Nat)
  /-- `i.detach ()` -/
  | detach (i : Nat)
  /-- `fstream j (i);` -/
  | copy (i j : Nat)
  /-- `i = j;` -/
  | assign (i j : Nat)
  /-- object `i` is destroyed -/
  | destroy (i : Nat)

/-- Do it; `none`: no program does it, the object is not alive (or is already), or the system has no such answer. The number is the result of
`write`. The copy constructor and the assignment are those the compiler makes, member by member. Models fstream.h:23-72, uios.h:77-96. -/
def Op.run (w : World) : Op → Option (Nat × World)
  | .make i => match w.objs i with
    | none => some (0, { w with objs := upd w.objs i (some {}) })
    | some _ => none
  | .open i a => do
    let o ← w.objs i
    let (o, k) ← openF a o w.k
    some (0, { w with objs := upd w.objs i (some o), k := k })
  | .write i d => do
    let o ← w.objs i
    let (n, o, k) := writeF d o w.k
    some (n, { w with objs := upd w.objs i (some o), k := k })
  | .close i => do
    let o ← w.objs i
    let (o, k) := closeF o w.k
    some (0, { w with objs := upd w.objs i (some o), k := k })
  | .detach i => do
    let o ← w.objs i
    some (0, { w with objs := upd w.objs i (some (detachF o)) })
  | .copy i j => do
    let o ← w.objs i
    match w.objs j with
    | none => some (0, { w with objs := upd w.objs j (some o) })
    | some _ => none
  | .assign i j => do
    let _ ← w.objs i
    let o ← w.objs j
    some (0, { w with objs := upd w.objs i (some o) })
  | .destroy i => do
    let o ← w.objs i
    let (b, k) := destroyF o w.k
    some (0, { k := k, objs := upd w.objs i none, asserts := w.asserts + if b then 1 else 0 })

/-- Do all of it; the numbers are the results in order. -/
def runAll (w : World) : List Op → Option (List Nat × World)
  | [] => some ([], w)
  | op :: ops => do
    let (n, w) ← op.run w
    let (ns, w) ← runAll w ops
    some (n :: ns, w)

/-! ## The specification: objects hold files, there are no descriptors -/

/-- An object of the specification. -/
structure SObj where
  /-- the file it has open -/
  file : Option Nat := none
  /-- `rdstate ()` -/
  state : Nat := 0
deriving DecidableEq, Repr

/-- Objects, what each file was given, and which files are open. -/
structure Spec where
  /-- what was written to each file -/
  data : Nat → List Byte := fun _ => []
  /-- the number of files opened -/
  next : Nat := 0
  /-- whether a file is open -/
  isOpen : Nat → Bool := fun _ => false
  /-- the objects -/
  objs : Nat → Option SObj := fun _ => none

/-- The file is closed, if there is one. -/
def Spec.shut (s : Spec) : Option Nat → Spec
  | none => s
  | some f => { s with isOpen := upd s.isOpen f false }

/-- What a program may do: the operations on one object, and the two ways to hand a file over. -/
inductive Step
  /-- `fstream i;` -/
  | make (i : Nat)
  /-- `i.open (...)` -/
  | open (i : Nat) (ans : Option Nat)
  /-- `i.write (d)` -/
  | write (i : Nat) (d : List Byte)
  /-- `i.close ()` -/
  | close (i : Nat)
  /-- `i.detach ()` -/
  | detach (i : Nat)
  /-- `fstream j (i); i.detach ();` -/
  | handNew (i j : Nat)
  /-- `i.close (); i = j; j.detach ();` -/
  | hand (i j : Nat)
  /-- object `i` is destroyed -/
  | destroy (i : Nat)

/-- The operations of a step. -/
def Step.ops : Step → List Op
  | .make i => [.make i]
  | .open i a => [.open i a]
  | .write i d => [.write i d]
  | .close i => [.close i]
  | .detach i => [.detach i]
  | .handNew i j => [.copy i j, .detach i]
  | .hand i j => [.close i, .assign i j, .detach j]
  | .destroy i => [.destroy i]

/-- What a step means: a file that is opened is a new one, writing adds to the file of the object and to no other, closing and destroying close
the file of the object and no other. The numbers are the results. -/
def Step.spec (s : Spec) : Step → Option (List Nat × Spec)
  | .make i => some ([0], { s with objs := upd s.objs i (some {}) })
  | .open i a => do
    let o ← s.objs i
    let s := s.shut o.file
    match a with
    | none => some ([0], { s with objs := upd s.objs i (some { file := none, state := 1 }) })
    | some _ => some ([0], { data := upd s.data s.next [], next := s.next + 1, isOpen := upd s.isOpen s.next true, objs := upd s.objs i (some { file := some s.next, state := 0 }) })
  | .write i d => do
    let o ← s.objs i
    if d = [] then some ([0], s)
    else match o.file with
      | some f => some ([d.length], { s with data := upd s.data f (s.data f ++ d) })
      | none => some ([0], { s with objs := upd s.objs i (some { o with state := o.state ||| 4 }) })
  | .close i => do
    let o ← s.objs i
    some ([0], { s.shut o.file with objs := upd s.objs i (some { o with file := none }) })
  | .detach i => do
    let o ← s.objs i
    some ([0], { s with objs := upd s.objs i (some { o with file := none }) })
  | .handNew i j => do
    let o ← s.objs i
    some ([0, 0], { s with objs := upd (upd s.objs j (some o)) i (some { o with file := none }) })
  | .hand i j => do
    let o ← s.objs i
    let p ← s.objs j
    some ([0, 0, 0], { s.shut o.file with objs := upd (upd s.objs i (some p)) j (some { p with file := none }) })
  | .destroy i => do
    let o ← s.objs i
    some ([0], { s.shut o.file with objs := upd s.objs i none })

/-- All steps of a program. -/
def specAll (s : Spec) : List Step → Option (List Nat × Spec)
  | [] => some ([], s)
  | t :: ts => do
    let (n, s) ← t.spec s
    let (ns, s) ← specAll s ts
    some (n ++ ns, s)

end Ustl.Fds
