import Verif.Stream.Model
/-! # `istream_iterator` over a binary stream (mistream.h:110-167)

The iterator does not own its stream: the stream is the state that its operations run on.  The type `T` is any of
the streamable types of Model.lean. -/
namespace Ustl.Stream

/-- `istream_iterator<T>`: whether `_pis` is set (and then it is the stream), and the cached value `_v`.
Models mistream.h:125-167. -/
structure Itr (t : Ty) where
  /-- `_pis != nullptr` -/
  on : Bool
  /-- `_v` -/
  v : Val t

/-- The default constructor: the end of any stream. Models mistream.h:135. -/
def Itr.stop (t : Ty) : Itr t := ⟨false, dflt t⟩

/-- `*_pis >> _v`; `stream_at_eof` is false for an `istream`. Models mistream.h:115-118, 160-162. -/
def Itr.fetch (junk : List Byte) {t : Ty} (it : Itr t) : M IS (Itr t) := do
  let v ← read junk t it.v
  pure ⟨true, v⟩

/-- After `underflow (rs)` returned `k`: give up if it is too little. Models mistream.h:156-160. -/
def Itr.judge (junk : List Byte) {t : Ty} (it : Itr t) (rs k : Nat) : M IS (Itr t) :=
  if k < rs then pure ⟨false, it.v⟩ else it.fetch junk

/-- `Read ()`. The size asked for is `stream_size_of (_v)`, that of the value read before.
Models mistream.h:110-113, 151-163. -/
def Itr.next (junk : List Byte) {t : Ty} (it : Itr t) : M IS (Itr t) := fun s =>
  if it.on = false then .ret it s
  else if s.remaining < ss t it.v then (IS.underflow (ss t it.v) >>= it.judge junk (ss t it.v)) s
  else it.fetch junk s

/-- `istream_iterator (is)`. Models mistream.h:136. -/
def Itr.start (junk : List Byte) (t : Ty) : M IS (Itr t) := Itr.next junk ⟨true, dflt t⟩

/-- `operator-= (n)`: `streamoff` arithmetic wraps. On an iterator at the end it dereferences the null stream.
Models mistream.h:141 (`n = 1`), 145. -/
def Itr.backBy (junk : List Byte) {t : Ty} (it : Itr t) (n : Nat) : M IS (Itr t) := fun s =>
  if it.on = false then .oob
  else (IS.seek (u64 (s.pos - ((n + 1) * ss t it.v : Nat))) >>= fun _ => it.next junk) s

/-- `operator-- ()`. Models mistream.h:141. -/
def Itr.dec (junk : List Byte) {t : Ty} (it : Itr t) : M IS (Itr t) := it.backBy junk 1

/-- `operator+= (n)`. Models mistream.h:144. -/
def Itr.fwdBy (junk : List Byte) {t : Ty} : Nat → Itr t → M IS (Itr t)
  | 0, it => pure it
  | n + 1, it => it.next junk >>= fwdBy junk n

/-- `operator== (i)`, for two iterators on the stream `s` (or at the end): the positions compared are both that of the
stream. Models mistream.h:148. -/
def Itr.eq {t : Ty} (a b : Itr t) (s : IS) : Bool :=
  (!a.on && !b.on) || (a.on && b.on && s.pos == s.pos)

/-- `operator- (i)`, for two iterators on the stream `s`; `none` when one of them is at the end, and the null stream is
dereferenced. Models mistream.h:147. -/
def Itr.diff {t : Ty} (a b : Itr t) (s : IS) : Option Int :=
  if a.on && b.on then some (((s.pos : Int) - (s.pos : Int)) / (ss t a.v : Int)) else none

/-- `copy (i, istream_iterator<T>(), out)` from the iterator `it`: `while (i != end) { *out = *i; ++i; }`.
`Copies it s vs o`: it stores `vs` and has the outcome `o`. Models ualgobase.h:77-84, mistream.h:139-148. -/
inductive Copies (junk : List Byte) {t : Ty} : Itr t → IS → List (Val t) → Out IS Unit → Prop
  /-- the iterator is at the end -/
  | done {it : Itr t} {s : IS} : it.eq (Itr.stop t) s = true → Copies junk it s [] (.ret () s)
  /-- one more value -/
  | more {it it' : Itr t} {s s' : IS} {vs : List (Val t)} {o : Out IS Unit} : it.eq (Itr.stop t) s = false →
      it.next junk s = .ret it' s' → Copies junk it' s' vs o → Copies junk it s (it.v :: vs) o
  /-- the increment throws -/
  | thrown {it : Itr t} {s s' : IS} : it.eq (Itr.stop t) s = false → it.next junk s = .exn s' →
      Copies junk it s [it.v] (.exn s')
  /-- the increment leaves the block -/
  | out {it : Itr t} {s : IS} : it.eq (Itr.stop t) s = false → it.next junk s = .oob → Copies junk it s [it.v] .oob

/-- `copy (istream_iterator<T>(is), istream_iterator<T>(), out)`. Models mistream.h:136, ualgobase.h:77-84. -/
inductive CopiesAll (junk : List Byte) (t : Ty) : IS → List (Val t) → Out IS Unit → Prop
  /-- the constructor returns -/
  | made {it : Itr t} {s s' : IS} {vs : List (Val t)} {o : Out IS Unit} : Itr.start junk t s = .ret it s' →
      Copies junk it s' vs o → CopiesAll junk t s vs o
  /-- the constructor throws -/
  | thrown {s s' : IS} : Itr.start junk t s = .exn s' → CopiesAll junk t s [] (.exn s')
  /-- the constructor leaves the block -/
  | out {s : IS} : Itr.start junk t s = .oob → CopiesAll junk t s [] .oob

end Ustl.Stream
