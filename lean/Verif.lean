import Verif.Basic
import Verif.Search.Props
import Verif.Heap.Props
import Verif.Permute.Props
import Verif.Forward.Props
import Verif.SetOps.Props
import Verif.Bytes.Props
import Verif.Memblock.Props
import Verif.Vector.Props
import Verif.Vector.Self
import Verif.Vector.Own
import Verif.Vector.OwnInsert
import Verif.Str.Props
import Verif.StrFind.Props
import Verif.Utf8.Props
import Verif.Assoc.Props
import Verif.Assoc.BaseProps
import Verif.Seq.Props
import Verif.Seq.Self
import Verif.Bitset.Props
import Verif.Stream.Props
import Verif.Stream.Safe
import Verif.Stream.OutSafe
import Verif.Stream.Bounded
import Verif.Util.Props
import Verif.Util.Bits
import Verif.Chrono.Props
import Verif.Chrono.Time
import Verif.Iter.Props
import Verif.SmartPtr.Props
import Verif.Shared.Props
import Verif.Text.Lines
import Verif.Text.RoundTrip
import Verif.Text.Safety
import Verif.Text.History
import Verif.File.Fd
import Verif.File.Ofs
import Verif.File.OfsClose
import Verif.File.Ifs
import Verif.File.IfsProps
import Verif.File.Props
import Verif.LinAlg.Ctor
import Verif.LinAlg.Simd
import Verif.LinAlg.Sat
import Verif.Exn.Hostile
import Verif.Exn.Names
import Verif.Text.Chars
import Verif.Cmp.Props
import Verif.Link.Read
import Verif.File.Load
import Verif.File.Errors
import Verif.Str.Number
import Verif.Str.Concat
import Verif.StrFind.PtrCmp
import Verif.Atomic.Model
import Verif.Atomic.History
import Verif.Atomic.CasLoop
import Verif.Atomic.Spin
import Verif.Stream.IterModel
import Verif.Stream.Iter
import Verif.Text.Iter
import Verif.File.SetBuf
import Verif.New.Model
import Verif.New.Props
import Verif.File.SeekModel
import Verif.File.SeekRead
import Verif.File.SeekWrite
import Verif.File.Ctl
import Verif.Ctr.Model
import Verif.Ctr.Lemmas
import Verif.Ctr.Props
import Verif.Ctr.Functors
import Verif.Raw.Model
import Verif.Raw.Lemmas
import Verif.Raw.Props
import Verif.Raw.Vec
import Verif.Raw.VecProps
import Verif.Raw.Guard
import Verif.Chrono.ClockModel
import Verif.Chrono.Clock
import Verif.Chrono.ClockText
import Verif.File.LifeModel
import Verif.File.Life
import Verif.File.Life2
import Verif.File.Life3
import Verif.Text.Manip
import Verif.Text.Compose
import Verif.Text.ComposeInj
import Verif.Text.BitsetText
import Verif.LinAlg.Limits
import Verif.Stream.OutIter
import Verif.Stream.Grain4
import Verif.LinAlg.Packed
import Verif.LinAlg.Packed2
import Verif.LinAlg.Convert
import Verif.VecLink.Examples
import Verif.Meta.TypelistProps
import Verif.Meta.TypeTraitsProps
import Verif.Exn.Info
import Verif.Exn.InfoProps
import Verif.Err.Model
import Verif.Err.Props
import Verif.Heap.Ctor
import Verif.Atomic.TestAndSet
import Verif.Bytes.Typed
import Verif.Str.Self
import Verif.Str.Self2
import Verif.Text.ReadBase
import Verif.Util.Mixed
import Verif.Iter.Index
import Verif.Text.Float
import Verif.Text.CopyProps
import Verif.File.Pipe
import Verif.Fds.Main
