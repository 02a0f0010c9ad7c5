import Verif.Err.Model
/-! # Error codes: theorems for C92 -/
namespace Ustl.Err

/-! ## Specification -/

/-- The error each enumerator names, by the table of the C++ standard ([system.error.syn]). -/
def posix : Errc → Int
  | .addressFamilyNotSupported => EAFNOSUPPORT
  | .addressInUse => EADDRINUSE
  | .addressNotAvailable => EADDRNOTAVAIL
  | .alreadyConnected => EISCONN
  | .argumentListTooLong => E2BIG
  | .argumentOutOfDomain => EDOM
  | .badAddress => EFAULT
  | .badFileDescriptor => EBADF
  | .badMessage => EBADMSG
  | .brokenPipe => EPIPE
  | .connectionAborted => ECONNABORTED
  | .connectionAlreadyInProgress => EALREADY
  | .connectionRefused => ECONNREFUSED
  | .connectionReset => ECONNRESET
  | .crossDeviceLink => EXDEV
  | .destinationAddressRequired => EDESTADDRREQ
  | .deviceOrResourceBusy => EBUSY
  | .directoryNotEmpty => ENOTEMPTY
  | .executableFormatError => ENOEXEC
  | .fileExists => EEXIST
  | .fileTooLarge => EFBIG
  | .filenameTooLong => ENAMETOOLONG
  | .functionNotSupported => ENOSYS
  | .hostUnreachable => EHOSTUNREACH
  | .identifierRemoved => EIDRM
  | .illegalByteSequence => EILSEQ
  | .inappropriateIoControlOperation => ENOTTY
  | .interrupted => EINTR
  | .invalidArgument => EINVAL
  | .invalidSeek => ESPIPE
  | .ioError => EIO
  | .isADirectory => EISDIR
  | .messageSize => EMSGSIZE
  | .networkDown => ENETDOWN
  | .networkReset => ENETRESET
  | .networkUnreachable => ENETUNREACH
  | .noBufferSpace => ENOBUFS
  | .noChildProcess => ECHILD
  | .noLink => ENOLINK
  | .noLockAvailable => ENOLCK
  | .noMessageAvailable => ENODATA
  | .noMessage => ENOMSG
  | .noProtocolOption => ENOPROTOOPT
  | .noSpaceOnDevice => ENOSPC
  | .noStreamResources => ENOSR
  | .noSuchDeviceOrAddress => ENXIO
  | .noSuchDevice => ENODEV
  | .noSuchFileOrDirectory => ENOENT
  | .noSuchProcess => ESRCH
  | .notADirectory => ENOTDIR
  | .notASocket => ENOTSOCK
  | .notAStream => ENOSTR
  | .notConnected => ENOTCONN
  | .notEnoughMemory => ENOMEM
  | .notSupported => ENOTSUP
  | .operationCanceled => ECANCELED
  | .operationInProgress => EINPROGRESS
  | .operationNotPermitted => EPERM
  | .operationNotSupported => EOPNOTSUPP
  | .operationWouldBlock => EWOULDBLOCK
  | .ownerDead => EOWNERDEAD
  | .permissionDenied => EACCES
  | .protocolError => EPROTO
  | .protocolNotSupported => EPROTONOSUPPORT
  | .readOnlyFileSystem => EROFS
  | .resourceDeadlockWouldOccur => EDEADLK
  | .resourceUnavailableTryAgain => EAGAIN
  | .resultOutOfRange => ERANGE
  | .stateNotRecoverable => ENOTRECOVERABLE
  | .streamTimeout => ETIME
  | .textFileBusy => ETXTBSY
  | .timedOut => ETIMEDOUT
  | .tooManyFilesOpenInSystem => ENFILE
  | .tooManyFilesOpen => EMFILE
  | .tooManyLinks => EMLINK
  | .tooManySymbolicLinkLevels => ELOOP
  | .valueTooLarge => EOVERFLOW
  | .wrongProtocolType => EPROTOTYPE

/-- All enumerators. -/
def Errc.all : List Errc := [
  .addressFamilyNotSupported, .addressInUse, .addressNotAvailable, .alreadyConnected,
  .argumentListTooLong, .argumentOutOfDomain, .badAddress, .badFileDescriptor,
  .badMessage, .brokenPipe, .connectionAborted, .connectionAlreadyInProgress,
  .connectionRefused, .connectionReset, .crossDeviceLink, .destinationAddressRequired,
  .deviceOrResourceBusy, .directoryNotEmpty, .executableFormatError, .fileExists,
  .fileTooLarge, .filenameTooLong, .functionNotSupported, .hostUnreachable,
  .identifierRemoved, .illegalByteSequence, .inappropriateIoControlOperation, .interrupted,
  .invalidArgument, .invalidSeek, .ioError, .isADirectory,
  .messageSize, .networkDown, .networkReset, .networkUnreachable,
  .noBufferSpace, .noChildProcess, .noLink, .noLockAvailable,
  .noMessageAvailable, .noMessage, .noProtocolOption, .noSpaceOnDevice,
  .noStreamResources, .noSuchDeviceOrAddress, .noSuchDevice, .noSuchFileOrDirectory,
  .noSuchProcess, .notADirectory, .notASocket, .notAStream,
  .notConnected, .notEnoughMemory, .notSupported, .operationCanceled,
  .operationInProgress, .operationNotPermitted, .operationNotSupported, .operationWouldBlock,
  .ownerDead, .permissionDenied, .protocolError, .protocolNotSupported,
  .readOnlyFileSystem, .resourceDeadlockWouldOccur, .resourceUnavailableTryAgain, .resultOutOfRange,
  .stateNotRecoverable, .streamTimeout, .textFileBusy, .timedOut,
  .tooManyFilesOpenInSystem, .tooManyFilesOpen, .tooManyLinks, .tooManySymbolicLinkLevels,
  .valueTooLarge, .wrongProtocolType
  ]

theorem val_eq {a b : Int} : (true && decide (a = b)) = true ↔ a = b := by
  rw [Bool.true_and]; exact decide_eq_true_iff

theorem Errc.mem_all (e : Errc) : e ∈ Errc.all := by cases e <;> decide

/-- **C92 (partial)** every enumerator has the value the standard gives it. Missing: `not_supported`
(`not_supported_violated`). -/
theorem errc_value_partial (e : Errc) (h : e ≠ .notSupported) : e.value = posix e := by
  cases e <;> first | rfl | exact absurd rfl h

example : Errc.value .timedOut = 110 := errc_value_partial .timedOut (by decide)

/-- **C92 violated** `errc::not_supported` is `EINVAL`, so a call that fails because of an invalid argument compares equal to
`not_supported`, and one that fails with `ENOTSUP` does not. -/
theorem not_supported_violated :
    (Code.mk2 EINVAL systemCategory).eqCond (Cond.ofErrc .notSupported) = true ∧
    (Code.mk2 ENOTSUP systemCategory).eqCond (Cond.ofErrc .notSupported) = false ∧
    posix .notSupported = ENOTSUP ∧ EINVAL ≠ ENOTSUP := by decide

/-- **C92 (partial)** testing a code for an error: it compares equal to an enumerator exactly if its value is the error the
standard says the enumerator names, whichever side the code is on and however the comparison is spelled. Missing:
`not_supported`. -/
theorem code_is_partial (n : Int) (k k' : Category) (e : Errc) (h : e ≠ .notSupported) :
    ((Code.mk2 n k).eqCond (Cond.ofErrc e) = true ↔ n = posix e) ∧
    ((Cond.ofErrc e).eqCode (Code.mk2 n k) = true ↔ n = posix e) ∧
    ((Code.mk2 n k).eq (Code.ofErrc e) = true ↔ n = posix e) ∧
    ((Cond.mk2 n k).eq (Cond.ofErrc e) = true ↔ n = posix e) ∧
    (k'.equivalent n (makeErrorCondition e) = true ↔ n = posix e) ∧
    (k'.equivalentCode (makeErrorCode e) n = true ↔ n = posix e) := by
  rw [← errc_value_partial e h]
  exact ⟨val_eq, val_eq.trans eq_comm, val_eq, val_eq, val_eq, val_eq⟩

example : (Code.mk2 4 systemCategory).eqCond (Cond.ofErrc .interrupted) = true :=
  ((code_is_partial 4 systemCategory systemCategory .interrupted (by decide)).1).2 rfl

/-- **C92 (partial)** different enumerators are different errors, but for `operation_would_block` and
`resource_unavailable_try_again`, which POSIX lets coincide. Missing: `not_supported` coincides with `invalid_argument`. -/
theorem errc_distinct_partial (e f : Errc) (hv : (Code.ofErrc e).eq (Code.ofErrc f) = true) :
    e = f ∨ (e ∈ [Errc.operationWouldBlock, .resourceUnavailableTryAgain] ∧ f ∈ [Errc.operationWouldBlock, .resourceUnavailableTryAgain]) ∨
      (e ∈ [Errc.notSupported, .invalidArgument] ∧ f ∈ [Errc.notSupported, .invalidArgument]) := by
  have key : ∀ e ∈ Errc.all, ∀ f ∈ Errc.all, e.value = f.value →
      e = f ∨ (e ∈ [Errc.operationWouldBlock, .resourceUnavailableTryAgain] ∧ f ∈ [Errc.operationWouldBlock, .resourceUnavailableTryAgain]) ∨
      (e ∈ [Errc.notSupported, .invalidArgument] ∧ f ∈ [Errc.notSupported, .invalidArgument]) := by decide +kernel
  refine key e e.mem_all f f.mem_all ?_
  exact val_eq.1 hv

example : (Code.ofErrc .operationWouldBlock).eq (Code.ofErrc .resourceUnavailableTryAgain) = true := by decide

/-- **C92** no enumerator means success. -/
theorem errc_nonzero (e : Errc) : (Code.ofErrc e).toBool = true ∧ (Cond.ofErrc e).toBool = true := by
  cases e <;> decide

/-- The steps of a program with an error code. -/
inductive Op
  | assign (n : Int) (k : Category)
  | assignErrc (e : Errc)
  | clear

/-- One step. Models uerror.h:137-141. -/
def step (c : Code) : Op → Code
  | .assign n k => c.assign n k
  | .assignErrc e => c.assignErrc e
  | .clear => c.clear

/-- One step of an error condition. Models uerror.h:168-172. -/
def stepCond (c : Cond) : Op → Cond
  | .assign n k => c.assign n k
  | .assignErrc e => c.assignErrc e
  | .clear => c.clear

/-- The value a program stored last. -/
def last (v : Int) : List Op → Int
  | [] => v
  | .assign n _ :: r => last n r
  | .assignErrc e :: r => last e.value r
  | .clear :: r => last 0 r

/-- **C92** an error code or condition holds what was stored last; it converts to `true` exactly if that is not 0, which a new
or cleared one is. -/
theorem history (c : Code) (d : Cond) (ops : List Op) :
    (ops.foldl step c).value = last c.value ops ∧ (ops.foldl stepCond d).value = last d.value ops ∧
    ((ops.foldl step Code.empty).toBool = true ↔ last 0 ops ≠ 0) ∧
    ((ops.foldl stepCond Cond.empty).toBool = true ↔ last 0 ops ≠ 0) := by
  have h1 : ∀ c : Code, (ops.foldl step c).value = last c.value ops := by
    intro c
    induction ops generalizing c with
    | nil => rfl
    | cons o r ih => cases o <;> exact ih _
  have h2 : ∀ d : Cond, (ops.foldl stepCond d).value = last d.value ops := by
    intro d
    clear h1
    induction ops generalizing d with
    | nil => rfl
    | cons o r ih => cases o <;> exact ih _
  refine ⟨h1 c, h2 d, ?_, ?_⟩
  · have := h1 Code.empty
    rw [show Code.empty.value = 0 from rfl] at this
    rw [← this]; simp [Code.toBool, Code.value]
  · have := h2 Cond.empty
    rw [show Cond.empty.value = 0 from rfl] at this
    rw [← this]; simp [Cond.toBool]

example : ([Op.assign 5 systemCategory, .clear, .assignErrc .interrupted].foldl step Code.empty).value = 4 := by decide

/-- **C92** equality is by value, on codes, on conditions and between them, so it is an equivalence and the comparisons agree
with each other. -/
theorem equality (c d : Code) (x y : Cond) :
    (c.eq d = true ↔ c.value = d.value) ∧ (x.eq y = true ↔ x.value = y.value) ∧
    (c.eqCond x = true ↔ c.value = x.value) ∧ (x.eqCode c = true ↔ c.value = x.value) := by
  exact ⟨val_eq, val_eq, val_eq, val_eq.trans eq_comm⟩

/-- **C92** the default condition of a code is equivalent to it, and to no code of another value; it has the same message. -/
theorem default_condition (strerror : Int → List UInt8) (c d : Code) :
    c.eqCond c.defaultCond = true ∧ (d.eqCond c.defaultCond = true ↔ d.value = c.value) ∧
    (c.category.defaultCond c.value).eq c.defaultCond = true ∧
    c.defaultCond.message strerror = c.message strerror := by
  exact ⟨val_eq.2 rfl, val_eq, val_eq.2 rfl, rfl⟩

/-- **C92** an exception made from a code gives it back. -/
theorem exception_code (c : Code) : (sysCode (sysErrno c)).eq c = true ∧ (sysCode (sysErrno c)).value = c.value := by
  exact ⟨val_eq.2 rfl, rfl⟩

/-- **C92 violated** the two categories cannot be told apart: `system_category () == generic_category ()`, so a code of an
operating system function compares equal to a POSIX condition of the same number, and a category has one name. -/
theorem categories_violated : systemCategory.eq genericCategory = true ∧ systemCategory.ne genericCategory = false ∧
    genericCategory.name = "system" := by decide

end Ustl.Err
