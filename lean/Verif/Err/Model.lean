import Verif.Text.Libc
/-!
# Error codes (uerror.h, ustdxept.h)

`error_code`, `error_condition`, `error_category`, `errc`. `int` is 32 bits wide; the values of the `E...` macros are those of
Linux (errno.h, outside the repository).
-/
namespace Ustl.Err

/-! ## errno.h -/
/-- `E2BIG` of Linux (outside the repository). -/
abbrev E2BIG : Int := 7
/-- `EACCES` of Linux (outside the repository). -/
abbrev EACCES : Int := 13
/-- `EADDRINUSE` of Linux (outside the repository). -/
abbrev EADDRINUSE : Int := 98
/-- `EADDRNOTAVAIL` of Linux (outside the repository). -/
abbrev EADDRNOTAVAIL : Int := 99
/-- `EAFNOSUPPORT` of Linux (outside the repository). -/
abbrev EAFNOSUPPORT : Int := 97
/-- `EAGAIN` of Linux (outside the repository). -/
abbrev EAGAIN : Int := 11
/-- `EALREADY` of Linux (outside the repository). -/
abbrev EALREADY : Int := 114
/-- `EBADF` of Linux (outside the repository). -/
abbrev EBADF : Int := 9
/-- `EBADMSG` of Linux (outside the repository). -/
abbrev EBADMSG : Int := 74
/-- `EBUSY` of Linux (outside the repository). -/
abbrev EBUSY : Int := 16
/-- `ECANCELED` of Linux (outside the repository). -/
abbrev ECANCELED : Int := 125
/-- `ECHILD` of Linux (outside the repository). -/
abbrev ECHILD : Int := 10
/-- `ECONNABORTED` of Linux (outside the repository). -/
abbrev ECONNABORTED : Int := 103
/-- `ECONNREFUSED` of Linux (outside the repository). -/
abbrev ECONNREFUSED : Int := 111
/-- `ECONNRESET` of Linux (outside the repository). -/
abbrev ECONNRESET : Int := 104
/-- `EDEADLK` of Linux (outside the repository). -/
abbrev EDEADLK : Int := 35
/-- `EDESTADDRREQ` of Linux (outside the repository). -/
abbrev EDESTADDRREQ : Int := 89
/-- `EDOM` of Linux (outside the repository). -/
abbrev EDOM : Int := 33
/-- `EEXIST` of Linux (outside the repository). -/
abbrev EEXIST : Int := 17
/-- `EFAULT` of Linux (outside the repository). -/
abbrev EFAULT : Int := 14
/-- `EFBIG` of Linux (outside the repository). -/
abbrev EFBIG : Int := 27
/-- `EHOSTUNREACH` of Linux (outside the repository). -/
abbrev EHOSTUNREACH : Int := 113
/-- `EIDRM` of Linux (outside the repository). -/
abbrev EIDRM : Int := 43
/-- `EILSEQ` of Linux (outside the repository). -/
abbrev EILSEQ : Int := 84
/-- `EINPROGRESS` of Linux (outside the repository). -/
abbrev EINPROGRESS : Int := 115
/-- `EINTR` of Linux (outside the repository). -/
abbrev EINTR : Int := 4
/-- `EINVAL` of Linux (outside the repository). -/
abbrev EINVAL : Int := 22
/-- `EIO` of Linux (outside the repository). -/
abbrev EIO : Int := 5
/-- `EISCONN` of Linux (outside the repository). -/
abbrev EISCONN : Int := 106
/-- `EISDIR` of Linux (outside the repository). -/
abbrev EISDIR : Int := 21
/-- `ELOOP` of Linux (outside the repository). -/
abbrev ELOOP : Int := 40
/-- `EMFILE` of Linux (outside the repository). -/
abbrev EMFILE : Int := 24
/-- `EMLINK` of Linux (outside the repository). -/
abbrev EMLINK : Int := 31
/-- `EMSGSIZE` of Linux (outside the repository). -/
abbrev EMSGSIZE : Int := 90
/-- `ENAMETOOLONG` of Linux (outside the repository). -/
abbrev ENAMETOOLONG : Int := 36
/-- `ENETDOWN` of Linux (outside the repository). -/
abbrev ENETDOWN : Int := 100
/-- `ENETRESET` of Linux (outside the repository). -/
abbrev ENETRESET : Int := 102
/-- `ENETUNREACH` of Linux (outside the repository). -/
abbrev ENETUNREACH : Int := 101
/-- `ENFILE` of Linux (outside the repository). -/
abbrev ENFILE : Int := 23
/-- `ENOBUFS` of Linux (outside the repository). -/
abbrev ENOBUFS : Int := 105
/-- `ENODATA` of Linux (outside the repository). -/
abbrev ENODATA : Int := 61
/-- `ENODEV` of Linux (outside the repository). -/
abbrev ENODEV : Int := 19
/-- `ENOENT` of Linux (outside the repository). -/
abbrev ENOENT : Int := 2
/-- `ENOEXEC` of Linux (outside the repository). -/
abbrev ENOEXEC : Int := 8
/-- `ENOLCK` of Linux (outside the repository). -/
abbrev ENOLCK : Int := 37
/-- `ENOLINK` of Linux (outside the repository). -/
abbrev ENOLINK : Int := 67
/-- `ENOMEM` of Linux (outside the repository). -/
abbrev ENOMEM : Int := 12
/-- `ENOMSG` of Linux (outside the repository). -/
abbrev ENOMSG : Int := 42
/-- `ENOPROTOOPT` of Linux (outside the repository). -/
abbrev ENOPROTOOPT : Int := 92
/-- `ENOSPC` of Linux (outside the repository). -/
abbrev ENOSPC : Int := 28
/-- `ENOSR` of Linux (outside the repository). -/
abbrev ENOSR : Int := 63
/-- `ENOSTR` of Linux (outside the repository). -/
abbrev ENOSTR : Int := 60
/-- `ENOSYS` of Linux (outside the repository). -/
abbrev ENOSYS : Int := 38
/-- `ENOTCONN` of Linux (outside the repository). -/
abbrev ENOTCONN : Int := 107
/-- `ENOTDIR` of Linux (outside the repository). -/
abbrev ENOTDIR : Int := 20
/-- `ENOTEMPTY` of Linux (outside the repository). -/
abbrev ENOTEMPTY : Int := 39
/-- `ENOTRECOVERABLE` of Linux (outside the repository). -/
abbrev ENOTRECOVERABLE : Int := 131
/-- `ENOTSOCK` of Linux (outside the repository). -/
abbrev ENOTSOCK : Int := 88
/-- `ENOTSUP` of Linux (outside the repository). -/
abbrev ENOTSUP : Int := 95
/-- `ENOTTY` of Linux (outside the repository). -/
abbrev ENOTTY : Int := 25
/-- `ENXIO` of Linux (outside the repository). -/
abbrev ENXIO : Int := 6
/-- `EOPNOTSUPP` of Linux (outside the repository). -/
abbrev EOPNOTSUPP : Int := 95
/-- `EOVERFLOW` of Linux (outside the repository). -/
abbrev EOVERFLOW : Int := 75
/-- `EOWNERDEAD` of Linux (outside the repository). -/
abbrev EOWNERDEAD : Int := 130
/-- `EPERM` of Linux (outside the repository). -/
abbrev EPERM : Int := 1
/-- `EPIPE` of Linux (outside the repository). -/
abbrev EPIPE : Int := 32
/-- `EPROTO` of Linux (outside the repository). -/
abbrev EPROTO : Int := 71
/-- `EPROTONOSUPPORT` of Linux (outside the repository). -/
abbrev EPROTONOSUPPORT : Int := 93
/-- `EPROTOTYPE` of Linux (outside the repository). -/
abbrev EPROTOTYPE : Int := 91
/-- `ERANGE` of Linux (outside the repository). -/
abbrev ERANGE : Int := 34
/-- `EROFS` of Linux (outside the repository). -/
abbrev EROFS : Int := 30
/-- `ESPIPE` of Linux (outside the repository). -/
abbrev ESPIPE : Int := 29
/-- `ESRCH` of Linux (outside the repository). -/
abbrev ESRCH : Int := 3
/-- `ETIME` of Linux (outside the repository). -/
abbrev ETIME : Int := 62
/-- `ETIMEDOUT` of Linux (outside the repository). -/
abbrev ETIMEDOUT : Int := 110
/-- `ETXTBSY` of Linux (outside the repository). -/
abbrev ETXTBSY : Int := 26
/-- `EWOULDBLOCK` of Linux (outside the repository). -/
abbrev EWOULDBLOCK : Int := 11
/-- `EXDEV` of Linux (outside the repository). -/
abbrev EXDEV : Int := 18

/-- `enum class errc`. Models uerror.h:21-100. -/
inductive Errc
  | addressFamilyNotSupported | addressInUse | addressNotAvailable | alreadyConnected
  | argumentListTooLong | argumentOutOfDomain | badAddress | badFileDescriptor
  | badMessage | brokenPipe | connectionAborted | connectionAlreadyInProgress
  | connectionRefused | connectionReset | crossDeviceLink | destinationAddressRequired
  | deviceOrResourceBusy | directoryNotEmpty | executableFormatError | fileExists
  | fileTooLarge | filenameTooLong | functionNotSupported | hostUnreachable
  | identifierRemoved | illegalByteSequence | inappropriateIoControlOperation | interrupted
  | invalidArgument | invalidSeek | ioError | isADirectory
  | messageSize | networkDown | networkReset | networkUnreachable
  | noBufferSpace | noChildProcess | noLink | noLockAvailable
  | noMessageAvailable | noMessage | noProtocolOption | noSpaceOnDevice
  | noStreamResources | noSuchDeviceOrAddress | noSuchDevice | noSuchFileOrDirectory
  | noSuchProcess | notADirectory | notASocket | notAStream
  | notConnected | notEnoughMemory | notSupported | operationCanceled
  | operationInProgress | operationNotPermitted | operationNotSupported | operationWouldBlock
  | ownerDead | permissionDenied | protocolError | protocolNotSupported
  | readOnlyFileSystem | resourceDeadlockWouldOccur | resourceUnavailableTryAgain | resultOutOfRange
  | stateNotRecoverable | streamTimeout | textFileBusy | timedOut
  | tooManyFilesOpenInSystem | tooManyFilesOpen | tooManyLinks | tooManySymbolicLinkLevels
  | valueTooLarge | wrongProtocolType
deriving DecidableEq, Repr

/-- The value of an enumerator. Models uerror.h:22-99. -/
def Errc.value : Errc → Int
  | .addressFamilyNotSupported => EAFNOSUPPORT
  | .addressInUse => EADDRINUSE
  | .addressNotAvailable => EADDRNOTAVAIL
  | .alreadyConnected => EISCONN
  | .argumentListTooLong => E2BIG
  | .argumentOutOfDomain => EDOM
  | .badAddress => EFAULT
  | .badFileDescriptor => EBADF
  | .badMessage => EBADMSG
  | .brokenPipe => EPIPE
  | .connectionAborted => ECONNABORTED
  | .connectionAlreadyInProgress => EALREADY
  | .connectionRefused => ECONNREFUSED
  | .connectionReset => ECONNRESET
  | .crossDeviceLink => EXDEV
  | .destinationAddressRequired => EDESTADDRREQ
  | .deviceOrResourceBusy => EBUSY
  | .directoryNotEmpty => ENOTEMPTY
  | .executableFormatError => ENOEXEC
  | .fileExists => EEXIST
  | .fileTooLarge => EFBIG
  | .filenameTooLong => ENAMETOOLONG
  | .functionNotSupported => ENOSYS
  | .hostUnreachable => EHOSTUNREACH
  | .identifierRemoved => EIDRM
  | .illegalByteSequence => EILSEQ
  | .inappropriateIoControlOperation => ENOTTY
  | .interrupted => EINTR
  | .invalidArgument => EINVAL
  | .invalidSeek => ESPIPE
  | .ioError => EIO
  | .isADirectory => EISDIR
  | .messageSize => EMSGSIZE
  | .networkDown => ENETDOWN
  | .networkReset => ENETRESET
  | .networkUnreachable => ENETUNREACH
  | .noBufferSpace => ENOBUFS
  | .noChildProcess => ECHILD
  | .noLink => ENOLINK
  | .noLockAvailable => ENOLCK
  | .noMessageAvailable => ENODATA
  | .noMessage => ENOMSG
  | .noProtocolOption => ENOPROTOOPT
  | .noSpaceOnDevice => ENOSPC
  | .noStreamResources => ENOSR
  | .noSuchDeviceOrAddress => ENXIO
  | .noSuchDevice => ENODEV
  | .noSuchFileOrDirectory => ENOENT
  | .noSuchProcess => ESRCH
  | .notADirectory => ENOTDIR
  | .notASocket => ENOTSOCK
  | .notAStream => ENOSTR
  | .notConnected => ENOTCONN
  | .notEnoughMemory => ENOMEM
  | .notSupported => EINVAL
  | .operationCanceled => ECANCELED
  | .operationInProgress => EINPROGRESS
  | .operationNotPermitted => EPERM
  | .operationNotSupported => EOPNOTSUPP
  | .operationWouldBlock => EAGAIN
  | .ownerDead => EOWNERDEAD
  | .permissionDenied => EACCES
  | .protocolError => EPROTO
  | .protocolNotSupported => EPROTONOSUPPORT
  | .readOnlyFileSystem => EROFS
  | .resourceDeadlockWouldOccur => EDEADLK
  | .resourceUnavailableTryAgain => EAGAIN
  | .resultOutOfRange => ERANGE
  | .stateNotRecoverable => ENOTRECOVERABLE
  | .streamTimeout => ETIME
  | .textFileBusy => ETXTBSY
  | .timedOut => ETIMEDOUT
  | .tooManyFilesOpenInSystem => ENFILE
  | .tooManyFilesOpen => EMFILE
  | .tooManyLinks => EMLINK
  | .tooManySymbolicLinkLevels => ELOOP
  | .valueTooLarge => EOVERFLOW
  | .wrongProtocolType => EPROTOTYPE

/-- `error_category`: it has no data. Models uerror.h:111-122. -/
structure Category where
deriving DecidableEq, Repr

/-- `operator==`. Models uerror.h:120. -/
def Category.eq (_ _ : Category) : Bool := true

/-- `operator!=`. Models uerror.h:121. -/
def Category.ne (_ _ : Category) : Bool := false

/-- `name ()`. Models uerror.h:115. -/
def Category.name (_ : Category) : String := "system"

/-- `system_category ()`. Models uerror.h:124. -/
def systemCategory : Category := ⟨⟩

/-- `generic_category ()`. Models uerror.h:125. -/
def genericCategory : Category := ⟨⟩

/-- `error_code`. Models uerror.h:131-153. -/
structure Code where
  /-- `_ec` -/
  ec : Int
deriving DecidableEq, Repr

/-- `error_condition`. Models uerror.h:161-185. -/
structure Cond where
  /-- `_ec` -/
  ec : Int
deriving DecidableEq, Repr

/-- `error_code ()`. Models uerror.h:132. -/
def Code.empty : Code := ⟨0⟩

/-- `error_code (ec, category)`. Models uerror.h:133. -/
def Code.mk2 (ec : Int) (_ : Category) : Code := ⟨ec⟩

/-- `make_error_code (e)`. Models uerror.h:155-156. -/
def makeErrorCode (e : Errc) : Code := Code.mk2 e.value systemCategory

/-- `error_code (e)` from an enumerator. Models uerror.h:134-136. -/
def Code.ofErrc (e : Errc) : Code := makeErrorCode e

/-- `operator= (e)`. Models uerror.h:138-140. -/
def Code.assignErrc (_ : Code) (e : Errc) : Code := makeErrorCode e

/-- `assign (ec, category)`. Models uerror.h:137. -/
def Code.assign (_ : Code) (ec : Int) (_ : Category) : Code := ⟨ec⟩

/-- `clear ()`. Models uerror.h:141. -/
def Code.clear (c : Code) : Code := c.assign 0 systemCategory

/-- `value ()`. Models uerror.h:142. -/
def Code.value (c : Code) : Int := c.ec

/-- `category ()`. Models uerror.h:143. -/
def Code.category (_ : Code) : Category := systemCategory

/-- `operator bool ()`. Models uerror.h:146. -/
def Code.toBool (c : Code) : Bool := c.ec ≠ 0

/-- `operator== (const error_code&)`. Models uerror.h:149. -/
def Code.eq (c v : Code) : Bool := c.category.eq v.category && c.value = v.value

/-- `error_condition ()`. Models uerror.h:163. -/
def Cond.empty : Cond := ⟨0⟩

/-- `error_condition (ec, category)`. Models uerror.h:164. -/
def Cond.mk2 (ec : Int) (_ : Category) : Cond := ⟨ec⟩

/-- `make_error_condition (e)`. Models uerror.h:187-188. -/
def makeErrorCondition (e : Errc) : Cond := Cond.mk2 e.value genericCategory

/-- `error_condition (e)` from an enumerator. Models uerror.h:165-167. -/
def Cond.ofErrc (e : Errc) : Cond := makeErrorCondition e

/-- `operator= (e)`. Models uerror.h:169-171. -/
def Cond.assignErrc (_ : Cond) (e : Errc) : Cond := makeErrorCondition e

/-- `assign (ec, category)`. Models uerror.h:168. -/
def Cond.assign (_ : Cond) (ec : Int) (_ : Category) : Cond := ⟨ec⟩

/-- `clear ()`. Models uerror.h:172. -/
def Cond.clear (c : Cond) : Cond := c.assign 0 genericCategory

/-- `value ()`. Models uerror.h:173. -/
def Cond.value (c : Cond) : Int := c.ec

/-- `category ()`. Models uerror.h:174. -/
def Cond.category (_ : Cond) : Category := genericCategory

/-- `operator bool ()`. Models uerror.h:176. -/
def Cond.toBool (c : Cond) : Bool := c.value ≠ 0

/-- `operator== (const error_condition&)`. Models uerror.h:179-180. -/
def Cond.eq (c v : Cond) : Bool := c.category.eq v.category && c.value = v.value

/-- `error_condition == error_code`. Models uerror.h:181-182. -/
def Cond.eqCode (c : Cond) (v : Code) : Bool := c.category.eq v.category && c.value = v.value

/-- `error_code == error_condition`. Models uerror.h:199-200. -/
def Code.eqCond (c : Code) (v : Cond) : Bool := c.category.eq v.category && c.value = v.value

/-- `error_category::default_error_condition (ec)`. Models uerror.h:190-191. -/
def Category.defaultCond (k : Category) (ec : Int) : Cond := Cond.mk2 ec k

/-- `error_category::equivalent (ec, cond)`. Models uerror.h:192-193. -/
def Category.equivalent (k : Category) (ec : Int) (cond : Cond) : Bool := k.eq cond.category && ec = cond.value

/-- `error_category::equivalent (code, c)`. Models uerror.h:194-195. -/
def Category.equivalentCode (k : Category) (code : Code) (c : Int) : Bool := k.eq code.category && c = code.value

/-- `error_code::default_error_condition ()`. Models uerror.h:197-198. -/
def Code.defaultCond (c : Code) : Cond := Cond.mk2 c.value c.category

/-- `message ()` of a category: `strerror`, the C library's. Models uerror.h:116. -/
def Category.message (strerror : Int → List UInt8) (_ : Category) (ec : Int) : List UInt8 := strerror ec

/-- `message ()` of a code. Models uerror.h:145. -/
def Code.message (strerror : Int → List UInt8) (c : Code) : List UInt8 := c.category.message strerror c.value

/-- `message ()` of a condition. Models uerror.h:175. -/
def Cond.message (strerror : Int → List UInt8) (c : Cond) : List UInt8 := c.category.message strerror c.value

/-- `system_error (code, operation)`, of which only `_errno` matters here; `system_error (ec, category, operation)` passes
`error_code (ec, category)`, `system_error (operation)` the value of `errno`. Models ustdxept.h:158-165, ustdxept.cc:61-70. -/
def sysErrno (code : Code) : Int := code.value

/-- `system_error::code ()`. Models ustdxept.h:166. -/
def sysCode (errno : Int) : Code := Code.mk2 errno systemCategory

end Ustl.Err
