/-!
# Python exceptions as values
-/
namespace Verif

/-- The `errno` constants used by abl/vpath/base/memory.py, and ENOTDIR of the operating system. -/
inductive Errno
  | ENOENT | EEXIST | EISDIR | ENOTEMPTY | ELOOP | EINVAL | EBADF | ENOTDIR
  deriving DecidableEq, Repr

/-- Python exceptions.  `IOError` is `OSError` in Python 3, so both are `os`. -/
inductive PyErr
  | os (e : Errno)
  | attributeError      -- e.g. `None.has`, `MemoryFile.has`
  | assertionError
  | valueError
  | typeError
  | keyError
  | indexError
  | recursionError
  | notImplemented
  | noScheme            -- abl/vpath/base/exceptions.py NoSchemeError
  | fileDoesNotExist    -- abl/vpath/base/exceptions.py FileDoesNotExistError
  | unsupported         -- abl/vpath/base/exceptions.py OperationIsNotSupportedOnPlatform
  | lockObtain          -- abl.util.LockFileObtainException
  | unicodeDecode
  | badZip              -- zipfile.BadZipFile
  | shutilError         -- shutil.Error
  | unboundLocal        -- UnboundLocalError
  | runtimeError        -- releasing an unlocked `threading.Lock`
  | injected (n : Nat)  -- an exception raised by a user supplied `next_op_callback`
  | hang                -- not an exception: the call never returns (blocked lock, endless loop)
  | outside             -- not an exception: the call leaves the modelled part (another backend)
  deriving DecidableEq, Repr

deriving instance DecidableEq for Except

end Verif
