/-
Shared vocabulary of the model: C error codes and outcomes.
-/
namespace Sid

/-- The negative errno values returned by the modelled functions (`-EINVAL` etc., <errno.h>). `EPERM1` is the
    plain `-1` some functions return. -/
inductive Errno where
  | EINVAL | ERANGE | EBUSY | EXFULL | EOVERFLOW | ENOMEM | EBADE | EBADMSG | ENODATA | ENOTSUP | EAGAIN | EINTR
  | EIO | ENOENT | EEXIST | EPERM | EACCES | EREMOTEIO | EBADF | ENOTUNIQ | ENOMEDIUM | ESRCH | ENOLINK | ENOKEY
  | ENOTCONN | EPIPE | EALREADY | ECANCELED | ENODEV | ECONNREFUSED | EPERM1
deriving DecidableEq, Repr

/-- model only, for the calls of src/base/buf.c:29-291: Outcome of a C call: normal result, error return, or undefined behaviour (out-of-bounds access, null
    dereference, division by zero, ...). -/
inductive Res (α : Type) where
  | ok (a : α)
  | err (e : Errno)
  | ub
deriving DecidableEq, Repr

end Sid
