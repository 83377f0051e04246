/-
C strings: byte lists without the terminating NUL.
-/
namespace Sid

/-- model only, for src/internal/util.c:102-514: A C string without its NUL -/
abbrev Str := List UInt8

/-- `strcmp(a, b) < 0` (bytes compared unsigned, as the C standard says) -/
def strLt : Str → Str → Bool
  | _, [] => false
  | [], _ :: _ => true
  | a :: as, b :: bs => if a < b then true else if b < a then false else strLt as bs

/-- `strncmp(a, b, strlen(a)) == 0`: `a` is a prefix of `b` -/
def strPrefix : Str → Str → Bool
  | [], _ => true
  | _ :: _, [] => false
  | a :: as, b :: bs => a == b && strPrefix as bs

end Sid
