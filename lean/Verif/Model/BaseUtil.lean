import Verif.Model.BufIo
import Verif.Model.Str
/-
Model of /repo/src/base/util.c: numbers from the environment, complete reads, words of the kernel command line.
Sysfs reads (161-193) are in UbrMod.  C library functions are modelled as their standard describes them (C locale).
-/
namespace Sid.Util
open Sid.LBuf (IoEv Stream sysRead)

/-- src/base/util.c:30, `strtoull` (white space before a number): `isspace` -/
def isSpace (c : UInt8) : Bool := c == 32 || (9 ≤ c && c ≤ 13)

/-- src/base/util.c:30, `strtoull` (digits of a number): `isdigit` -/
def isDigit (c : UInt8) : Bool := 48 ≤ c && c ≤ 57

/-- value of a string of digits, as `strtoull` in base 10 (util.c:30) accumulates it -/
def digitsVal (l : Str) : Nat := l.foldl (fun a c => a * 10 + (c.toNat - 48)) 0

/-- the sign accepted by `strtoull` (util.c:30): is it a minus, and the rest -/
def takeSign : Str → Bool × Str
  | 45 :: t => (true, t)
  | 43 :: t => (false, t)
  | t => (false, t)

/-- `strtoull(s, &p, 10)` (util.c:30): result, whether errno was set, and the string at `p` -/
def strtoull (s : Str) : Nat × Bool × Str :=
  let t := takeSign (s.dropWhile isSpace)
  let ds := t.2.takeWhile isDigit
  if ds = [] then (0, false, s)
  else if digitsVal ds ≥ 2 ^ 64 then (2 ^ 64 - 1, true, t.2.dropWhile isDigit)
  else (if t.1 then (2 ^ 64 - digitsVal ds) % 2 ^ 64 else digitsVal ds, false, t.2.dropWhile isDigit)

/-- `getenv` (util.c:26): the value of the first variable of that name -/
def getenv (env : List Str) (key : Str) : Option Str :=
  match env with
  | [] => none
  | e :: l => if strPrefix (key ++ [61]) e then some (e.drop (key.length + 1)) else getenv l key

/-- src/base/util.c:20-40 `sid_util_env_get_ull` -/
def envGetUll (env : List Str) (key : Str) (min max : Nat) : Except Errno Nat :=
  match getenv env key with
  | none => .error .ENOKEY
  | some s =>
    let p := strtoull s
    if p.2.1 || p.2.2 != [] then .error .EINVAL
    else if min ≠ max ∧ (p.1 < min ∨ p.1 > max) then .error .ERANGE
    else .ok p.1

/-- model only, for src/base/util.c:46-67: outcome of a complete read: the bytes stored, an error, or (model only) the schedule ended before the call did -/
inductive RdOut where
  | done (bs : List UInt8) (s : Stream)
  | failed (e : Errno)
  | pending (bs : List UInt8) (s : Stream)
deriving DecidableEq, Repr

/-- src/base/util.c:46-67 `sid_util_fd_read_all` with `len` bytes still to read and `got` already read -/
def readAll (s : Stream) (len : Nat) (got : List UInt8) : List IoEv → RdOut
  | [] => if len = 0 then .done got s else .pending got s
  | ev :: es =>
    if len = 0 then .done got s
    else
      match sysRead s len ev with
      | .error e => if e = .EINTR ∨ e = .EAGAIN then readAll s len got es else .failed e
      | .ok bs =>
        if bs = [] then .done got s
        else readAll { s with data := s.data.drop bs.length } (len - bs.length) (got ++ bs) es

/-- src/base/util.c:105 `DELIM` -/
def isDelim (c : UInt8) : Bool := c == 32 || c == 9 || c == 10

/-- src/base/util.c:127-151 one word of the command line at `ptr` (non-empty, does not start with a delimiter): does it
    match, and the text the value is copied from (it begins with the equals sign) if there is one -/
def wordMatch (arg w : Str) : Bool × Option Str :=
  let name := w.takeWhile (· ≠ 61)
  let val := w.dropWhile (· ≠ 61)
  (name == arg, if val = [] then none else some val)

/-- src/base/util.c:126-157 the loop; `line` is what follows `next`.  Result: found (with the value if it was asked for),
    not found, or -EINVAL because the value was asked for and the word has none. -/
def getArgLoop (arg : Str) (wantValue : Bool) (line : Str) : Except Errno (Option (Option Str)) :=
  let t := line.dropWhile isDelim
  if h : t = [] then .ok none
  else
    let w := t.takeWhile (fun c => !isDelim c)
    let m := wordMatch arg w
    if m.1 then
      if wantValue then
        match m.2 with
        | none => .error .EINVAL
        | some v => .ok (some (some v))
      else .ok (some none)
    else getArgLoop arg wantValue (t.dropWhile (fun c => !isDelim c))
termination_by line.length
decreasing_by
  have h1 : (line.dropWhile isDelim).length ≤ line.length := (List.dropWhile_sublist _).length_le
  generalize hl : line.dropWhile isDelim = l at *
  cases l with
  | nil => exact absurd hl h
  | cons a l =>
    have ha : isDelim a = false := by
      have := List.head?_dropWhile_not isDelim line
      rw [hl] at this
      simpa using this
    have h2 : (l.dropWhile (fun c => !isDelim c)).length ≤ l.length := (List.dropWhile_sublist _).length_le
    simp only [List.dropWhile_cons, ha, Bool.not_false, if_true]
    simp only [List.length_cons] at h1
    omega

end Sid.Util
