import Verif.Model.Base64
import Verif.Model.Ifc
/-
Model of the output formats, /repo/src/internal/fmt.c.

Simplifications: the buffer takes all that is added (its limits are in Model/LinearBuf); `_print_fmt` (fmt.c:23-39) adds the text with a
NUL and takes the NUL back, so it appends the text.  A call is what is added to the buffer; arguments are not NULL.
-/
namespace Sid.Fmt
open Sid (Str)
open Sid.Ifc (txt)

/-- include/internal/fmt.h:21-26: include/internal/fmt.h `fmt_output_t` -/
inductive Format where
  | none | table | json | env
deriving DecidableEq, Repr

/-- `%u`, `%PRIu64` -/
def dec (n : Nat) : Str := if n < 10 then [UInt8.ofNat (48 + n)] else dec (n / 10) ++ [UInt8.ofNat (48 + n % 10)]

/-- `%PRIi64` -/
def decInt : Int → Str
  | .ofNat n => dec n
  | .negSucc n => 45 :: dec (n + 1)

/-- fmt.c:63-75 `_print_indent` -/
def indent (level : Int) : Str := List.replicate (4 * level.toNat) 32

/-- fmt.c:21 `JOIN_STR` -/
def joinStr (f : Format) : Str := if f = .table then txt ": " else txt "="

/-- fmt.c:119 etc.: what a part begins with in JSON -/
def commaNl (comma : Bool) : Str := (if comma then [44] else []) ++ [10]

/-- fmt.c:41-61 `_print_binary` followed by `tail` if it succeeds -/
def binary (v : List UInt8) (tail : Str) : Str :=
  match Base64.encode (some v) v.length true (Base64.encodedLen v.length) with
  | .written bs => bs.dropLast ++ tail
  | _ => []

/-- fmt.c:77-406: the functions of fmt.c -/
inductive Call where
  | docStart (level : Int)
  | docEnd (level : Int)
  | arrStart (level : Int) (name : Str) (comma : Bool)
  | arrEnd (level : Int)
  | elmStart (level : Int) (comma : Bool)
  | elmEnd (level : Int)
  | elmName (level : Int) (name : Str) (comma : Bool)
  | fldStr (level : Int) (name val : Str) (comma : Bool)
  | fldBin (level : Int) (name : Str) (val : List UInt8) (comma : Bool)
  | fldUint (level : Int) (name : Str) (val : Nat) (comma : Bool)
  | fldInt (level : Int) (name : Str) (val : Int) (comma : Bool)
  | fldBool (level : Int) (name : Str) (val : Bool) (comma : Bool)
  | arrUint (level : Int) (val : Nat) (comma : Bool)
  | arrStr (level : Int) (val : Str) (comma : Bool)
  | arrBin (level : Int) (val : List UInt8) (comma : Bool)
deriving DecidableEq, Repr

/-- fmt.c:77-91 `fmt_doc_start` -/
def docStart (f : Format) (level : Int) : Str := if f = .json then indent level ++ [123] else []

/-- fmt.c:93-109 `fmt_doc_end` -/
def docEnd (f : Format) (level : Int) : Str := if f = .json then [10] ++ indent level ++ [125, 10] else []

/-- fmt.c:111-130 `fmt_arr_start` -/
def arrStart (f : Format) (level : Int) (name : Str) (comma : Bool) : Str :=
  if f = .json then commaNl comma ++ indent level ++ ([34] ++ name ++ [34, 58, 32] ++ [91])
  else if f = .env then name ++ [61, 34]
  else if f = .table then name ++ [58, 10]
  else []

/-- fmt.c:132-150 `fmt_arr_end` -/
def arrEnd (f : Format) (level : Int) : Str :=
  if f = .json then [10] ++ indent level ++ [93] else if f = .env then [34, 10] else []

/-- fmt.c:152-169 `fmt_elm_start` -/
def elmStart (f : Format) (level : Int) (comma : Bool) : Str :=
  if f = .json then commaNl comma ++ indent level ++ [123] else if f = .table && comma then [10] else []

/-- fmt.c:171-187 `fmt_elm_end` -/
def elmEnd (f : Format) (level : Int) : Str := if f = .json then [10] ++ indent level ++ [125] else []

/-- fmt.c:189-206 `fmt_elm_name` -/
def elmName (f : Format) (level : Int) (name : Str) (comma : Bool) : Str :=
  if f = .json then commaNl comma ++ indent level ++ ([34] ++ name ++ [34, 58, 10])
  else if f = .table then (if comma then [10] else []) ++ name ++ [58, 10]
  else []

/-- fmt.c:208-225 `fmt_fld_str` -/
def fldStr (f : Format) (level : Int) (name val : Str) (comma : Bool) : Str :=
  if f = .json then commaNl comma ++ indent level ++ ([34] ++ name ++ [34, 58, 32, 34] ++ val ++ [34])
  else name ++ joinStr f ++ val ++ [10]

/-- fmt.c:227-257 `fmt_fld_bin` -/
def fldBin (f : Format) (level : Int) (name : Str) (val : List UInt8) (comma : Bool) : Str :=
  if f = .json then commaNl comma ++ indent level ++ ([34] ++ name ++ [34, 58, 32, 34]) ++ binary val [34]
  else name ++ joinStr f ++ binary val [] ++ [10]

/-- fmt.c:259-295 `fmt_fld_uint`, `fmt_fld_uint64` -/
def fldUint (f : Format) (level : Int) (name : Str) (val : Nat) (comma : Bool) : Str :=
  if f = .json then commaNl comma ++ indent level ++ ([34] ++ name ++ [34, 58, 32] ++ dec val)
  else name ++ joinStr f ++ dec val ++ [10]

/-- fmt.c:297-314 `fmt_fld_int64` -/
def fldInt (f : Format) (level : Int) (name : Str) (val : Int) (comma : Bool) : Str :=
  if f = .json then commaNl comma ++ indent level ++ ([34] ++ name ++ [34, 58, 32] ++ decInt val)
  else name ++ joinStr f ++ decInt val ++ [10]

/-- fmt.c:316-335 `fmt_fld_bool` -/
def fldBool (f : Format) (level : Int) (name : Str) (val : Bool) (comma : Bool) : Str :=
  if f = .json then
    commaNl comma ++ indent level ++ ([123, 34] ++ name ++ [34, 58, 32] ++ (if val then txt "true" else txt "false") ++ [125])
  else if f = .env then name ++ [61] ++ (if val then [49] else [48]) ++ [10]
  else if val then name ++ [10] else []

/-- fmt.c:337-354 `fmt_arr_fld_uint` -/
def arrUint (f : Format) (level : Int) (val : Nat) (comma : Bool) : Str :=
  if f = .json then commaNl comma ++ indent level ++ dec val else if f = .table then dec val ++ [10] else []

/-- fmt.c:356-375 `fmt_arr_fld_str` -/
def arrStr (f : Format) (level : Int) (val : Str) (comma : Bool) : Str :=
  if f = .json then commaNl comma ++ indent level ++ ([34] ++ val ++ [34])
  else if f = .env then (if comma then [44] else []) ++ val
  else if f = .table then val ++ [10]
  else []

/-- fmt.c:377-401 `fmt_arr_fld_bin` -/
def arrBin (f : Format) (level : Int) (val : List UInt8) (comma : Bool) : Str :=
  if f = .json then commaNl comma ++ indent level ++ [34] ++ binary val [34]
  else if f = .table then binary val [10] else []

/-- fmt.c:77-406: what a call appends -/
def emit (f : Format) : Call → Str
  | .docStart l => docStart f l
  | .docEnd l => docEnd f l
  | .arrStart l n c => arrStart f l n c
  | .arrEnd l => arrEnd f l
  | .elmStart l c => elmStart f l c
  | .elmEnd l => elmEnd f l
  | .elmName l n c => elmName f l n c
  | .fldStr l n v c => fldStr f l n v c
  | .fldBin l n v c => fldBin f l n v c
  | .fldUint l n v c => fldUint f l n v c
  | .fldInt l n v c => fldInt f l n v c
  | .fldBool l n v c => fldBool f l n v c
  | .arrUint l v c => arrUint f l v c
  | .arrStr l v c => arrStr f l v c
  | .arrBin l v c => arrBin f l v c

/-- model only, for fmt.c:77-406: a sequence of calls -/
def out (f : Format) (l : List Call) : Str := l.flatMap (emit f)

end Sid.Fmt
