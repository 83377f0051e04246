import Verif.Model.Fmt
import Verif.Spec.Base64
import Verif.Spec.Ifc
/-
What output in the formats of assignments and of tables says.
-/
namespace Sid.Spec.FmtEnv
open Sid.Fmt (Call)
open Sid.Spec.Client (decimal)

/-- a number with its sign -/
def signed : Int → Str
  | .ofNat n => decimal n
  | .negSucc n => 45 :: decimal (n + 1)

/-- one or zero -/
def bit (b : Bool) : Str := if b then [49] else [48]

/-- texts with commas between them, in quotation marks -/
def quoted (l : List Str) : Str := [34] ++ List.intercalate [44] l ++ [34]

/-- `Says calls as`: the calls write the assignments (name and value): fields, arrays of texts (all but the first text written
    with `comma`), one after the other, and in documents and elements, named or not. -/
inductive Says : List Call → List (Str × Str) → Prop
  | fldStr (l n v c) : Says [.fldStr l n v c] [(n, v)]
  | fldBin (l n v c) : Says [.fldBin l n v c] [(n, Spec.Base64.encode v)]
  | fldUint (l n v c) : Says [.fldUint l n v c] [(n, decimal v)]
  | fldInt (l n v c) : Says [.fldInt l n v c] [(n, signed v)]
  | fldBool (l n v c) : Says [.fldBool l n v c] [(n, bit v)]
  | arr (l l' n c) (vs : List Str) (ls : Nat → Int) :
      Says ([.arrStart l n c] ++ (List.range vs.length).map (fun i => .arrStr (ls i) (vs.getD i []) (i ≠ 0)) ++ [.arrEnd l'])
        [(n, quoted vs)]
  | nil : Says [] []
  | append {a b as bs} : Says a as → Says b bs → Says (a ++ b) (as ++ bs)
  | elm (l l' c) {a as} : Says a as → Says ([.elmStart l c] ++ a ++ [.elmEnd l']) as
  | namedElm (l l1 l' n c) {a as} : Says a as → Says ([.elmName l n c, .elmStart l1 false] ++ a ++ [.elmEnd l']) as
  | doc (l l') {a as} : Says a as → Says ([.docStart l] ++ a ++ [.docEnd l']) as

/-- the lines of a text, each ended by a newline -/
def linesAux (cur : Str) : Str → List Str
  | [] => []
  | c :: s => if c = 10 then cur :: linesAux [] s else linesAux (cur ++ [c]) s

/-- name and value of a line `name=value` -/
def assignment (line : Str) : Str × Str := (line.takeWhile (· ≠ 61), (line.dropWhile (· ≠ 61)).drop 1)

/-- what somebody reads who takes every line for an assignment -/
def assignments (s : Str) : List (Str × Str) := (linesAux [] s).map assignment

/-- names without equals signs, nothing over more than one line, binary values of less than 2^64 encoded characters -/
def Fine (l : List Call) (as : List (Str × Str)) : Prop :=
  (∀ a ∈ as, 61 ∉ a.1 ∧ 10 ∉ a.1 ∧ 10 ∉ a.2) ∧ ∀ c ∈ l, match c with
    | .fldBin _ _ v _ => 4 * ((v.length + 2) / 3) + 1 < 2 ^ 64
    | _ => True

end Sid.Spec.FmtEnv
