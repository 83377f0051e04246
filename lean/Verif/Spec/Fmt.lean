import Verif.Model.Fmt
import Verif.Spec.Json
import Verif.Spec.Base64
/-
Properly nested sequences of calls of the output functions, and what they are to say.
-/
namespace Sid.Spec.Fmt
open Sid.Fmt (Call)
open Sid.Spec.Json

/-- `Part comma calls name j`: the calls write one part of an array (`name = none`) or of a document or element (`name = some n`: a
    field, array or element of that name).  All but the first part of something are called with `comma`.  Levels are arbitrary. -/
inductive Part : Bool → List Call → Option (List UInt8) → J → Prop
  | fldStr (l n v c) : Part c [.fldStr l n v c] (some n) (.str v)
  | fldBin (l n v c) : Part c [.fldBin l n v c] (some n) (.str (Spec.Base64.encode v))
  | fldUint (l n v c) : Part c [.fldUint l n v c] (some n) (.num v)
  | fldInt (l n v c) : Part c [.fldInt l n v c] (some n) (.num v)
  | arrUint (l v c) : Part c [.arrUint l v c] none (.num v)
  | arrStr (l v c) : Part c [.arrStr l v c] none (.str v)
  | arrBin (l v c) : Part c [.arrBin l v c] none (.str (Spec.Base64.encode v))
  | arr (l l' n c) (ps : List (List Call × J)) :
      (∀ i (h : i < ps.length), Part (i ≠ 0) ps[i].1 none ps[i].2) →
      Part c ([.arrStart l n c] ++ (ps.map (·.1)).flatten ++ [.arrEnd l']) (some n) (.arr (ps.map (·.2)))
  | elm (l l' c) (ps : List (List Call × List UInt8 × J)) :
      (∀ i (h : i < ps.length), Part (i ≠ 0) ps[i].1 (some ps[i].2.1) ps[i].2.2) →
      Part c ([.elmStart l c] ++ (ps.map (·.1)).flatten ++ [.elmEnd l']) none (.obj (ps.map (·.2)))
  | namedElm (l l1 l' n c) (ps : List (List Call × List UInt8 × J)) :
      (∀ i (h : i < ps.length), Part (i ≠ 0) ps[i].1 (some ps[i].2.1) ps[i].2.2) →
      Part c ([.elmName l n c, .elmStart l1 false] ++ (ps.map (·.1)).flatten ++ [.elmEnd l']) (some n) (.obj (ps.map (·.2)))
  | namedDoc (l l1 l' n c) (ps : List (List Call × List UInt8 × J)) :
      (∀ i (h : i < ps.length), Part (i ≠ 0) ps[i].1 (some ps[i].2.1) ps[i].2.2) →
      Part c ([.elmName l n c, .docStart l1] ++ (ps.map (·.1)).flatten ++ [.docEnd l']) (some n) (.obj (ps.map (·.2)))

/-- the calls write a whole document -/
inductive Document : List Call → J → Prop
  | doc (l l') (ps : List (List Call × List UInt8 × J)) :
      (∀ i (h : i < ps.length), Part (i ≠ 0) ps[i].1 (some ps[i].2.1) ps[i].2.2) →
      Document ([.docStart l] ++ (ps.map (·.1)).flatten ++ [.docEnd l']) (.obj (ps.map (·.2)))

/-- texts a call is given -/
def texts : Call → List (List UInt8)
  | .arrStart _ n _ | .elmName _ n _ | .fldBin _ n _ _ | .fldUint _ n _ _ | .fldInt _ n _ _ | .fldBool _ n _ _ => [n]
  | .fldStr _ n v _ => [n, v]
  | .arrStr _ v _ => [v]
  | .docStart _ | .docEnd _ | .arrEnd _ | .elmStart _ _ | .elmEnd _ | .arrUint _ _ _ | .arrBin _ _ _ => []

/-- sizes of binary values: the text of the encoding has less than 2^64 characters -/
def binFits : Call → Prop
  | .fldBin _ _ v _ | .arrBin _ v _ => 4 * ((v.length + 2) / 3) + 1 < 2 ^ 64
  | _ => True

/-- the calls are given plain text only -/
def PlainCalls (l : List Call) : Prop := ∀ c ∈ l, (∀ t ∈ texts c, Plain t) ∧ binFits c

end Sid.Spec.Fmt
