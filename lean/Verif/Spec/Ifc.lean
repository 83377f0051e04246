import Verif.Model.Str
/-
Specifications for the client library and the base utilities.  Does not mention the model.
-/
namespace Sid.Spec.Client

/-- a number printed in decimal -/
def decimal (n : Nat) : Str :=
  if n < 10 then [UInt8.ofNat (48 + n)] else decimal (n / 10) ++ [UInt8.ofNat (48 + n % 10)]

/-- little-endian number -/
def number : List UInt8 → Nat
  | [] => 0
  | b :: l => b.toNat + 256 * number l

/-- the value of the first variable with that name -/
def valueOf (env : List Str) (name : Str) : Option Str :=
  env.findSome? fun e => if (name ++ [61]).isPrefixOf e then some (e.drop (name.length + 1)) else none

/-- strings one after the other, each with its NUL -/
def strings (l : List Str) : List UInt8 := l.flatMap fun s => s ++ [0]

/-- name and value of a variable `name=value` with a value -/
def Named (e name value : Str) : Prop := e = name ++ [61] ++ value ∧ 61 ∉ name ∧ value ≠ []

/-- the words of a line, separated by blanks, tabs and newlines; `cur` is the word being read -/
def wordsAux (cur : Str) : Str → List Str
  | [] => if cur = [] then [] else [cur]
  | c :: l =>
    if c = 32 ∨ c = 9 ∨ c = 10 then (if cur = [] then wordsAux [] l else cur :: wordsAux [] l)
    else wordsAux (cur ++ [c]) l

/-- the words of a line -/
def words (line : Str) : List Str := wordsAux [] line

/-- the word is the argument, alone or with a value -/
def isArg (arg w : Str) : Bool := w == arg || (arg ++ [61]).isPrefixOf w

end Sid.Spec.Client
