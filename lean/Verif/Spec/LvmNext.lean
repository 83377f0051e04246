import Verif.Spec.UtilStr
/-
What the output of a program says, line by line.
-/
namespace Sid.Spec.LvmNext
open Sid.Spec.UStr

/-- a text cut at each newline -/
def pieces : List UInt8 → List (List UInt8)
  | [] => [[]]
  | c :: l =>
    if c = 10 then [] :: pieces l
    else match pieces l with
      | [] => [[c]]
      | p :: ps => (c :: p) :: ps

/-- the lines of a text that are not empty -/
def lines (out : List UInt8) : List (List UInt8) := (pieces out).filter fun l => !l.isEmpty

/-- None of the lines gives a value for the key. -/
def Silent (ls : List (List UInt8)) (k : List UInt8) : Prop := ∀ l ∈ ls, ∀ v, ¬ KeyVal l k v

/-- `v` is the value of the last line giving one for the key. -/
def Says (ls : List (List UInt8)) (k v : List UInt8) : Prop :=
  ∃ a l b, ls = a ++ l :: b ∧ KeyVal l k v ∧ Silent b k

/-- a line as the programs write them: at most 2047 characters, and not just a key and an equals sign -/
def Usual (l : List UInt8) : Prop := l.length ≤ 2047 ∧ ¬ NoValue l

/-- a word without blanks and quotes -/
def Word (v : List UInt8) : Prop := v ≠ [] ∧ ∀ c ∈ v, c ∉ [32, 9, 13, 10, 11, 12] ∧ c ∉ [34, 39] ∧ c ≠ 0

end Sid.Spec.LvmNext
