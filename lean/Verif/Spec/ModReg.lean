/-
Names of modules.
-/
namespace Sid.Spec.ModReg

/-- How a module declares its aliases: one after the other, each with a NUL, then another NUL. -/
def declared (aliases : List (List UInt8)) : List UInt8 := (aliases.map (· ++ [0])).flatten ++ [0]

/-- Aliases that can be declared that way. -/
def ProperAliases (aliases : List (List UInt8)) : Prop := ∀ a ∈ aliases, a ≠ [] ∧ (0 : UInt8) ∉ a

/-- A module that has this name and declares its aliases in this memory (if at all) is called `nm`. -/
def Called (name : List UInt8) (mem : Option (List UInt8)) (nm : List UInt8) : Prop :=
  name = nm ∨ ∃ aliases rest, ProperAliases aliases ∧ mem = some (declared aliases ++ rest) ∧ nm ∈ aliases

/-- The memory holds a proper declaration. -/
def Proper (mem : Option (List UInt8)) : Prop :=
  mem = none ∨ ∃ aliases rest, ProperAliases aliases ∧ mem = some (declared aliases ++ rest)

/-- The full name for a path through registries and modules: a slash before each part. -/
def pathText (parts : List (List UInt8)) : List UInt8 := (parts.map (47 :: ·)).flatten

/-- A part of a path has no slash. -/
def Part (p : List UInt8) : Prop := (47 : UInt8) ∉ p

end Sid.Spec.ModReg
