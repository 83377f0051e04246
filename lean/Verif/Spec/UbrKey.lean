import Verif.Model.UbrKey
/-
What a database key says: an operation mark, a domain, a namespace, the part of the namespace (device, module), a
category and an identifier within it, and the name proper, separated by colons.
-/
namespace Sid.Spec.UbrKey
open Sid.Ubr

/-- text without the separator -/
def Plain (s : Str) : Prop := (58 : UInt8) ∉ s

instance (s : Str) : Decidable (Plain s) := inferInstanceAs (Decidable (_ ∉ _))

/-- same for an optional part -/
def PlainOpt (o : Option Str) : Prop := ∀ s, o = some s → Plain s

/-- all parts but the name are free of separators (the name may contain them) -/
def PlainParts (s : KeySpec) : Prop :=
  PlainOpt s.dom ∧ PlainOpt s.nsPart ∧ PlainOpt s.idCat ∧ PlainOpt s.ident

/-- the mark put before a key: none, a blank, one for archives and one for the index of changed records -/
def Mark (o : Option Str) : Prop :=
  o = none ∨ o = some [32] ∨ o = some [126] ∨ o = some [62]

/-- a missing part reads as the empty one -/
def text (o : Option Str) : Str := o.getD []

/-- the parts a key is made of, missing ones being empty (and a missing mark being a blank) -/
structure Parts where
  mark : Str
  op : KvOp
  dom : Str
  ns : Ns
  nsPart : Str
  idCat : Str
  ident : Str
  name : Str
  deriving DecidableEq

def parts (s : KeySpec) : Parts :=
  ⟨s.extraOp.getD [32], s.op, text s.dom, s.ns, text s.nsPart, text s.idCat, text s.ident, text s.core⟩

/-- the letters of operations and namespaces -/
def opLetter : KvOp → Str
  | .set => []
  | .plus => [43]
  | .minus => [45]

def nsLetter : Ns → Str
  | .undefined => []
  | .udev => [85]
  | .device => [68]
  | .module => [77]
  | .devmod => [88]
  | .global => [71]

/-- a record of the daemon itself: in a domain modules cannot choose, or under a name starting with '#', which they
    cannot use -/
def DaemonKey (s : KeySpec) : Prop :=
  text s.dom = [65, 76, 83] ∨ text s.dom = [71, 82, 80] ∨ (text s.dom = [] ∧ s.ns ≠ .udev) ∨
    (text s.core).head? = some 35

end Sid.Spec.UbrKey
