import Verif.Model.Listing
import Verif.Spec.Json
import Verif.Spec.Base64
/-
What the listings are to say.
-/
namespace Sid.Spec.Listing
open Sid.Spec.Json
open Sid.Listing (Val Node Ev Rec)
open Sid.Ifc (txt)

/-- the value is a text `s`: printable characters, ended by NUL -/
def IsText (v s : List UInt8) : Prop := v = s ++ [0] ∧ ∀ c ∈ s, 32 ≤ c ∧ c ≤ 126

/-- how a value is shown: a text as it is, anything else in Base64 -/
inductive Shown : List UInt8 → List UInt8 → Prop
  | empty : Shown [] []
  | text {v s} : IsText v s → Shown v s
  | bin {v} : v ≠ [] → (¬ ∃ s, IsText v s) → Shown v (Spec.Base64.encode v)

/-- texts have neither quotation marks nor backslashes, and sizes are those of objects in memory -/
def Clean (v : List UInt8) : Prop := v.length < 2 ^ 63 ∧ ∀ s, IsText v s → 34 ∉ s ∧ 92 ∉ s

/-- a vector the listings can show: the first value is a text or empty, the others are not empty -/
def Orderly : List (List UInt8) → Prop
  | [] => True
  | v :: l => (v = [] ∨ ∃ s, IsText v s) ∧ ∀ w ∈ l, w ≠ []

/-- how a record's value is shown -/
inductive ValJ : Val → J → Prop
  | one {v s} : Clean v → Shown v s → ValJ (.one v) (.str s)
  | vec {l : List (List UInt8 × List UInt8)} : Orderly (l.map (·.1)) → (∀ x ∈ l, Clean x.1 ∧ Shown x.1 x.2) →
      ValJ (.vec (l.map (·.1))) (.arr (l.map fun x => .str x.2))

/-- an event source -/
def evJ (e : Ev) : J := .obj [(txt "name", .str e.name), (txt "events_max", .num e.max), (txt "events_fired", .num e.fired)]

mutual
/-- a resource with everything below it -/
def resJ : Node → J
  | .mk ident type evs pid flags prio refs children =>
    .obj ([(txt "ID", .str ident)] ++ type.toList.map (fun t => (txt "type", .str t)) ++
      (if evs = [] then [] else [(txt "event-sources", .arr (evs.reverse.map evJ))]) ++
      [(txt "pid-created", .num pid), (txt "flags", .num flags), (txt "prio", .num prio), (txt "ref-count", .num refs)] ++
      (if children = [] then [] else [(txt "children", .arr (kidsJ children))]))
/-- resources one after the other -/
def kidsJ : List Node → List J
  | [] => []
  | r :: l => resJ r :: kidsJ l
end

mutual
/-- names in the tree are plain text -/
def PlainRes : Node → Prop
  | .mk ident type evs _ _ _ _ children =>
    Plain ident ∧ (∀ t, type = some t → Plain t) ∧ (∀ e ∈ evs, Plain e.name) ∧ PlainKids children
/-- names in the trees are plain text -/
def PlainKids : List Node → Prop
  | [] => True
  | r :: l => PlainRes r ∧ PlainKids l
end

/-- names of flags by the number of the bit -/
def flagNames : List (List UInt8) :=
  [txt "AL", txt "SC", txt "PS", txt "AR", txt "RS", txt "FR_RD", txt "SB_RD", txt "SP_RD", txt "FR_WR", txt "SB_WR", txt "SP_WR"]

/-- the names of the flags that are set -/
def flagsJ (flags : Nat) : J := .arr ((flagNames.zipIdx.filter fun x => flags.testBit x.2).map fun x => .str x.1)

/-- record `n` of the dump -/
inductive RecJ (n : Nat) (r : Rec) : J → Prop
  | mk {j} : Plain r.key → Plain r.owner → ValJ r.val j →
      RecJ n r (.obj [(txt "RECORD", .num n), (txt "key", .str r.key), (txt "gennum", .num r.gennum), (txt "seqnum", .num r.seqnum),
        (txt "flags", flagsJ r.flags), (txt "owner", .str r.owner),
        (match r.val with | .vec _ => txt "values" | .one _ => txt "value", j)])

/-- names of the readiness states by number -/
def readyNames : List (List UInt8) :=
  [txt "RDY_UNDEFINED", txt "RDY_REMOVED", txt "RDY_UNPROCESSED", txt "RDY_UNCONFIGURED", txt "RDY_UNINITIALIZED", txt "RDY_PRIVATE",
   txt "RDY_FLAT", txt "RDY_UNAVAILABLE", txt "RDY_PUBLIC"]

/-- names of the reservation states by number -/
def reservedNames : List (List UInt8) :=
  [txt "RES_UNDEFINED", txt "RES_UNPROCESSED", txt "RES_RESERVED", txt "RES_USED", txt "RES_FREE"]

/-- which fields a record of the given name adds to its device -/
inductive DevField : List UInt8 → Val → List (List UInt8 × J) → Prop
  | ready {b : UInt8} {s} : readyNames[b.toNat]? = some s → DevField (txt "#RDY") (.one [b, 0, 0, 0]) [(txt "#RDY", .str s)]
  | reserved {b : UInt8} {s} : reservedNames[b.toNat]? = some s → DevField (txt "#RES") (.one [b, 0, 0, 0]) [(txt "#RES", .str s)]
  | groups {v j} : ValJ v j → DevField (txt "#GIN") v [(txt "#GIN", j)]
  | members {v j} : ValJ v j → DevField (txt "#GMB") v [(txt "#GMB", j)]
  | other {c v} : c ∉ [txt "#GIN", txt "#GMB", txt "#RDY", txt "#RES"] → DevField c v []

/-- a key of a record of a device: `::D:<device>:<category>:<id>:<name>` -/
def DevKey (key devid name : List UInt8) : Prop :=
  ∃ cat ident, 58 ∉ cat ∧ 58 ∉ ident ∧ key = txt "::D:" ++ devid ++ [58] ++ cat ++ [58] ++ ident ++ [58] ++ name

/-- a device identifier that can be listed -/
def GoodId (d : List UInt8) : Prop := d ≠ [] ∧ d.length ≤ 36 ∧ 58 ∉ d ∧ Plain d

/-- a record with its name and the fields it adds -/
structure DevRec where
  key : List UInt8
  val : Val
  name : List UInt8
  fields : List (List UInt8 × J)

/-- a device with its records, in order -/
structure Dev where
  devid : List UInt8
  recs : List DevRec

/-- the device's records are such ones -/
def Dev.Good (d : Dev) : Prop :=
  GoodId d.devid ∧ d.recs ≠ [] ∧ ∀ r ∈ d.recs, DevKey r.key d.devid r.name ∧ DevField r.name r.val r.fields

/-- how a device is listed -/
def Dev.json (d : Dev) : J := .obj ((txt "DEVID", .str d.devid) :: d.recs.flatMap (·.fields))

end Sid.Spec.Listing
