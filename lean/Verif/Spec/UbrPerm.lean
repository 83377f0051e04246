import Verif.Model.UbrDb
/-
Who may read and write a record.  Modules have names like "/type/dm/mpath": the part before the last slash names the module
they are subordinate to.  The core is "/".  A record carries the name of the module that wrote it and flags granting reads
and writes to foreign, subordinate and superior modules.
-/
namespace Sid.Spec.Perm
open Sid.Ubr

/-- the full name of a module: an absolute path -/
def ModName (s : Str) : Prop := ∃ t, t ≠ [] ∧ s = 47 :: t

/-- module `w` is subordinate to `o`; every module is to the core -/
def Below (o w : Str) : Prop := (∃ t, w = o ++ 47 :: t) ∨ (o = [47] ∧ ∃ t, t ≠ [] ∧ w = 47 :: t)

/-- permission bits of a record -/
def frgRd (r : Rec) : Prop := r.flags.getLsbD 5 = true
def subRd (r : Rec) : Prop := r.flags.getLsbD 6 = true
def supRd (r : Rec) : Prop := r.flags.getLsbD 7 = true
def frgWr (r : Rec) : Prop := r.flags.getLsbD 8 = true
def subWr (r : Rec) : Prop := r.flags.getLsbD 9 = true
def supWr (r : Rec) : Prop := r.flags.getLsbD 10 = true

/-- granted: to the core and the owner always, else by the flag for the relation of the modules -/
def Granted (frg sub sup : Prop) (o w : Str) : Prop :=
  w = [47] ∨ w = o ∨ (Below o w ∧ sub) ∨ (Below w o ∧ sup) ∨ (¬ Below o w ∧ ¬ Below w o ∧ frg)

def MayWrite (r : Rec) (w : Str) : Prop := Granted (frgWr r) (subWr r) (supWr r) r.owner w

def MayRead (r : Rec) (w : Str) : Prop := Granted (frgRd r) (subRd r) (supRd r) r.owner w

/-- names the code takes for those of a module and a subordinate although they are not: they differ in the very first
    character after the slash, or one goes on with a slash where the other one goes on with another character -/
def Confusable (o w : Str) : Prop :=
  (∃ a b o' w', o = 47 :: a :: o' ∧ w = 47 :: b :: w' ∧ a ≠ b) ∨
  (∃ p a o' w', o = p ++ a :: o' ∧ w = p ++ 47 :: w' ∧ a ≠ 47)

end Sid.Spec.Perm
