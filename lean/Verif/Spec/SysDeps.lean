import Verif.Model.SysDeps
import Verif.Spec.UbrStack
/-
What the kernel shows of the devices a device lies on: links in the directory "slaves" of a disk, and the directory of the disk
in which the one of a partition is; the number of a disk is in the file "diskseq" of its directory.
-/
namespace Sid.Spec.SysDeps
open Sid.Ubr
open Sid.Ifc (txt)

/-- a number as the kernel writes it -/
def IsNum (n : Str) : Prop := n ≠ [] ∧ n.length ≤ 20 ∧ ∀ c ∈ n, 48 ≤ c ∧ c ≤ 57

/-- the directory is the one of the disk with this number -/
def IsDisk (sys : Sysfs) (dir n : Str) : Prop := IsNum n ∧ sys.file (dir ++ txt "/diskseq") = some (n ++ [10])

/-- the directory is the one of a disk without number, or of a partition -/
def NoNumber (sys : Sysfs) (dir : Str) : Prop := sys.file (dir ++ txt "/diskseq") = none

/-- the directory of a device the device with this path lies on -/
def slave (path name : Str) : Str := txt "/sys" ++ path ++ txt "/slaves/" ++ name

/-- The kernel lists these devices, all different (and names with dots, as there are in every directory), as those the device
    lies on. -/
structure Lists (sys : Sysfs) (path : Str) (names : List Str) : Prop where
  listed : sys.dir (txt "/sys" ++ path ++ txt "/slaves") = some names
  distinct : names.Nodup
  shown : ∀ x ∈ names, x.head? ≠ some 46 → NoNumber sys (slave path x) ∨ ∃ n, IsDisk sys (slave path x) n
  different : ∀ x ∈ names, ∀ y ∈ names, x.head? ≠ some 46 → y.head? ≠ some 46 →
    ∀ n, IsDisk sys (slave path x) n → IsDisk sys (slave path y) n → x = y

/-- the partition with this path is on the disk with that path -/
def PartOf (path disk : Str) : Prop :=
  ∃ name, name ≠ [] ∧ 47 ∉ name ∧ path = disk ++ [47] ++ name ∧ disk ≠ [] ∧ disk.getLast? ≠ some 47

end Sid.Spec.SysDeps
