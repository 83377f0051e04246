import Verif.Spec.Ifc
/-
The tables of the kernel the daemon reads to find out about the driver of a device.
-/
namespace Sid.Spec.Mod
open Sid.Spec.Client (decimal)

/-- a text -/
def ascii (s : String) : Str := s.toList.map fun c => UInt8.ofNat c.toNat

/-- major number and name of a driver -/
abbrev Driver := Nat × Str

/-- The kernel has names of at most 63 printable characters and major numbers that are C integers. -/
def Proper (d : Driver) : Prop := d.1 < 2 ^ 31 ∧ d.2.length ≤ 63 ∧ ∀ c ∈ d.2, 32 ≤ c.toNat ∧ c.toNat ≤ 126

/-- one line, `"%3d %s\n"` -/
def driverLine (d : Driver) : List UInt8 :=
  List.replicate (3 - (decimal d.1).length) 32 ++ decimal d.1 ++ ascii " " ++ d.2 ++ ascii "\n"

/-- the file /proc/devices for given drivers of character and block devices -/
def procDevices (chars blocks : List Driver) : List UInt8 :=
  ascii "Character devices:\n" ++ chars.flatMap driverLine ++ ascii "\nBlock devices:\n" ++ blocks.flatMap driverLine

/-- the file `dev` of a device in sysfs, `"%u:%u\n"` -/
def devFile (major minor : Nat) : List UInt8 := decimal major ++ ascii ":" ++ decimal minor ++ ascii "\n"

/-- the driver of block devices with that major number -/
def driverOf (blocks : List Driver) (major : Nat) : Option Str := (blocks.find? fun d => d.1 = major).map (·.2)

/-- the module for a driver: its name with underscores for dashes -/
def moduleFor (driver : Str) : Str := driver.map fun c => if c = 45 then 95 else c

end Sid.Spec.Mod
