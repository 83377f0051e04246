/-
Which requests of clients the daemon is to execute, in terms of the bytes of a request: eight bytes status, one byte protocol
version, one byte command number, two bytes flags, then the data of the command.
-/
namespace Sid.Spec.Conn

/-- the version of the protocol -/
def version : UInt8 := 2

/-- commands for everybody: undefined, unknown, active, reply, version; the others are for root: checkpoint, scan, dbdump, dbstats,
    resources, devices -/
def forAll : List UInt8 := [0, 1, 2, 4, 6]

/-- the biggest command number -/
def lastCommand : UInt8 := 10

/-- there is a whole header, the version is right, the command is known, and the client (`uid`, if the kernel reports it) may run it -/
def Allowed (uid : Option Nat) (m : List UInt8) : Prop :=
  12 ≤ m.length ∧ m[8]? = some version ∧ ∃ c, m[9]? = some c ∧ c ≤ lastCommand ∧ (uid = some 0 ∨ c ∈ forAll)

/-- scan and checkpoint need an environment behind the eight bytes of a device number -/
def Acceptable (uid : Option Nat) (m : List UInt8) : Prop :=
  Allowed uid m ∧ (m[9]? = some 3 ∨ m[9]? = some 5 → 20 < m.length)

instance (uid : Option Nat) (m : List UInt8) : Decidable (Allowed uid m) :=
  match h : m[9]? with
  | none => isFalse fun ⟨_, _, c, hc, _⟩ => by rw [h] at hc; cases hc
  | some c =>
    if h' : 12 ≤ m.length ∧ m[8]? = some version ∧ c ≤ lastCommand ∧ (uid = some 0 ∨ c ∈ forAll) then
      isTrue ⟨h'.1, h'.2.1, c, h, h'.2.2.1, h'.2.2.2⟩
    else isFalse fun ⟨h1, h2, c', hc, h3, h4⟩ => h' (by rw [h] at hc; cases hc; exact ⟨h1, h2, h3, h4⟩)

instance (uid : Option Nat) (m : List UInt8) : Decidable (Acceptable uid m) := inferInstanceAs (Decidable (_ ∧ _))

end Sid.Spec.Conn
