/-
Specification of a size-prefixed message on the wire. Does not mention the model.
-/
namespace Sid.Spec.Frame

/-- Little-endian 32-bit representation (host byte order of the supported machines). -/
def le32 (n : Nat) : List UInt8 :=
  [UInt8.ofNat n, UInt8.ofNat (n / 256), UInt8.ofNat (n / 65536), UInt8.ofNat (n / 16777216)]

/-- A message: its total length (prefix included) followed by the payload. -/
def frame (payload : List UInt8) : List UInt8 := le32 (payload.length + 4) ++ payload

/-- Several messages one after the other. -/
def frames (ps : List (List UInt8)) : List UInt8 := ps.flatMap frame

end Sid.Spec.Frame
