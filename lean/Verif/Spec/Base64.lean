/-
Independent specification of Base64 (RFC 4648 section 4), bit by bit.  Does not mention the model.
-/
namespace Sid.Spec.Base64

/-- The RFC 4648 alphabet. -/
def alphabet : List UInt8 :=
  "ABCDEFGHIJKLMNOPQRSTUVWXYZabcdefghijklmnopqrstuvwxyz0123456789+/".toList.map (fun c => UInt8.ofNat c.toNat)

/-- The padding character. -/
def pad : UInt8 := UInt8.ofNat '='.toNat

/-- The eight bits of a byte, most significant first. -/
def byteBits (b : UInt8) : List Bool :=
  [b.toBitVec.getLsbD 7, b.toBitVec.getLsbD 6, b.toBitVec.getLsbD 5, b.toBitVec.getLsbD 4,
   b.toBitVec.getLsbD 3, b.toBitVec.getLsbD 2, b.toBitVec.getLsbD 1, b.toBitVec.getLsbD 0]

/-- The bit string of a byte string. -/
def bits (bs : List UInt8) : List Bool := bs.flatMap byteBits

/-- Value of a bit string, most significant bit first. -/
def bitsVal (bs : List Bool) : Nat := bs.foldl (fun n b => 2 * n + b.toNat) 0

/-- Cut into groups of six bits, the last group filled with zero bits on the right. -/
def sextets : List Bool → List Nat
  | [] => []
  | b :: bs =>
      bitsVal ((b :: bs).take 6 ++ List.replicate (6 - ((b :: bs).take 6).length) false) :: sextets ((b :: bs).drop 6)
termination_by l => l.length
decreasing_by simp; omega

/-- RFC 4648 encoding: alphabet characters of the 6-bit groups, then '=' up to a multiple of four. -/
def encode (bs : List UInt8) : List UInt8 :=
  let cs := (sextets (bits bs)).map (fun v => alphabet.getD v 0)
  cs ++ List.replicate ((4 - cs.length % 4) % 4) pad

/-- A character that carries information: alphabet or padding. -/
def significant (c : UInt8) : Prop := c ∈ alphabet ∨ c = pad

instance : DecidablePred significant := fun c => by unfold significant; infer_instance

/-- `t` is `s` with non-significant characters inserted anywhere. -/
inductive Sprinkled : List UInt8 → List UInt8 → Prop
  | nil : Sprinkled [] []
  | keep {s t} (c : UInt8) : Sprinkled s t → Sprinkled (c :: s) (c :: t)
  | junk {s t} (c : UInt8) : ¬ significant c → Sprinkled s t → Sprinkled s (c :: t)

end Sid.Spec.Base64
