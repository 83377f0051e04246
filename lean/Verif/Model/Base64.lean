/-
Model of /repo/src/base/conv-base64.c (all of it).
Bytes are `UInt8`, buffers are lists of bytes.  `size_t` is 64 bits wide.
malloc (conv-base64.c:110) is assumed to succeed.
-/
namespace Sid.Base64

/-- conv-base64.c:12 `base64_table` (the 64 alphabet characters; the trailing NUL is never indexed). -/
def table : List UInt8 :=
  [65, 66, 67, 68, 69, 70, 71, 72, 73, 74, 75, 76, 77, 78, 79, 80, 81, 82, 83, 84, 85, 86, 87, 88, 89, 90,
   97, 98, 99, 100, 101, 102, 103, 104, 105, 106, 107, 108, 109, 110, 111, 112, 113, 114, 115, 116, 117,
   118, 119, 120, 121, 122,
   48, 49, 50, 51, 52, 53, 54, 55, 56, 57, 43, 47]

/-- conv-base64.c:64,69 the padding character `'='`. -/
def padChar : UInt8 := 61

/-- conv-base64.c:55-71 `base64_table[i]`.  An index outside the 64 characters would read the NUL or
    beyond; it is modelled as `none` (undefined behaviour) and shown unreachable. -/
def tableAt (i : UInt8) : Option UInt8 := table[i.toNat]?

/-- conv-base64.c:21-31 `sid_conv_base64_encoded_len`; arithmetic modulo 2^64. -/
def encodedLen (inLen : Nat) : Nat :=
  if inLen = 0 then 1
  else
    let outLen := (1 + ((inLen - 1) / 3 + 1) * 4) % 2 ^ 64
    if outLen < inLen then 0 else outLen

/-- conv-base64.c:54-73 the two loops of `sid_conv_base64_encode`: the bytes stored through `pos`
    before the terminating NUL; `none` if `base64_table` is indexed out of bounds. -/
def encodeBody : List UInt8 → Option (List UInt8)
  | a :: b :: c :: rest => do
      let w ← tableAt (a >>> 2)
      let x ← tableAt (((a &&& 0x03) <<< 4) ||| (b >>> 4))
      let y ← tableAt (((b &&& 0x0f) <<< 2) ||| (c >>> 6))
      let z ← tableAt (c &&& 0x3f)
      let r ← encodeBody rest
      pure (w :: x :: y :: z :: r)
  | [a, b] => do
      let w ← tableAt (a >>> 2)
      let x ← tableAt (((a &&& 0x03) <<< 4) ||| (b >>> 4))
      let y ← tableAt ((b &&& 0x0f) <<< 2)
      pure [w, x, y, padChar]
  | [a] => do
      let w ← tableAt (a >>> 2)
      let x ← tableAt ((a &&& 0x03) <<< 4)
      pure [w, x, padChar, padChar]
  | [] => pure []

/-- Outcome of `sid_conv_base64_encode` (conv-base64.c:43-78): `einval` writes nothing; `written bs` are
    the bytes stored into `dest` from its start, return value 0; `ub` is undefined behaviour. -/
inductive EncOut where
  | einval
  | written (bs : List UInt8)
  | ub
deriving DecidableEq, Repr

/-- conv-base64.c:43-78 `sid_conv_base64_encode`; `src = none` is a NULL pointer (then `inLen` is the
    length argument), `dest` is non-NULL iff `destOk`. -/
def encode (src : Option (List UInt8)) (inLen : Nat) (destOk : Bool) (outLen : Nat) : EncOut :=
  let checkSize := encodedLen inLen
  if (inLen ≠ 0 ∧ src = none) ∨ destOk = false ∨ checkSize = 0 ∨ checkSize > outLen then .einval
  else
    let bytes := src.getD []
    if bytes.length < inLen then .ub        -- reading past the end of `src`
    else
      match encodeBody (bytes.take inLen) with
      | some bs => .written (bs ++ [0])
      | none => .ub

/-- conv-base64.c:96-99 the decoding table: 0x80 everywhere, then `i` at each alphabet character, then 0 at `'='`. -/
def dtable : List UInt8 :=
  let t := (List.range 64).foldl
    (fun t i => t.set ((table[i]?).getD 0).toNat (UInt8.ofNat i)) (List.replicate 256 0x80)
  t.set padChar.toNat 0

theorem dtable_length : dtable.length = 256 := by decide +kernel

/-- conv-base64.c:103,117 `dtable[src[i]]` (always in bounds, as `src[i]` is an `unsigned char`). -/
def dtableAt (c : UInt8) : UInt8 :=
  dtable[c.toNat]'(by rw [dtable_length]; exact c.toNat_lt)

/-- State of the decoding loop conv-base64.c:115-143: `block` holds the first `count` entries of
    `block[4]`, `out` the bytes between `out` and `pos` (oldest first). -/
structure DecSt where
  block : List UInt8
  pad : Nat
  out : List UInt8

/-- conv-base64.c:116-142 the loop over `src`.  `none` is `return NULL` (invalid padding); stops at the
    first block containing padding.  `pos--`/`pos -= 2` drop the last bytes just written. -/
def decodeLoop : List UInt8 → DecSt → Option (List UInt8)
  | [], s => some s.out
  | c :: rest, s =>
      let tmp := dtableAt c
      if tmp = 0x80 then decodeLoop rest s
      else
        let pad := if c = padChar then s.pad + 1 else s.pad
        let block := s.block ++ [tmp]
        match block with
        | [b0, b1, b2, b3] =>
            let out := s.out ++ [(b0 <<< 2) ||| (b1 >>> 4), (b1 <<< 4) ||| (b2 >>> 2), (b2 <<< 6) ||| b3]
            if pad ≠ 0 then
              if pad = 1 then some (out.take (out.length - 1))
              else if pad = 2 then some (out.take (out.length - 2))
              else none
            else decodeLoop rest { block := [], pad := pad, out := out }
        | _ => decodeLoop rest { block := block, pad := pad, out := s.out }

/-- conv-base64.c:101-105 number of significant characters. -/
def sigCount (src : List UInt8) : Nat := (src.filter (fun c => dtableAt c ≠ 0x80)).length

/-- conv-base64.c:90-147 `sid_conv_base64_decode`: `none` is NULL, `some out` the allocated result of
    `out.length` bytes (`*out_len`). -/
def decode (src : List UInt8) : Option (List UInt8) :=
  let count := sigCount src
  if count = 0 ∨ count % 4 ≠ 0 then none
  else decodeLoop src { block := [], pad := 0, out := [] }

end Sid.Base64
