import Verif.Proof.Base64
/-
C01, C02, C03: Base64.
-/
namespace Sid.Props
open Sid.Base64

/-- C01.  Every non-empty byte string whose encoded length fits `size_t` is encoded into a buffer of
    `encodedLen` bytes, the text is the RFC 4648 text followed by one NUL, contains only alphabet and
    padding characters (in particular no NUL), and decodes to the original bytes. -/
theorem C01_base64_round_trip (src : List UInt8) (hne : src ≠ [])
    (hfit : 4 * ((src.length + 2) / 3) + 1 < 2 ^ 64) :
    encode (some src) src.length true (encodedLen src.length)
        = .written (Spec.Base64.encode src ++ [0]) ∧
      (∀ c ∈ Spec.Base64.encode src, Spec.Base64.significant c ∧ c ≠ 0) ∧
      decode (Spec.Base64.encode src) = some src := by
  have hn : src.length < 2 ^ 64 := by omega
  have hl : encodedLen src.length ≠ 0 := by
    intro h
    have := (encodedLen_zero_iff hn).mp h
    omega
  obtain ⟨body, hb, hlen, hsig, hd⟩ := encodeBody_decodes src
  have hrfc := encodeBody_rfc src body hb
  subst hrfc
  refine ⟨?_, ?_, ?_⟩
  · unfold encode
    simp [hl, hb]
  · intro c hc
    refine ⟨hsig c hc, ?_⟩
    rintro rfl
    exact absurd (hsig 0 hc) (by decide +kernel)
  · have h3 : 0 < src.length := List.length_pos_iff.mpr hne
    unfold decode sigCount
    rw [filter_all_sig _ hsig, hlen, if_neg (by omega), hd]
    simp

example : encode (some [77, 97, 110, 33]) 4 true 9 = .written [84, 87, 70, 117, 73, 81, 61, 61, 0] := by
  decide +kernel
example : Spec.Base64.encode [77, 97] = [84, 87, 69, 61] := by
  have := (C01_base64_round_trip [77, 97] (by simp) (by decide)).1
  have h2 : encode (some [77, 97]) 2 true (encodedLen 2) = .written [84, 87, 69, 61, 0] := by decide +kernel
  have h3 := this.symm.trans h2
  injection h3 with h4
  exact List.append_cancel_right (bs := [0]) h4

/-- C02.  Characters outside alphabet and padding may be inserted anywhere into any text without changing
    the result of decoding; in particular an encoded text with junk still decodes to the source. -/
theorem C02_base64_ignores_foreign (s t : List UInt8) (h : Spec.Base64.Sprinkled s t) :
    decode t = decode s := decode_sprinkled h

/-- C02 combined with C01. -/
theorem C02_base64_round_trip_with_junk (src t : List UInt8) (hne : src ≠ [])
    (hfit : 4 * ((src.length + 2) / 3) + 1 < 2 ^ 64)
    (h : Spec.Base64.Sprinkled (Spec.Base64.encode src) t) : decode t = some src := by
  rw [decode_sprinkled h]
  exact (C01_base64_round_trip src hne hfit).2.2

example : Spec.Base64.Sprinkled [84, 87, 69, 61] [10, 84, 87, 32, 69, 61, 10] :=
  .junk _ (by decide +kernel) (.keep _ (.keep _ (.junk _ (by decide +kernel) (.keep _ (.keep _
    (.junk _ (by decide +kernel) .nil))))))

/-- C03 (first part).  The announced length is 0 exactly when text plus NUL does not fit 64 bits. -/
theorem C03_encoded_len_zero (n : Nat) (hn : n < 2 ^ 64) :
    encodedLen n = 0 ↔ 2 ^ 64 ≤ 4 * ((n + 2) / 3) + 1 := encodedLen_zero_iff hn

/-- C03 (second part).  Otherwise it is exactly the number of bytes the encoder writes, for every output
    buffer that is at least that big; a smaller buffer (or NULL destination) is refused and nothing is written. -/
theorem C03_encoded_len_exact (src : List UInt8) (outLen : Nat) (hn : src.length < 2 ^ 64)
    (h0 : encodedLen src.length ≠ 0) :
    (encodedLen src.length ≤ outLen →
      ∃ bs, encode (some src) src.length true outLen = .written bs ∧ bs.length = encodedLen src.length) ∧
    (outLen < encodedLen src.length → encode (some src) src.length true outLen = .einval) := by
  constructor
  · intro h
    obtain ⟨body, hb, hlen, -, -⟩ := encodeBody_decodes src
    refine ⟨body ++ [0], ?_, ?_⟩
    · unfold encode
      have : ¬ (encodedLen src.length > outLen) := by omega
      simp [h0, hb, this]
    · rw [encodedLen_eq hn h0]
      simp [hlen]
  · intro h
    unfold encode
    simp [h]

/-- C03 (third part).  NULL arguments and lengths whose text does not fit are refused. -/
theorem C03_encode_refusals (src : Option (List UInt8)) (n outLen : Nat) :
    encode src n false outLen = .einval ∧
    (n ≠ 0 → encode none n true outLen = .einval) ∧
    (encodedLen n = 0 → encode src n true outLen = .einval) := by
  refine ⟨by simp [encode], fun h => by simp [encode, h], fun h => by simp [encode, h]⟩

/-- C03 (fourth part).  The decoder rejects every text whose number of significant characters is zero or not
    a multiple of four. -/
theorem C03_decode_refusals (t : List UInt8)
    (h : (t.filter (fun c => decide (Spec.Base64.significant c))).length = 0 ∨
      (t.filter (fun c => decide (Spec.Base64.significant c))).length % 4 ≠ 0) : decode t = none := by
  have e : (fun c => decide (dtableAt c ≠ 0x80)) = (fun c => decide (Spec.Base64.significant c)) := by
    funext c
    exact decide_eq_decide.mpr (dtableAt_sig c)
  unfold decode sigCount
  rw [e]
  simp only [h, if_true]

example : decode [84, 87, 69] = none := C03_decode_refusals _ (by right; decide +kernel)
example : encodedLen (2 ^ 64 - 1) = 0 := (C03_encoded_len_zero _ (by decide)).mpr (by decide)
example : encodedLen 4 = 9 := by decide

end Sid.Props
