import Verif.Model.Base64
import Verif.Spec.Base64

namespace Sid.Base64

theorem tableAt_lt (i : UInt8) (h : i.toNat < 64) :
    ∃ c, tableAt i = some c ∧ dtableAt c = i ∧ c ≠ padChar ∧ dtableAt c ≠ 0x80 ∧
      c ∈ Spec.Base64.alphabet ∧ Spec.Base64.alphabet.getD i.toNat 0 = c := by
  have H : ∀ n, n < 64 → ∃ c, tableAt (UInt8.ofNat n) = some c ∧ dtableAt c = UInt8.ofNat n ∧ c ≠ padChar ∧
      dtableAt c ≠ 0x80 ∧ c ∈ Spec.Base64.alphabet ∧ Spec.Base64.alphabet.getD n 0 = c := by
    have K : ∀ n, n < 64 → (∃ c ∈ tableAt (UInt8.ofNat n), dtableAt c = UInt8.ofNat n ∧ c ≠ padChar ∧
      dtableAt c ≠ 0x80 ∧ c ∈ Spec.Base64.alphabet ∧ Spec.Base64.alphabet.getD n 0 = c) := by
      intro n hn
      have : ∀ n : Fin 64, (match tableAt (UInt8.ofNat n) with
          | some c => decide (dtableAt c = UInt8.ofNat n ∧ c ≠ padChar ∧
              dtableAt c ≠ 0x80 ∧ c ∈ Spec.Base64.alphabet ∧ Spec.Base64.alphabet.getD n 0 = c)
          | none => false) = true := by decide +kernel
      have := this ⟨n, hn⟩
      revert this
      cases h : tableAt (UInt8.ofNat n) with
      | none => simp
      | some c => simp only []; intro h2; exact ⟨c, rfl, of_decide_eq_true h2⟩
    intro n hn
    obtain ⟨c, hc, h2⟩ := K n hn
    exact ⟨c, hc, h2⟩
  have := H i.toNat h
  simpa using this

theorem dtableAt_pad : dtableAt padChar = 0 := by decide +kernel

theorem dtableAt_sig (c : UInt8) : dtableAt c ≠ 0x80 ↔ Spec.Base64.significant c := by
  have : ∀ n : Fin 256, decide (dtableAt (UInt8.ofNat n) ≠ 0x80) =
      decide (UInt8.ofNat n ∈ Spec.Base64.alphabet ∨ UInt8.ofNat n = Spec.Base64.pad) := by decide +kernel
  have h := this ⟨c.toNat, c.toNat_lt⟩
  simp only [UInt8.ofNat_toNat] at h
  unfold Spec.Base64.significant
  exact decide_eq_decide.mp h


macro "byte_bits" : tactic => `(tactic| (
  apply UInt8.toBitVec_inj.mp
  apply BitVec.eq_of_getLsbD_eq
  intro i hi
  simp [UInt8.toBitVec_or, UInt8.toBitVec_shiftLeft, UInt8.toBitVec_shiftRight, UInt8.toBitVec_and]
  match i, hi with
  | 0, _ | 1, _ | 2, _ | 3, _ | 4, _ | 5, _ | 6, _ | 7, _ => simp))

theorem join0 (a b : UInt8) : ((a >>> 2) <<< 2) ||| ((((a &&& 0x03) <<< 4) ||| (b >>> 4)) >>> 4) = a := by byte_bits
theorem join0' (a : UInt8) : ((a >>> 2) <<< 2) ||| (((a &&& 0x03) <<< 4) >>> 4) = a := by byte_bits
theorem join1 (a b c : UInt8) :
    ((((a &&& 0x03) <<< 4) ||| (b >>> 4)) <<< 4) ||| ((((b &&& 0x0f) <<< 2) ||| (c >>> 6)) >>> 2) = b := by byte_bits
theorem join1' (a b : UInt8) :
    ((((a &&& 0x03) <<< 4) ||| (b >>> 4)) <<< 4) ||| (((b &&& 0x0f) <<< 2) >>> 2) = b := by byte_bits
theorem join2 (b c : UInt8) : ((((b &&& 0x0f) <<< 2) ||| (c >>> 6)) <<< 6) ||| (c &&& 0x3f) = c := by byte_bits

theorem lt64_of_bits (x : UInt8) (h6 : x.toBitVec.getLsbD 6 = false) (h7 : x.toBitVec.getLsbD 7 = false) :
    x.toNat < 64 := by
  have : x = x &&& 63 := by
    apply UInt8.toBitVec_inj.mp
    apply BitVec.eq_of_getLsbD_eq
    intro i hi
    match i, hi with
    | 0, _ | 1, _ | 2, _ | 3, _ | 4, _ | 5, _ => simp
    | 6, _ => simpa using h6
    | 7, _ => simpa using h7
  rw [this]
  simp only [UInt8.toNat_and]
  exact Nat.lt_of_le_of_lt Nat.and_le_right (by decide)

macro "byte_lt64" : tactic => `(tactic| (
  apply lt64_of_bits <;>
  simp [UInt8.toBitVec_or, UInt8.toBitVec_shiftLeft, UInt8.toBitVec_shiftRight, UInt8.toBitVec_and]))

theorem lt_w (a : UInt8) : (a >>> 2).toNat < 64 := by byte_lt64
theorem lt_x (a b : UInt8) : (((a &&& 0x03) <<< 4) ||| (b >>> 4)).toNat < 64 := by byte_lt64
theorem lt_x' (a : UInt8) : ((a &&& 0x03) <<< 4).toNat < 64 := by byte_lt64
theorem lt_y (b c : UInt8) : (((b &&& 0x0f) <<< 2) ||| (c >>> 6)).toNat < 64 := by byte_lt64
theorem lt_y' (b : UInt8) : ((b &&& 0x0f) <<< 2).toNat < 64 := by byte_lt64
theorem lt_z (c : UInt8) : (c &&& 0x3f).toNat < 64 := by byte_lt64

/-- Junk characters do not influence the decoding loop. -/
theorem decodeLoop_filter (t : List UInt8) (s : DecSt) :
    decodeLoop t s = decodeLoop (t.filter (fun c => dtableAt c ≠ 0x80)) s := by
  induction t generalizing s with
  | nil => rfl
  | cons c rest ih =>
    by_cases h : dtableAt c = 0x80
    · rw [List.filter_cons_of_neg (by simp [h]), decodeLoop]
      simp only [h, if_true]
      exact ih s
    · rw [List.filter_cons_of_pos (by simp [h]), decodeLoop, decodeLoop]
      simp only [h, if_false]
      split
      · simp only [ih { block := [], pad := _, out := _ }]
      · exact ih _

theorem decodeLoop_quad (c0 c1 c2 c3 : UInt8) (rest out : List UInt8)
    (h0 : dtableAt c0 ≠ 0x80) (h1 : dtableAt c1 ≠ 0x80) (h2 : dtableAt c2 ≠ 0x80) (h3 : dtableAt c3 ≠ 0x80)
    (p0 : c0 ≠ padChar) (p1 : c1 ≠ padChar) :
    decodeLoop (c0 :: c1 :: c2 :: c3 :: rest) { block := [], pad := 0, out := out } =
      let o := out ++ [(dtableAt c0 <<< 2) ||| (dtableAt c1 >>> 4), (dtableAt c1 <<< 4) ||| (dtableAt c2 >>> 2),
                (dtableAt c2 <<< 6) ||| dtableAt c3]
      if c2 = padChar ∧ c3 = padChar then some (o.take (o.length - 2))
      else if c2 = padChar ∨ c3 = padChar then some (o.take (o.length - 1))
      else decodeLoop rest { block := [], pad := 0, out := o } := by
  simp only [decodeLoop, h0, h1, h2, h3, p0, p1, if_false, List.nil_append, List.cons_append]
  by_cases p2 : c2 = padChar <;> by_cases p3 : c3 = padChar <;> simp [p2, p3]

theorem encodeBody_decodes (src : List UInt8) :
    ∃ body, encodeBody src = some body ∧ body.length = 4 * ((src.length + 2) / 3) ∧
      (∀ c ∈ body, Spec.Base64.significant c) ∧
      (∀ out, decodeLoop body { block := [], pad := 0, out := out } = some (out ++ src)) := by
  induction src using encodeBody.induct with
  | case1 a b c rest ih =>
    obtain ⟨body, he, hl, hs, hd⟩ := ih
    obtain ⟨w, hw, dw, pw, sw, aw, -⟩ := tableAt_lt _ (lt_w a)
    obtain ⟨x, hx, dx, px, sx, ax, -⟩ := tableAt_lt _ (lt_x a b)
    obtain ⟨y, hy, dy, py, sy, ay, -⟩ := tableAt_lt _ (lt_y b c)
    obtain ⟨z, hz, dz, pz, sz, az, -⟩ := tableAt_lt _ (lt_z c)
    refine ⟨w :: x :: y :: z :: body, ?_, ?_, ?_, ?_⟩
    · simp [encodeBody, hw, hx, hy, hz, he]
    · simp [hl]; omega
    · intro d hdm
      simp only [List.mem_cons] at hdm
      rcases hdm with rfl | rfl | rfl | rfl | hm
      · exact Or.inl aw
      · exact Or.inl ax
      · exact Or.inl ay
      · exact Or.inl az
      · exact hs d hm
    · intro out
      rw [decodeLoop_quad w x y z body out sw sx sy sz pw px]
      simp only [py, pz, and_self, or_self, if_false, hd, dw, dx, dy, dz, join0, join1, join2]
      simp
  | case2 a b =>
    obtain ⟨w, hw, dw, pw, sw, aw, -⟩ := tableAt_lt _ (lt_w a)
    obtain ⟨x, hx, dx, px, sx, ax, -⟩ := tableAt_lt _ (lt_x a b)
    obtain ⟨y, hy, dy, py, sy, ay, -⟩ := tableAt_lt _ (lt_y' b)
    refine ⟨[w, x, y, padChar], ?_, ?_, ?_, ?_⟩
    · simp [encodeBody, hw, hx, hy]
    · simp
    · intro d hdm
      simp only [List.mem_cons, List.not_mem_nil, or_false] at hdm
      rcases hdm with rfl | rfl | rfl | rfl
      · exact Or.inl aw
      · exact Or.inl ax
      · exact Or.inl ay
      · exact Or.inr (by decide)
    · intro out
      rw [decodeLoop_quad w x y padChar [] out sw sx sy (by rw [dtableAt_pad]; decide) pw px]
      simp only [py, false_and, if_false, or_true, if_true, dw, dx, dy, join0, join1']
      simp [List.take_append, List.take_of_length_le]
  | case3 a =>
    obtain ⟨w, hw, dw, pw, sw, aw, -⟩ := tableAt_lt _ (lt_w a)
    obtain ⟨x, hx, dx, px, sx, ax, -⟩ := tableAt_lt _ (lt_x' a)
    refine ⟨[w, x, padChar, padChar], ?_, ?_, ?_, ?_⟩
    · simp [encodeBody, hw, hx]
    · simp
    · intro d hdm
      simp only [List.mem_cons, List.not_mem_nil, or_false] at hdm
      rcases hdm with rfl | rfl | rfl | rfl
      · exact Or.inl aw
      · exact Or.inl ax
      · exact Or.inr (by decide)
      · exact Or.inr (by decide)
    · intro out
      rw [decodeLoop_quad w x padChar padChar [] out sw sx (by rw [dtableAt_pad]; decide)
        (by rw [dtableAt_pad]; decide) pw px]
      simp only [and_self, if_true, dw, dx, join0']
      simp [List.take_append, List.take_of_length_le]
  | case4 =>
    exact ⟨[], rfl, rfl, by simp, by simp [decodeLoop]⟩

theorem sprinkled_filter {s t : List UInt8} (h : Spec.Base64.Sprinkled s t) :
    t.filter (fun c => dtableAt c ≠ 0x80) = s.filter (fun c => dtableAt c ≠ 0x80) := by
  induction h with
  | nil => rfl
  | keep c _ ih => simp only [List.filter_cons, ih]
  | junk c hc _ ih =>
    have : ¬ dtableAt c ≠ 0x80 := fun h => hc ((dtableAt_sig c).mp h)
    rw [List.filter_cons_of_neg (by simpa using this), ih]

theorem decode_sprinkled {s t : List UInt8} (h : Spec.Base64.Sprinkled s t) : decode t = decode s := by
  unfold decode sigCount
  rw [decodeLoop_filter t, decodeLoop_filter s, sprinkled_filter h]

theorem filter_all_sig (body : List UInt8) (h : ∀ c ∈ body, Spec.Base64.significant c) :
    body.filter (fun c => dtableAt c ≠ 0x80) = body := by
  apply List.filter_eq_self.mpr
  intro c hc
  simpa using (dtableAt_sig c).mpr (h c hc)

theorem encodedLen_eq {n : Nat} (hn : n < 2 ^ 64) (h0 : encodedLen n ≠ 0) :
    encodedLen n = 4 * ((n + 2) / 3) + 1 := by
  unfold encodedLen at *
  split
  · omega
  · rename_i hne
    simp only [hne, if_false] at h0
    split at h0
    · omega
    · rename_i h
      simp only [h, if_false]
      omega

theorem encodedLen_zero_iff {n : Nat} (hn : n < 2 ^ 64) :
    encodedLen n = 0 ↔ 2 ^ 64 ≤ 4 * ((n + 2) / 3) + 1 := by
  unfold encodedLen
  split
  · omega
  · dsimp only
    split <;> omega


/-! ### Agreement with the RFC specification -/

open Spec.Base64 in
theorem sextets_six (x1 x2 x3 x4 x5 x6 : Bool) (l : List Bool) :
    sextets (x1 :: x2 :: x3 :: x4 :: x5 :: x6 :: l) = bitsVal [x1, x2, x3, x4, x5, x6] :: sextets l := by
  rw [sextets]; simp

open Spec.Base64 in
theorem bitsVal_low (u : UInt8) (h : u.toNat < 64) :
    bitsVal [u.toBitVec.getLsbD 5, u.toBitVec.getLsbD 4, u.toBitVec.getLsbD 3, u.toBitVec.getLsbD 2,
      u.toBitVec.getLsbD 1, u.toBitVec.getLsbD 0] = u.toNat := by
  have : ∀ n : Fin 64, bitsVal [(UInt8.ofNat n).toBitVec.getLsbD 5, (UInt8.ofNat n).toBitVec.getLsbD 4,
      (UInt8.ofNat n).toBitVec.getLsbD 3, (UInt8.ofNat n).toBitVec.getLsbD 2,
      (UInt8.ofNat n).toBitVec.getLsbD 1, (UInt8.ofNat n).toBitVec.getLsbD 0] = n := by decide +kernel
  have := this ⟨u.toNat, h⟩
  simpa only [UInt8.ofNat_toNat] using this

open Spec.Base64 in
theorem bits_w (a : UInt8) : bitsVal [a.toBitVec.getLsbD 7, a.toBitVec.getLsbD 6, a.toBitVec.getLsbD 5,
    a.toBitVec.getLsbD 4, a.toBitVec.getLsbD 3, a.toBitVec.getLsbD 2] = (a >>> 2).toNat := by
  rw [← bitsVal_low _ (lt_w a)]
  simp

open Spec.Base64 in
theorem bits_x (a b : UInt8) : bitsVal [a.toBitVec.getLsbD 1, a.toBitVec.getLsbD 0, b.toBitVec.getLsbD 7,
    b.toBitVec.getLsbD 6, b.toBitVec.getLsbD 5, b.toBitVec.getLsbD 4] =
      (((a &&& 0x03) <<< 4) ||| (b >>> 4)).toNat := by
  rw [← bitsVal_low _ (lt_x a b)]
  simp

open Spec.Base64 in
theorem bits_x' (a : UInt8) : bitsVal [a.toBitVec.getLsbD 1, a.toBitVec.getLsbD 0, false, false, false, false] =
      ((a &&& 0x03) <<< 4).toNat := by
  rw [← bitsVal_low _ (lt_x' a)]
  simp

open Spec.Base64 in
theorem bits_y (b c : UInt8) : bitsVal [b.toBitVec.getLsbD 3, b.toBitVec.getLsbD 2, b.toBitVec.getLsbD 1,
    b.toBitVec.getLsbD 0, c.toBitVec.getLsbD 7, c.toBitVec.getLsbD 6] =
      (((b &&& 0x0f) <<< 2) ||| (c >>> 6)).toNat := by
  rw [← bitsVal_low _ (lt_y b c)]
  simp

open Spec.Base64 in
theorem bits_y' (b : UInt8) : bitsVal [b.toBitVec.getLsbD 3, b.toBitVec.getLsbD 2, b.toBitVec.getLsbD 1,
    b.toBitVec.getLsbD 0, false, false] = ((b &&& 0x0f) <<< 2).toNat := by
  rw [← bitsVal_low _ (lt_y' b)]
  simp

open Spec.Base64 in
theorem bits_z (c : UInt8) : bitsVal [c.toBitVec.getLsbD 5, c.toBitVec.getLsbD 4, c.toBitVec.getLsbD 3,
    c.toBitVec.getLsbD 2, c.toBitVec.getLsbD 1, c.toBitVec.getLsbD 0] = (c &&& 0x3f).toNat := by
  rw [← bitsVal_low _ (lt_z c)]
  simp

theorem alphabetAt (i : UInt8) (h : i.toNat < 64) (c : UInt8) (hc : tableAt i = some c) :
    Spec.Base64.alphabet.getD i.toNat 0 = c := by
  obtain ⟨d, hd, -, -, -, -, e⟩ := tableAt_lt i h
  rw [hc] at hd; cases hd; exact e

theorem encodeBody_rfc (src body : List UInt8) (h : encodeBody src = some body) :
    body = Spec.Base64.encode src := by
  induction src using encodeBody.induct generalizing body with
  | case1 a b c rest ih =>
    obtain ⟨w, hw, -⟩ := tableAt_lt _ (lt_w a)
    obtain ⟨x, hx, -⟩ := tableAt_lt _ (lt_x a b)
    obtain ⟨y, hy, -⟩ := tableAt_lt _ (lt_y b c)
    obtain ⟨z, hz, -⟩ := tableAt_lt _ (lt_z c)
    obtain ⟨r, hr, -⟩ := encodeBody_decodes rest
    simp [encodeBody, hw, hx, hy, hz, hr] at h
    subst h
    have e : Spec.Base64.sextets (Spec.Base64.bits (a :: b :: c :: rest)) =
        (a >>> 2).toNat :: (((a &&& 0x03) <<< 4) ||| (b >>> 4)).toNat ::
        (((b &&& 0x0f) <<< 2) ||| (c >>> 6)).toNat :: (c &&& 0x3f).toNat ::
        Spec.Base64.sextets (Spec.Base64.bits rest) := by
      simp only [Spec.Base64.bits, List.flatMap_cons, Spec.Base64.byteBits, List.cons_append, List.nil_append]
      rw [sextets_six, sextets_six, sextets_six, sextets_six, bits_w, bits_x, bits_y, bits_z]
    rw [ih r hr]
    unfold Spec.Base64.encode
    simp only [e, List.map_cons, alphabetAt _ (lt_w a) w hw, alphabetAt _ (lt_x a b) x hx,
      alphabetAt _ (lt_y b c) y hy, alphabetAt _ (lt_z c) z hz, List.length_cons, List.cons_append]
    simp only [Nat.add_assoc, Nat.reduceAdd, Nat.add_mod_right]
  | case2 a b =>
    obtain ⟨w, hw, -⟩ := tableAt_lt _ (lt_w a)
    obtain ⟨x, hx, -⟩ := tableAt_lt _ (lt_x a b)
    obtain ⟨y, hy, -⟩ := tableAt_lt _ (lt_y' b)
    simp [encodeBody, hw, hx, hy] at h
    subst h
    have e : Spec.Base64.sextets (Spec.Base64.bits [a, b]) =
        [(a >>> 2).toNat, (((a &&& 0x03) <<< 4) ||| (b >>> 4)).toNat, ((b &&& 0x0f) <<< 2).toNat] := by
      simp only [Spec.Base64.bits, List.flatMap_cons, Spec.Base64.byteBits, List.cons_append, List.nil_append,
        List.flatMap_nil]
      rw [sextets_six, sextets_six, bits_w, bits_x, Spec.Base64.sextets]
      simp only [List.take, List.drop, List.length, List.replicate, List.cons_append, List.nil_append,
        Nat.reduceAdd, Nat.reduceSub]
      rw [bits_y', Spec.Base64.sextets]
    unfold Spec.Base64.encode
    simp only [e, List.map_cons, alphabetAt _ (lt_w a) w hw, alphabetAt _ (lt_x a b) x hx,
      alphabetAt _ (lt_y' b) y hy, List.length_cons, List.cons_append, List.map_nil, List.length_nil]
    simp [padChar, Spec.Base64.pad]
  | case3 a =>
    obtain ⟨w, hw, -⟩ := tableAt_lt _ (lt_w a)
    obtain ⟨x, hx, -⟩ := tableAt_lt _ (lt_x' a)
    simp [encodeBody, hw, hx] at h
    subst h
    have e : Spec.Base64.sextets (Spec.Base64.bits [a]) =
        [(a >>> 2).toNat, ((a &&& 0x03) <<< 4).toNat] := by
      simp only [Spec.Base64.bits, List.flatMap_cons, Spec.Base64.byteBits, List.cons_append, List.nil_append,
        List.flatMap_nil]
      rw [sextets_six, bits_w, Spec.Base64.sextets]
      simp only [List.take, List.drop, List.length, List.replicate, List.cons_append, List.nil_append,
        Nat.reduceAdd, Nat.reduceSub]
      rw [bits_x', Spec.Base64.sextets]
    unfold Spec.Base64.encode
    simp only [e, List.map_cons, alphabetAt _ (lt_w a) w hw, alphabetAt _ (lt_x' a) x hx,
      List.length_cons, List.cons_append, List.map_nil, List.length_nil]
    simp [padChar, Spec.Base64.pad]
  | case4 =>
    simp [encodeBody] at h
    subst h
    simp [Spec.Base64.encode, Spec.Base64.bits, Spec.Base64.sextets]

end Sid.Base64
