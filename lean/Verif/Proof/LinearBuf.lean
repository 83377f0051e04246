import Verif.Model.LinearBuf

namespace Sid.LBuf
open Sid.Spec.Buf (Op Ret)

/-- Structural invariant. -/
structure Inv (b : Buf) : Prop where
  le : b.used ≤ b.mem.length
  room : pfxLen b.mode ≤ b.mem.length
  ge : b.used = 0 ∨ pfxLen b.mode ≤ b.used

/-- The bytes a reader of the buffer sees. -/
def bytes (b : Buf) : List UInt8 := (b.mem.take b.used).drop (pfxLen b.mode)

/-- A call the API allows: addresses given back are addresses of data, not of the size prefix; a limit comes with
    an allocation step. -/
def Valid (mode : Mode) : Op → Prop
  | .releaseMem off _ => pfxLen mode ≤ off
  | .resetInit _ st l => l = 0 ∨ st ≠ 0
  | _ => True

theorem resize_length (mem : List UInt8) (n : Nat) (fresh : Nat → UInt8) : (resize mem n fresh).length = n := by
  simp [resize]; omega

theorem resize_take (mem : List UInt8) (n k : Nat) (fresh : Nat → UInt8) (h1 : k ≤ n) (h2 : k ≤ mem.length) :
    (resize mem n fresh).take k = mem.take k := by
  unfold resize
  rw [List.take_append_of_le_length (by simp; omega), List.take_take, Nat.min_eq_left h1]

theorem roundUp_ge (n s : Nat) : n ≤ roundUp n s := by unfold roundUp; split <;> omega

theorem roundUp_one (n : Nat) : roundUp n 1 = n := by simp [roundUp, Nat.mod_one]

theorem roundUp_le {n s l : Nat} (hs : s ≠ 0) (hd : l % s = 0) (h : n ≤ l) : roundUp n s ≤ l := by
  unfold roundUp
  split
  · rename_i hn
    obtain ⟨q, hq⟩ : s ∣ l := Nat.dvd_of_mod_eq_zero hd
    have h1 : n = s * (n / s) + n % s := (Nat.div_add_mod n s).symm
    have h2 : n % s < s := Nat.mod_lt _ (Nat.pos_of_ne_zero hs)
    have h3 : n / s < q := by
      rw [Nat.div_lt_iff_lt_mul (Nat.pos_of_ne_zero hs)]
      have hne : n ≠ l := by
        intro e; exact hn (by rw [e]; exact hd)
      calc n < l := by omega
        _ = q * s := by rw [hq, Nat.mul_comm]
    have h4 : s * (n / s + 1) ≤ s * q := Nat.mul_le_mul_left _ h3
    rw [Nat.mul_add, Nat.mul_one] at h4
    omega
  · exact h

theorem realloc_err {b : Buf} {needed force fresh e} (h : realloc b needed force fresh = .error e) :
    (e = .EXFULL ∧ force = false ∧ b.step = 0 ∧ b.mem.length < needed) ∨
    (e = .EOVERFLOW ∧ b.limit ≠ 0 ∧ b.limit < roundUp needed (if force then 1 else b.step) ∧
      (force = false → b.mem.length < needed)) := by
  unfold realloc at h
  split at h
  · cases h
  · rename_i h1
    split at h
    · rename_i h2
      cases h
      have hf : force = false := by simpa using h2.1
      refine .inl ⟨rfl, hf, h2.2, ?_⟩
      simp [hf] at h1
      exact h1
    · dsimp only at h
      generalize roundUp needed (if force then 1 else b.step) = n at h ⊢
      split at h
      · rename_i h3
        cases h
        refine .inr ⟨rfl, h3.1, h3.2, ?_⟩
        intro hf
        simp [hf] at h1
        exact h1
      · cases h

/-- Everything needed about a successful realloc. -/
theorem realloc_ok {b b' : Buf} {needed force fresh} (h : realloc b needed force fresh = .ok b') :
    b'.mode = b.mode ∧ b'.size = b.size ∧ b'.step = b.step ∧ b'.limit = b.limit ∧ b'.used = b.used ∧
      b'.markSet = b.markSet ∧ b'.markPos = b.markPos ∧ needed ≤ b'.mem.length ∧
      (∀ k, k ≤ needed → k ≤ b.mem.length → b'.mem.take k = b.mem.take k) := by
  unfold realloc at h
  split at h
  · rename_i hc
    cases h
    exact ⟨rfl, rfl, rfl, rfl, rfl, rfl, rfl, hc.2, fun _ _ _ => rfl⟩
  · split at h
    · cases h
    · dsimp only at h
      have hge := roundUp_ge needed (if force then 1 else b.step)
      generalize roundUp needed (if force then 1 else b.step) = n at h hge
      split at h
      · cases h
      · cases h
        refine ⟨rfl, rfl, rfl, rfl, rfl, rfl, rfl, ?_, ?_⟩
        · rw [resize_length]; exact hge
        · intro k h1 h2
          exact resize_take _ _ _ _ (Nat.le_trans h1 hge) h2

theorem store_length {mem : List UInt8} {off : Nat} {bs : List UInt8} (h : off + bs.length ≤ mem.length) :
    (store mem off bs).length = mem.length := by
  simp [store]; omega

theorem store_take_before {mem : List UInt8} {off k : Nat} {bs : List UInt8} (h : off ≤ mem.length) (hk : k ≤ off) :
    (store mem off bs).take k = mem.take k := by
  unfold store
  rw [List.append_assoc, List.take_append_of_le_length (by simp; omega), List.take_take, Nat.min_eq_left hk]

theorem store_take_after {mem : List UInt8} {off : Nat} {bs : List UInt8} (h : off ≤ mem.length) :
    (store mem off bs).take (off + bs.length) = mem.take off ++ bs := by
  unfold store
  have hl : (mem.take off ++ bs).length = off + bs.length := by simp; omega
  rw [List.take_append_of_le_length (by omega), List.take_of_length_le (by omega)]

/-- A buffer after appending `bs` at the start offset. -/
theorem append_bytes {b b' : Buf} {bs : List UInt8} (I : Inv b) (hm : b'.mode = b.mode)
    (hl : startOff b + bs.length ≤ b'.mem.length)
    (ht : b'.mem.take (startOff b) = b.mem.take (startOff b)) :
    let c := { b' with mem := store b'.mem (startOff b) bs, used := startOff b + bs.length }
    Inv c ∧ bytes c = bytes b ++ bs := by
  intro c
  have ho : startOff b ≤ b.mem.length := by
    unfold startOff; split
    · exact I.room
    · exact I.le
  have hp : pfxLen b.mode ≤ startOff b := by
    unfold startOff; split
    · exact Nat.le_refl _
    · exact I.ge.resolve_left ‹_›
  refine ⟨⟨?_, ?_, ?_⟩, ?_⟩
  · show startOff b + bs.length ≤ (store b'.mem (startOff b) bs).length
    rw [store_length hl]; exact hl
  · show pfxLen b'.mode ≤ (store b'.mem (startOff b) bs).length
    rw [store_length hl, hm]; omega
  · right
    show pfxLen b'.mode ≤ startOff b + bs.length
    rw [hm]; omega
  · show ((store b'.mem (startOff b) bs).take (startOff b + bs.length)).drop (pfxLen b'.mode) = bytes b ++ bs
    rw [store_take_after (by omega), ht, hm, List.drop_append_of_le_length (by simp; omega)]
    congr 1
    unfold bytes startOff
    split
    · rename_i h0
      rw [h0]; simp
    · rfl

theorem count_eq {b : Buf} (I : Inv b) : count b = (bytes b).length := by
  have h1 := I.le
  have h2 := I.ge
  unfold count bytes
  cases hm : b.mode
  · simp [pfxLen]; omega
  · simp only [hm, pfxLen] at h2 ⊢
    simp
    split
    · omega
    · rw [if_neg (by omega)]; omega

theorem bytes_setMark (b : Buf) (m : Bool) (p : Nat) : bytes (setMark b m p) = bytes b ∧ (Inv b → Inv (setMark b m p)) := by
  unfold setMark
  split
  · exact ⟨rfl, fun I => ⟨I.le, I.room, I.ge⟩⟩
  · exact ⟨rfl, id⟩

theorem add_spec {b b' : Buf} {bs : List UInt8} {mem fresh r} (I : Inv b) (h : add b bs mem fresh = (b', r)) :
    Inv b' ∧ b'.mode = b.mode ∧
      ((∃ e, r = .err e ∧ b' = b ∧ (b.markSet = true ∧ e = .EBUSY ∨ b.markSet = false ∧ (e = .EXFULL ∨ e = .EOVERFLOW))) ∨
       (b.markSet = false ∧ r = .pos (bytes b).length ∧ bytes b' = bytes b ++ bs ∧
        b'.markSet = mem ∧ (mem = true → b'.markPos = (bytes b).length))) := by
  unfold add at h
  split at h
  · cases h
    exact ⟨I, rfl, .inl ⟨.EBUSY, rfl, rfl, .inl ⟨by assumption, rfl⟩⟩⟩
  · rename_i hmk
    have hmk : b.markSet = false := by simpa using hmk
    dsimp only at h
    split at h
    · rename_i e he
      cases h
      refine ⟨I, rfl, .inl ⟨e, rfl, rfl, .inr ⟨hmk, ?_⟩⟩⟩
      exact (realloc_err he).imp (·.1) (·.1)
    · rename_i b1 hb1
      cases h
      obtain ⟨e1, e2, e3, e4, e5, e6, e7, e8, e9⟩ := realloc_ok hb1
      have hol : startOff b ≤ b.mem.length := by
        unfold startOff; split
        · exact I.room
        · exact I.le
      have := append_bytes (bs := bs) I e1 e8 (e9 _ (by omega) hol)
      dsimp only at this
      obtain ⟨J, hb⟩ := this
      refine ⟨(bytes_setMark _ _ _).2 J, ?_, .inr ⟨hmk, by rw [count_eq I], ?_, ?_, ?_⟩⟩
      · unfold setMark; split <;> exact e1
      · rw [(bytes_setMark _ _ _).1]; exact hb
      · unfold setMark
        cases mem
        · simp [e6, hmk]
        · simp
      · intro hm
        subst hm
        simp [setMark, count_eq I]

theorem addFmt_spec {b b' : Buf} {s : List UInt8} {mem fresh r} (I : Inv b) (h : addFmt b s mem fresh = (b', r)) :
    Inv b' ∧ b'.mode = b.mode ∧
      ((∃ e, r = .err e ∧ bytes b' = bytes b ∧ b'.markSet = b.markSet ∧ b'.markPos = b.markPos ∧ b'.gen = b.gen ∧
          (b.markSet = true → b' = b) ∧
          (b.markSet = true ∧ e = .EBUSY ∨ b.markSet = false ∧ (e = .EXFULL ∨ e = .EOVERFLOW))) ∨
       (b.markSet = false ∧ r = .pos (bytes b).length ∧ bytes b' = bytes b ++ (s ++ [0]) ∧
        b'.markSet = mem ∧ (mem = true → b'.markPos = (bytes b).length))) := by
  unfold addFmt at h
  split at h
  · rename_i hmk
    cases h
    exact ⟨I, rfl, .inl ⟨.EBUSY, rfl, rfl, rfl, rfl, rfl, fun _ => rfl, .inl ⟨hmk, rfl⟩⟩⟩
  · rename_i hmk
    have hmk : b.markSet = false := by simpa using hmk
    have hol : startOff b ≤ b.mem.length := by
      unfold startOff; split
      · exact I.room
      · exact I.le
    have huo : b.used ≤ startOff b := by unfold startOff; split <;> omega
    dsimp only at h
    split at h
    · -- did not fit
      rename_i hfit
      generalize hb1 : (if b.mem.length - startOff b = 0 then b
        else { b with mem := store b.mem (startOff b) (s.take (b.mem.length - startOff b - 1) ++ [0]) }) = b1 at h
      have hb1' : b1.mode = b.mode ∧ b1.used = b.used ∧ b1.markSet = b.markSet ∧ b1.markPos = b.markPos ∧
          b1.gen = b.gen ∧ b1.mem.length = b.mem.length ∧ b1.mem.take (startOff b) = b.mem.take (startOff b) := by
        rw [← hb1]
        split
        · exact ⟨rfl, rfl, rfl, rfl, rfl, rfl, rfl⟩
        · refine ⟨rfl, rfl, rfl, rfl, rfl, ?_, ?_⟩
          · exact store_length (by simp; omega)
          · exact store_take_before hol (Nat.le_refl _)
      obtain ⟨f1, f2, f3, f4, f5, f6, f7⟩ := hb1'
      have I1 : Inv b1 := ⟨by rw [f2, f6]; exact I.le, by rw [f1, f6]; exact I.room, by rw [f1, f2]; exact I.ge⟩
      have hbytes : bytes b1 = bytes b := by
        unfold bytes
        rw [f1, f2]
        have : b1.mem.take b.used = b.mem.take b.used := by
          have := congrArg (List.take b.used) f7
          simpa [List.take_take, Nat.min_eq_left huo] using this
        rw [this]
      split at h
      · rename_i e he
        cases h
        refine ⟨I1, f1, .inl ⟨e, rfl, hbytes, f3, f4, f5, by simp [hmk], .inr ⟨hmk, ?_⟩⟩⟩
        exact (realloc_err he).imp (·.1) (·.1)
      · rename_i b2 hb2
        cases h
        obtain ⟨e1, e2, e3, e4, e5, e6, e7, e8, e9⟩ := realloc_ok hb2
        have hs : startOff b1 = startOff b := by unfold startOff; rw [f1, f2]
        have := append_bytes (b := b1) (b' := b2) (bs := s ++ [0]) I1 e1 (by rw [hs]; simp only [List.length_append, List.length_cons, List.length_nil]; omega)
          (by rw [hs]; exact e9 _ (by omega) (by omega))
        dsimp only at this
        rw [hs] at this
        obtain ⟨J, hb⟩ := this
        simp only [List.length_append, List.length_cons, List.length_nil, Nat.zero_add, ← Nat.add_assoc] at J hb
        refine ⟨(bytes_setMark _ _ _).2 J, ?_, .inr ⟨hmk, by rw [count_eq I], ?_, ?_, ?_⟩⟩
        · unfold setMark; split <;> exact e1.trans f1
        · rw [(bytes_setMark _ _ _).1, hb, hbytes]
        · unfold setMark
          cases mem
          · simp [e6, f3, hmk]
          · simp
        · intro hm
          subst hm
          simp [setMark, count_eq I]
    · rename_i hfit
      cases h
      have := append_bytes (b := b) (b' := b) (bs := s ++ [0]) I rfl (by simp; omega) rfl
      dsimp only at this
      obtain ⟨J, hb⟩ := this
      simp only [List.length_append, List.length_cons, List.length_nil, Nat.zero_add, ← Nat.add_assoc] at J hb
      refine ⟨(bytes_setMark _ _ _).2 J, ?_, .inr ⟨hmk, by rw [count_eq I], ?_, ?_, ?_⟩⟩
      · unfold setMark; split <;> rfl
      · rw [(bytes_setMark _ _ _).1, hb]
      · unfold setMark
        cases mem
        · simp [hmk]
        · simp
      · intro hm
        subst hm
        simp [setMark, count_eq I]

/-- Truncation to `p` content bytes. -/
theorem truncate_bytes {b b' : Buf} {p : Nat} (I : Inv b) (hm : b'.mode = b.mode) (hmem : b'.mem = b.mem)
    (hu : b'.used = p + pfxLen b.mode) (hp : p ≤ (bytes b).length) (hu0 : b.used ≠ 0) :
    Inv b' ∧ bytes b' = (bytes b).take p := by
  have hl := I.le
  have hg := I.ge.resolve_left hu0
  have hlen : (bytes b).length = b.used - pfxLen b.mode := by simp [bytes]; omega
  refine ⟨⟨?_, ?_, ?_⟩, ?_⟩
  · rw [hu, hmem]; omega
  · rw [hm, hmem]; exact I.room
  · right; rw [hu, hm]; omega
  · unfold bytes
    rw [hm, hmem, hu, List.take_drop, List.take_take, Nat.add_comm p, Nat.min_eq_left (by omega)]

theorem releaseAt_fields (b : Buf) (p u : Nat) (rw' : Bool) :
    (releaseAt b p u rw').mode = b.mode ∧ (releaseAt b p u rw').mem = b.mem ∧ (releaseAt b p u rw').gen = b.gen ∧
    (releaseAt b p u rw').used = (if rw' then u else b.used) ∧
    (releaseAt b p u rw').size = b.size ∧ (releaseAt b p u rw').step = b.step ∧ (releaseAt b p u rw').limit = b.limit ∧
    (releaseAt b p u rw').markSet = (b.markSet && !decide (p ≤ b.markPos)) ∧
    (b.markSet = true → b.markPos < p → (releaseAt b p u rw').markPos = b.markPos) := by
  unfold releaseAt
  by_cases h : b.markSet ∧ p ≤ b.markPos
  · obtain ⟨h1, h2⟩ := h
    cases rw' <;> simp [h1, h2] <;> intro h3 <;> omega
  · cases hs : b.markSet
    · cases rw' <;> simp [hs]
    · have hlt : ¬ p ≤ b.markPos := fun hc => h ⟨hs, hc⟩
      cases rw' <;> simp [hs, hlt]

theorem release_spec {b b' : Buf} {p : Nat} {rel rewind : Bool} {r} (I : Inv b)
    (h : release b p rel rewind = (b', r)) :
    Inv b' ∧ b'.mode = b.mode ∧ b'.mem = b.mem ∧ b'.gen = b.gen ∧
      ((r = .err .ERANGE ∧ b' = b ∧ (bytes b).length < p) ∨
       (r = .done ∧ p ≤ (bytes b).length ∧
        bytes b' = (if rewind then (bytes b).take (if rel then (bytes b).length - p else p) else bytes b) ∧
        ((bytes b = [] ∧ b' = b) ∨
          (b'.markSet = (b.markSet && !decide ((if rel then (bytes b).length - p else p) ≤ b.markPos)) ∧
            (b'.markSet = true → b'.markPos = b.markPos))))) := by
  unfold release at h
  rw [count_eq I] at h
  dsimp only at h
  split at h
  · rename_i h0
    have hnil : bytes b = [] := List.length_eq_zero_iff.mp h0
    cases h
    refine ⟨I, rfl, rfl, rfl, ?_⟩
    by_cases hp : p = 0
    · right
      refine ⟨by simp [hp], by omega, by simp [hnil], .inl ⟨hnil, rfl⟩⟩
    · left
      refine ⟨by simp [hp], rfl, by omega⟩
  · rename_i h0
    split at h
    · cases h
      exact ⟨I, rfl, rfl, rfl, .inl ⟨rfl, rfl, by assumption⟩⟩
    · rename_i hp
      cases h
      have hu0 : b.used ≠ 0 := by
        intro hc
        apply h0
        simp [bytes, hc]
      obtain ⟨g1, g2, g3, g4, g5, g6, g7, g8, g9⟩ := releaseAt_fields b (if rel then (bytes b).length - p else p)
        ((if rel then (bytes b).length - p else p) + pfxLen b.mode) rewind
      have hq : (if rel then (bytes b).length - p else p) ≤ (bytes b).length := by split <;> omega
      generalize (if rel then (bytes b).length - p else p) = q at *
      have key : Inv (releaseAt b q (q + pfxLen b.mode) rewind) ∧
          bytes (releaseAt b q (q + pfxLen b.mode) rewind) =
            (if rewind then (bytes b).take q else bytes b) := by
        cases rewind
        · constructor
          · exact ⟨by rw [g4, g2]; exact I.le, by rw [g1, g2]; exact I.room, by rw [g1, g4]; exact I.ge⟩
          · simp only [bytes, g1, g2, g4]; rfl
        · exact truncate_bytes I g1 g2 g4 hq hu0
      refine ⟨key.1, g1, g2, g3, .inr ⟨rfl, by omega, key.2, .inr ⟨g8, ?_⟩⟩⟩
      intro hms
      rw [g8] at hms
      simp only [Bool.and_eq_true, Bool.not_eq_true', decide_eq_false_iff_not] at hms
      exact g9 hms.1 (by omega)

theorem releaseMem_spec {b b' : Buf} {off : Nat} {rewind : Bool} {r} (I : Inv b) (hoff : pfxLen b.mode ≤ off)
    (h : releaseMem b off rewind = (b', r)) :
    Inv b' ∧ b'.mode = b.mode ∧ b'.mem = b.mem ∧ b'.gen = b.gen ∧
      ((r = .err .ERANGE ∧ b' = b ∧ b.used < off) ∨
       (r = .done ∧ off ≤ b.used ∧
        bytes b' = (if rewind then (bytes b).take (off - pfxLen b.mode) else bytes b) ∧
        b'.markSet = (b.markSet && !decide (off - pfxLen b.mode ≤ b.markPos)) ∧
            (b'.markSet = true → b'.markPos = b.markPos))) := by
  unfold releaseMem at h
  split at h
  · cases h
    exact ⟨I, rfl, rfl, rfl, .inl ⟨rfl, rfl, by assumption⟩⟩
  · rename_i hle
    have hpos : addrPos b.mode off = off - pfxLen b.mode := by
      unfold addrPos
      cases hm : b.mode
      · simp [pfxLen]
      · rw [hm] at hoff
        simp only [pfxLen] at hoff ⊢
        rw [if_neg (by omega)]
    rw [hpos] at h
    cases h
    obtain ⟨g1, g2, g3, g4, g5, g6, g7, g8, g9⟩ := releaseAt_fields b (off - pfxLen b.mode) off rewind
    have key : Inv (releaseAt b (off - pfxLen b.mode) off rewind) ∧
        bytes (releaseAt b (off - pfxLen b.mode) off rewind) =
          (if rewind then (bytes b).take (off - pfxLen b.mode) else bytes b) := by
      cases rewind
      · constructor
        · exact ⟨by rw [g4, g2]; exact I.le, by rw [g1, g2]; exact I.room, by rw [g1, g4]; exact I.ge⟩
        · simp only [bytes, g1, g2, g4]; rfl
      · by_cases hu0 : b.used = 0
        · have : off = 0 := by omega
          subst this
          constructor
          · exact ⟨by rw [g4]; simp, by rw [g1, g2]; exact I.room, by left; rw [g4]; simp⟩
          · unfold bytes
            rw [g4, hu0]; simp
        · have hlen : (bytes b).length = b.used - pfxLen b.mode := by
            have := I.le
            simp [bytes]; omega
          exact truncate_bytes I g1 g2 (by rw [g4]; simp; omega) (by omega) hu0
    refine ⟨key.1, g1, g2, g3, .inr ⟨rfl, by omega, key.2, g8, ?_⟩⟩
    intro hms
    rw [g8] at hms
    simp only [Bool.and_eq_true, Bool.not_eq_true', decide_eq_false_iff_not] at hms
    exact g9 hms.1 (by omega)

theorem getData_spec {b b' : Buf} {p : Nat} {r} (I : Inv b) (h : getData b p = (b', r)) :
    Inv b' ∧ b'.mode = b.mode ∧ b'.mem = b.mem ∧ b'.gen = b.gen ∧ bytes b' = bytes b ∧
      ((r = .err .ERANGE ∧ b' = b ∧ (bytes b).length < p) ∨
       (r = .data ((bytes b).drop p) ∧ p ≤ (bytes b).length ∧ b'.markSet = true ∧
        b'.markPos = (if b.markSet = true ∧ p ≠ 0 then b.markPos else p))) := by
  unfold getData at h
  rw [count_eq I] at h
  split at h
  · cases h
    exact ⟨I, rfl, rfl, rfl, rfl, .inl ⟨rfl, rfl, by assumption⟩⟩
  · rename_i hp
    dsimp only at h
    have hdata : (b.mem.drop (pfxLen b.mode + p)).take (dataSize b p) = (bytes b).drop p := by
      have hle := I.le
      have hge := I.ge
      unfold bytes
      rw [List.drop_drop, List.drop_take]
      congr 1
      unfold dataSize
      cases hm : b.mode
      · simp [pfxLen]
      · simp only [pfxLen]
        split <;> omega
    rw [hdata] at h
    cases hs : b.markSet
    · simp only [hs] at h
      simp at h
      obtain ⟨rfl, rfl⟩ := h
      exact ⟨⟨I.le, I.room, I.ge⟩, rfl, rfl, rfl, rfl, .inr ⟨rfl, by omega, rfl, by simp⟩⟩
    · simp only [hs] at h
      by_cases h0 : p = 0
      · subst h0
        simp at h
        obtain ⟨rfl, rfl⟩ := h
        exact ⟨⟨I.le, I.room, I.ge⟩, rfl, rfl, rfl, rfl, .inr ⟨by simp, by omega, rfl, by simp⟩⟩
      · simp [h0] at h
        obtain ⟨rfl, rfl⟩ := h
        exact ⟨I, rfl, rfl, rfl, rfl, .inr ⟨rfl, by omega, hs, by simp [h0]⟩⟩

theorem realloc_force {b : Buf} {needed fresh} :
    realloc b needed true fresh =
      if b.limit ≠ 0 ∧ needed > b.limit then .error .EOVERFLOW
      else .ok { b with mem := resize b.mem needed fresh, gen := b.gen + 1 } := by
  unfold realloc
  simp [roundUp_one]

theorem reset_spec {b b' : Buf} {fresh r} (hroom : pfxLen b.mode ≤ b.mem.length) (h : reset b fresh = (b', r)) :
    Inv b' ∧ b'.mode = b.mode ∧ bytes b' = [] ∧ b'.markSet = false ∧ b'.used = 0 ∧
      ((r = .done ∧ b'.mem.length = b.size + pfxLen b.mode) ∨
       (r = .err .EOVERFLOW ∧ b.limit ≠ 0 ∧ b.limit < b.size + pfxLen b.mode ∧ b'.mem = b.mem)) ∧
      b'.size = b.size ∧ b'.step = b.step ∧ b'.limit = b.limit := by
  unfold reset at h
  dsimp only at h
  rw [realloc_force] at h
  dsimp only at h
  split at h
  · rename_i e he
    split at he
    · rename_i hl
      cases he; cases h
      exact ⟨⟨Nat.zero_le _, hroom, .inl rfl⟩, rfl, by simp [bytes], rfl, rfl, .inr ⟨rfl, hl.1, hl.2, rfl⟩, rfl, rfl, rfl⟩
    · cases he
  · rename_i c hc
    split at hc
    · cases hc
    · cases hc; cases h
      refine ⟨⟨Nat.zero_le _, ?_, .inl rfl⟩, rfl, by simp [bytes], rfl, rfl, .inl ⟨rfl, ?_⟩, rfl, rfl, rfl⟩
      · show pfxLen b.mode ≤ (resize _ _ _).length
        rw [resize_length]; omega
      · exact resize_length _ _ _

theorem create_spec {mode size st limit fresh b} (h : create mode size st limit fresh = .ok b) :
    Inv b ∧ b.mode = mode ∧ bytes b = [] ∧ b.markSet = false ∧ b.used = 0 ∧ b.mem.length = size + pfxLen mode ∧
      b.size = size ∧ b.step = st ∧ b.limit = limit ∧ checkBuf size st limit = some true ∧
      (limit = 0 ∨ size + pfxLen mode ≤ limit) := by
  unfold create at h
  split at h
  · cases h
  · cases h
  · rename_i hc
    dsimp only at h
    rw [realloc_force] at h
    dsimp only at h
    split at h
    · cases h
    · rename_i c hcc
      split at hcc
      · cases hcc
      · rename_i hl
        cases hcc; cases h
        refine ⟨⟨Nat.zero_le _, ?_, .inl rfl⟩, rfl, by simp [bytes], rfl, rfl, resize_length _ _ _, rfl, rfl, rfl, hc, ?_⟩
        · show pfxLen mode ≤ (resize _ _ _).length
          rw [resize_length]; omega
        · by_cases h0 : limit = 0
          · exact .inl h0
          · right
            have : ¬ (size + pfxLen mode > limit) := fun hgt => hl ⟨h0, hgt⟩
            omega

/-- One call preserves the invariant and follows the byte-sequence specification. -/
theorem step_spec {b b' : Buf} {op : Op} {fresh r} (I : Inv b) (V : Valid b.mode op)
    (h : step b op fresh = some (b', r)) :
    Inv b' ∧ b'.mode = b.mode ∧ bytes b' = Spec.Buf.effect (pfxLen b.mode) (bytes b) op r := by
  cases op with
  | add bs m =>
    simp only [step, Option.some.injEq] at h
    obtain ⟨J, hm, hc⟩ := add_spec I h
    refine ⟨J, hm, ?_⟩
    rcases hc with ⟨e, rfl, rfl, -⟩ | ⟨-, rfl, hb, -⟩
    · rfl
    · exact hb
  | addZero n m =>
    simp only [step, Option.some.injEq] at h
    obtain ⟨J, hm, hc⟩ := add_spec I h
    refine ⟨J, hm, ?_⟩
    rcases hc with ⟨e, rfl, rfl, -⟩ | ⟨-, rfl, hb, -⟩
    · rfl
    · exact hb
  | addFmt s m =>
    simp only [step, Option.some.injEq] at h
    obtain ⟨J, hm, hc⟩ := addFmt_spec I h
    refine ⟨J, hm, ?_⟩
    rcases hc with ⟨e, rfl, hb, -⟩ | ⟨-, rfl, hb, -⟩
    · exact hb
    · rw [hb]; simp [Spec.Buf.effect]
  | release p rel rw' =>
    simp only [step, Option.some.injEq] at h
    obtain ⟨J, hm, -, -, hc⟩ := release_spec I h
    refine ⟨J, hm, ?_⟩
    rcases hc with ⟨rfl, rfl, -⟩ | ⟨rfl, -, hb, -⟩
    · cases rw' <;> rfl
    · rw [hb]
      cases rw'
      · rfl
      · cases rel <;> simp [Spec.Buf.effect]
  | releaseMem off rw' =>
    simp only [step, Option.some.injEq] at h
    obtain ⟨J, hm, -, -, hc⟩ := releaseMem_spec I V h
    refine ⟨J, hm, ?_⟩
    rcases hc with ⟨rfl, rfl, -⟩ | ⟨rfl, -, hb, -⟩
    · cases rw' <;> rfl
    · rw [hb]
      cases rw' <;> rfl
  | getData p =>
    simp only [step, Option.some.injEq] at h
    obtain ⟨J, hm, -, -, hb, -⟩ := getData_spec I h
    exact ⟨J, hm, hb⟩
  | reset =>
    simp only [step, Option.some.injEq] at h
    obtain ⟨J, hm, hb, -, -, hc, -⟩ := reset_spec I.room h
    refine ⟨J, hm, ?_⟩
    rcases hc with ⟨rfl, -⟩ | ⟨rfl, h1, h2, h3⟩
    · exact hb
    · exact hb
  | resetInit sz st l =>
    simp only [step, resetInit] at h
    split at h
    · cases h
    · cases h
      exact ⟨⟨I.le, I.room, I.ge⟩, rfl, rfl⟩
    · simp only [Option.some.injEq] at h
      obtain ⟨J, hm, hb, -, -, hc, -⟩ := reset_spec (b := { b with size := sz, step := st, limit := l }) I.room h
      refine ⟨J, hm, ?_⟩
      rcases hc with ⟨rfl, -⟩ | ⟨rfl, h1, h2, h3⟩ <;> exact hb

theorem reach_spec {mode hist b} (R : Reach mode hist b) (V : ∀ e ∈ hist, Valid mode e.1) :
    Inv b ∧ b.mode = mode ∧ bytes b = Spec.Buf.content (pfxLen mode) hist := by
  induction R with
  | create h =>
    obtain ⟨I, hm, hb, -⟩ := create_spec h
    exact ⟨I, hm, hb⟩
  | call R hs ih =>
    rename_i hist b op fresh b' r
    obtain ⟨I, hm, hb⟩ := ih (fun e he => V e (by simp [he]))
    have V' := V (op, r) (by simp)
    obtain ⟨J, hm', hb'⟩ := step_spec I (by rw [hm]; exact V') hs
    refine ⟨J, hm'.trans hm, ?_⟩
    rw [hb', hb, hm]
    simp [Spec.Buf.content, List.foldl_append]

/-! ### Allocation limit -/

/-- A re-initialisation whose size (with prefix) fits its own limit, or which is refused up front. -/
def ResetFits (mode : Mode) : Op → Prop
  | .resetInit sz _ l => l = 0 ∨ l < sz ∨ sz + pfxLen mode ≤ l
  | _ => True

/-- Limit invariant. -/
structure LInv (b : Buf) : Prop where
  lim : b.limit = 0 ∨ b.mem.length ≤ b.limit
  chk : checkBuf b.size b.step b.limit = some true
  fits : b.limit = 0 ∨ b.size + pfxLen b.mode ≤ b.limit

theorem checkBuf_true {size st l : Nat} (h : checkBuf size st l = some true) : l = 0 ∨ (st ≠ 0 ∧ l % st = 0) := by
  unfold checkBuf at h
  split at h
  · exact .inl (by assumption)
  · split at h
    · cases h
    · split at h
      · cases h
      · right
        refine ⟨by assumption, by simpa using h⟩

theorem realloc_linv {b b' : Buf} {needed force fresh} (L : LInv b) (h : realloc b needed force fresh = .ok b') :
    LInv b' := by
  obtain ⟨e1, e2, e3, e4, -⟩ := realloc_ok h
  refine ⟨?_, by rw [e2, e3, e4]; exact L.chk, by rw [e2, e1, e4]; exact L.fits⟩
  rw [e4]
  unfold realloc at h
  split at h
  · cases h; exact L.lim
  · split at h
    · cases h
    · dsimp only at h
      generalize roundUp needed (if force then 1 else b.step) = n at h
      split at h
      · cases h
      · rename_i hn
        cases h
        by_cases h0 : b.limit = 0
        · exact .inl h0
        · right
          rw [resize_length]
          apply Nat.le_of_not_gt
          intro hgt
          exact hn ⟨h0, hgt⟩

theorem setMark_linv {b : Buf} {m p} (L : LInv b) : LInv (setMark b m p) := by
  unfold setMark; split
  · exact ⟨L.lim, L.chk, L.fits⟩
  · exact L

theorem add_linv {b b' : Buf} {bs mem fresh r} (L : LInv b) (h : add b bs mem fresh = (b', r)) : LInv b' := by
  unfold add at h
  split at h
  · cases h; exact L
  · dsimp only at h
    split at h
    · cases h; exact L
    · rename_i b1 hb1
      cases h
      apply setMark_linv
      have L1 := realloc_linv L hb1
      obtain ⟨-, -, -, -, -, -, -, e8, -⟩ := realloc_ok hb1
      refine ⟨?_, L1.chk, L1.fits⟩
      rw [store_length e8]
      exact L1.lim

theorem addFmt_linv {b b' : Buf} {s mem fresh r} (I : Inv b) (L : LInv b) (h : addFmt b s mem fresh = (b', r)) : LInv b' := by
  have hol : startOff b ≤ b.mem.length := by
    unfold startOff; split
    · exact I.room
    · exact I.le
  unfold addFmt at h
  split at h
  · cases h; exact L
  · dsimp only at h
    split at h
    · generalize hb1 : (if b.mem.length - startOff b = 0 then b
        else { b with mem := store b.mem (startOff b) (s.take (b.mem.length - startOff b - 1) ++ [0]) }) = b1 at h
      have L1 : LInv b1 := by
        rw [← hb1]
        split
        · exact L
        · refine ⟨?_, L.chk, L.fits⟩
          rw [store_length (by simp; omega)]
          exact L.lim
      split at h
      · cases h; exact L1
      · rename_i b2 hb2
        cases h
        apply setMark_linv
        have L2 := realloc_linv L1 hb2
        obtain ⟨-, -, -, -, -, -, -, e8, -⟩ := realloc_ok hb2
        refine ⟨?_, L2.chk, L2.fits⟩
        rw [store_length (by simp only [List.length_append, List.length_cons, List.length_nil]; omega)]
        exact L2.lim
    · rename_i hfit
      cases h
      apply setMark_linv
      refine ⟨?_, L.chk, L.fits⟩
      rw [store_length (by simp only [List.length_append, List.length_cons, List.length_nil]; omega)]
      exact L.lim

theorem reset_linv {b b' : Buf} {fresh r} (hchk : checkBuf b.size b.step b.limit = some true)
    (hf : b.limit = 0 ∨ b.size + pfxLen b.mode ≤ b.limit)
    (h : reset b fresh = (b', r)) : LInv b' := by
  unfold reset at h
  dsimp only at h
  rw [realloc_force] at h
  dsimp only at h
  rw [if_neg (by rintro ⟨h1, h2⟩; rcases hf with h0 | h0 <;> omega)] at h
  cases h
  refine ⟨?_, hchk, hf⟩
  show b.limit = 0 ∨ (resize _ _ _).length ≤ b.limit
  rw [resize_length]
  exact hf

theorem step_linv {b b' : Buf} {op fresh r} (I : Inv b) (L : LInv b) (F : ResetFits b.mode op)
    (h : step b op fresh = some (b', r)) : LInv b' := by
  cases op with
  | add bs m => simp only [step, Option.some.injEq] at h; exact add_linv L h
  | addZero n m => simp only [step, Option.some.injEq] at h; exact add_linv L h
  | addFmt s m => simp only [step, Option.some.injEq] at h; exact addFmt_linv I L h
  | release p rel rw' =>
    simp only [step, Option.some.injEq, release] at h
    split at h
    · cases h; exact L
    · split at h
      · cases h; exact L
      · cases h
        obtain ⟨g1, g2, g3, g4, g5, g6, g7, -⟩ := releaseAt_fields b (if rel then count b - p else p)
          ((if rel then count b - p else p) + pfxLen b.mode) rw'
        exact ⟨by rw [g7, g2]; exact L.lim, by rw [g5, g6, g7]; exact L.chk, by rw [g5, g1, g7]; exact L.fits⟩
  | releaseMem off rw' =>
    simp only [step, Option.some.injEq, releaseMem] at h
    split at h
    · cases h; exact L
    · cases h
      obtain ⟨g1, g2, g3, g4, g5, g6, g7, -⟩ := releaseAt_fields b (addrPos b.mode off) off rw'
      exact ⟨by rw [g7, g2]; exact L.lim, by rw [g5, g6, g7]; exact L.chk, by rw [g5, g1, g7]; exact L.fits⟩
  | getData p =>
    simp only [step, Option.some.injEq, getData] at h
    split at h
    · cases h; exact L
    · cases h
      generalize (if b.markSet = true then 1 else 0) = k
      split
      · exact ⟨L.lim, L.chk, L.fits⟩
      · exact L
  | reset => simp only [step, Option.some.injEq] at h; exact reset_linv L.chk L.fits h
  | resetInit sz st l =>
    simp only [step, resetInit] at h
    split at h
    · cases h
    · cases h
      exact ⟨L.lim, L.chk, L.fits⟩
    · rename_i hc
      simp only [Option.some.injEq] at h
      refine reset_linv (b := { b with size := sz, step := st, limit := l }) hc ?_ h
      rcases F with F | F | F
      · exact .inl F
      · unfold checkBuf at hc
        by_cases h0 : l = 0
        · exact .inl h0
        · simp [h0, F] at hc
      · exact .inr F

theorem reach_linv {mode hist b} (R : Reach mode hist b) (V : ∀ e ∈ hist, Valid mode e.1)
    (F : ∀ e ∈ hist, ResetFits mode e.1) : LInv b := by
  induction R with
  | create h =>
    obtain ⟨I, hm, hb, -, -, hl, h1, h2, h3, hc, hf⟩ := create_spec h
    refine ⟨?_, by rw [h1, h2, h3]; exact hc, by rw [h1, h3, hm]; exact hf⟩
    rw [h3, hl]
    exact hf
  | call R hs ih =>
    rename_i hist b op fresh b' r
    have V1 : ∀ e ∈ hist, Valid mode e.1 := fun e he => V e (by simp [he])
    have L := ih V1 (fun e he => F e (by simp [he]))
    obtain ⟨I, hm, -⟩ := reach_spec R V1
    exact step_linv I L (by rw [hm]; exact F (op, r) (by simp)) hs

/-- Exact condition under which an append of `n` bytes finds room. -/
theorem realloc_false_ok_iff {b : Buf} {needed fresh} (hc : b.limit = 0 ∨ (b.step ≠ 0 ∧ b.limit % b.step = 0)) :
    (∃ b', realloc b needed false fresh = .ok b') ↔
      needed ≤ b.mem.length ∨ (b.step ≠ 0 ∧ (b.limit = 0 ∨ needed ≤ b.limit)) := by
  unfold realloc
  by_cases h1 : b.mem.length ≥ needed
  · simp [h1]
  · by_cases h2 : b.step = 0
    · simp [h1, h2]
    · by_cases h3 : b.limit = 0
      · simp [h1, h2, h3]
      · obtain ⟨h4, h5⟩ := hc.resolve_left h3
        have hge := roundUp_ge needed b.step
        by_cases h6 : needed ≤ b.limit
        · have := roundUp_le h4 h5 h6
          have h7 : ¬ (b.limit < roundUp needed b.step) := by omega
          simp [h1, h2, h3, h6, h7]
        · have h7 : b.limit < roundUp needed b.step := by omega
          simp [h1, h2, h3, h6, h7]

/-! ### Outstanding addresses -/

/-- Invariant tying the mark to the outstanding addresses `h`. -/
structure HInv (b : Buf) (h : List Nat) : Prop where
  low : ∀ q ∈ h, b.markSet = true ∧ b.markPos ≤ q
  tight : b.markSet = true → b.markPos ∈ h ∨ b.markPos = 0
  bnd : b.markSet = true → b.markPos ≤ (bytes b).length

/-- The discipline for one call. -/
def Disc1 (h : List Nat) : Op → Ret → Prop
  | .getData p, _ => p = 0 ∨ ∀ q ∈ h, q ≤ p
  | .resetInit _ _ _, .err .EINVAL => h = []
  | _, _ => True

theorem hinv_release {b b' : Buf} {h : List Nat} {q : Nat} (H : HInv b h)
    (hms : b'.markSet = (b.markSet && !decide (q ≤ b.markPos))) (hmp : b'.markSet = true → b'.markPos = b.markPos)
    (hbnd : b'.markSet = true → b.markPos ≤ (bytes b').length) :
    HInv b' (h.filter (· < q)) := by
  constructor
  · intro x hx
    simp only [List.mem_filter, decide_eq_true_eq] at hx
    obtain ⟨h1, h2⟩ := H.low x hx.1
    have : b'.markSet = true := by
      rw [hms, h1]; simp; omega
    exact ⟨this, by rw [hmp this]; exact h2⟩
  · intro hs
    rw [hmp hs]
    rw [hms] at hs
    simp only [Bool.and_eq_true, Bool.not_eq_true', decide_eq_false_iff_not] at hs
    rcases H.tight hs.1 with h1 | h1
    · left
      simp only [List.mem_filter, decide_eq_true_eq]
      exact ⟨h1, by omega⟩
    · exact .inr h1
  · intro hs
    rw [hmp hs]
    exact hbnd hs

theorem hinv_nil {b : Buf} {h : List Nat} (H : HInv b h) (hm : b.markSet = false) : h = [] := by
  cases h with
  | nil => rfl
  | cons x xs =>
    have := (H.low x (by simp)).1
    rw [hm] at this; cases this

theorem hinv_add {b b' : Buf} {h : List Nat} {mem : Bool} (H : HInv b h) (hmk : b.markSet = false)
    (hms : b'.markSet = mem) (hmp : mem = true → b'.markPos = (bytes b).length)
    (hlen : (bytes b).length ≤ (bytes b').length) :
    HInv b' (if mem then (bytes b).length :: h else h) := by
  have hn := hinv_nil H hmk
  subst hn
  cases mem
  · exact ⟨by simp, by simp [hms], by simp [hms]⟩
  · refine ⟨?_, ?_, ?_⟩
    · simp [hms, hmp rfl]
    · simp [hmp rfl]
    · simp [hmp rfl, hlen]

theorem step_hinv {b b' : Buf} {op : Op} {fresh r} {h : List Nat} (I : Inv b) (V : Valid b.mode op) (H : HInv b h)
    (D : Disc1 h op r) (hs : step b op fresh = some (b', r)) :
    HInv b' (Spec.Buf.handed (pfxLen b.mode) (bytes b).length h op r) := by
  cases op with
  | add bs m =>
    simp only [step, Option.some.injEq] at hs
    obtain ⟨J, hm, hc⟩ := add_spec I hs
    rcases hc with ⟨e, rfl, rfl, -⟩ | ⟨hmk, rfl, hb, hms, hmp⟩
    · cases m <;> exact H
    · have := hinv_add H hmk hms hmp (by rw [hb]; simp)
      cases m <;> simpa [Spec.Buf.handed] using this
  | addZero n m =>
    simp only [step, Option.some.injEq] at hs
    obtain ⟨J, hm, hc⟩ := add_spec I hs
    rcases hc with ⟨e, rfl, rfl, -⟩ | ⟨hmk, rfl, hb, hms, hmp⟩
    · cases m <;> exact H
    · have := hinv_add H hmk hms hmp (by rw [hb]; simp)
      cases m <;> simpa [Spec.Buf.handed] using this
  | addFmt s m =>
    simp only [step, Option.some.injEq] at hs
    obtain ⟨J, hm, hc⟩ := addFmt_spec I hs
    rcases hc with ⟨e, rfl, hb, h1, h2, h3, h4, -⟩ | ⟨hmk, rfl, hb, hms, hmp⟩
    · have : HInv b' h := ⟨by rw [h1, h2]; exact H.low, by rw [h1, h2]; exact H.tight, by rw [h1, h2, hb]; exact H.bnd⟩
      cases m <;> exact this
    · have := hinv_add H hmk hms hmp (by rw [hb]; simp)
      cases m <;> simpa [Spec.Buf.handed] using this
  | release p rel rw' =>
    simp only [step, Option.some.injEq] at hs
    obtain ⟨J, hm, -, -, hc⟩ := release_spec I hs
    rcases hc with ⟨rfl, rfl, -⟩ | ⟨rfl, hp, hb, hc⟩
    · exact H
    · show HInv b' (h.filter _)
      rcases hc with ⟨hnil, rfl⟩ | ⟨hms, hmp⟩
      · -- empty buffer: nothing released, but nothing valid is outstanding below 0 either
        have hp0 : p = 0 := by rw [hnil] at hp; simpa using hp
        subst hp0
        have : h.filter (· < if rel then (bytes b').length - 0 else 0) = [] := by
          apply List.filter_eq_nil_iff.mpr
          intro x _
          rw [hnil]; simp
        rw [this]
        refine ⟨by simp, fun hs => .inr ?_, H.bnd⟩
        have := H.bnd hs
        rw [hnil] at this
        simpa using this
      · apply hinv_release H hms hmp
        intro hs'
        have hold : b.markSet = true := by
          rw [hms] at hs'; simp only [Bool.and_eq_true] at hs'; exact hs'.1
        have hlt : ¬ (if rel then (bytes b).length - p else p) ≤ b.markPos := by
          rw [hms] at hs'
          simp only [Bool.and_eq_true, Bool.not_eq_true', decide_eq_false_iff_not] at hs'
          exact hs'.2
        have hbn := H.bnd hold
        rw [hb]
        split
        · rw [List.length_take]; omega
        · exact hbn
  | releaseMem off rw' =>
    simp only [step, Option.some.injEq] at hs
    obtain ⟨J, hm, -, -, hc⟩ := releaseMem_spec I V hs
    rcases hc with ⟨rfl, rfl, -⟩ | ⟨rfl, hp, hb, hms, hmp⟩
    · exact H
    · apply hinv_release H hms hmp
      intro hs'
      have hold : b.markSet = true := by
        rw [hms] at hs'; simp only [Bool.and_eq_true] at hs'; exact hs'.1
      have hlt : ¬ (off - pfxLen b.mode) ≤ b.markPos := by
        rw [hms] at hs'
        simp only [Bool.and_eq_true, Bool.not_eq_true', decide_eq_false_iff_not] at hs'
        exact hs'.2
      have hbn := H.bnd hold
      rw [hb]
      split
      · rw [List.length_take]; omega
      · exact hbn
  | getData p =>
    simp only [step, Option.some.injEq] at hs
    obtain ⟨J, hm, -, -, hb, hc⟩ := getData_spec I hs
    rcases hc with ⟨rfl, rfl, -⟩ | ⟨rfl, hp, hms, hmp⟩
    · exact H
    · show HInv b' (p :: h)
      by_cases hcase : b.markSet = true ∧ p ≠ 0
      · rw [if_pos hcase] at hmp
        have hle : b.markPos ≤ p := by
          rcases H.tight hcase.1 with h1 | h1
          · exact (D.resolve_left hcase.2) _ h1
          · omega
        refine ⟨?_, ?_, ?_⟩
        · intro q hq
          rw [hmp]
          rcases List.mem_cons.mp hq with rfl | hq
          · exact ⟨hms, hle⟩
          · exact ⟨hms, (H.low q hq).2⟩
        · intro _
          rw [hmp]
          rcases H.tight hcase.1 with h1 | h1
          · exact .inl (List.mem_cons_of_mem _ h1)
          · exact .inr h1
        · intro _
          rw [hmp, hb]; exact H.bnd hcase.1
      · rw [if_neg hcase] at hmp
        refine ⟨?_, fun _ => .inl (by simp [hmp]), fun _ => by rw [hmp, hb]; exact hp⟩
        intro q hq
        rw [hmp]
        refine ⟨hms, ?_⟩
        rcases List.mem_cons.mp hq with rfl | hq
        · exact Nat.le_refl _
        · by_cases h0 : p = 0
          · omega
          · exact absurd ⟨(H.low q hq).1, h0⟩ hcase
  | reset =>
    simp only [step, Option.some.injEq] at hs
    obtain ⟨J, hm, hb, hms, -⟩ := reset_spec I.room hs
    exact ⟨by simp [Spec.Buf.handed], by simp [hms], by simp [hms]⟩
  | resetInit sz st l =>
    simp only [step, resetInit] at hs
    split at hs
    · cases hs
    · cases hs
      have : h = [] := D
      subst this
      exact ⟨by simp [Spec.Buf.handed], by simp, by simp⟩
    · simp only [Option.some.injEq] at hs
      obtain ⟨J, hm, hb, hms, -, hc, -⟩ := reset_spec (b := { b with size := sz, step := st, limit := l }) I.room hs
      have : Spec.Buf.handed (pfxLen b.mode) (bytes b).length h (.resetInit sz st l) r = [] := by
        rcases hc with ⟨rfl, -⟩ | ⟨rfl, -⟩ <;> rfl
      rw [this]
      exact ⟨by simp, by simp [hms], by simp [hms]⟩

theorem track_fst (pfx : Nat) (hist : List (Op × Ret)) : (Spec.Buf.track pfx hist).1 = Spec.Buf.content pfx hist := by
  unfold Spec.Buf.track Spec.Buf.content
  generalize ([] : List UInt8) = c
  generalize ([] : List Nat) = h
  induction hist generalizing c h with
  | nil => rfl
  | cons e es ih => simp only [List.foldl_cons]; exact ih _ _

theorem track_append (pfx : Nat) (hist : List (Op × Ret)) (op : Op) (r : Ret) :
    (Spec.Buf.track pfx (hist ++ [(op, r)])).2 =
      Spec.Buf.handed pfx (Spec.Buf.content pfx hist).length (Spec.Buf.track pfx hist).2 op r := by
  rw [← track_fst]
  simp [Spec.Buf.track, List.foldl_append]

theorem disc_append {pfx hist op r} (D : Spec.Buf.Disciplined pfx (hist ++ [(op, r)])) :
    Spec.Buf.Disciplined pfx hist ∧ Disc1 (Spec.Buf.track pfx hist).2 op r := by
  constructor
  · intro pre o r' post he
    exact D pre o r' (post ++ [(op, r)]) (by rw [he]; simp)
  · have := D hist op r [] rfl
    unfold Disc1
    exact this

theorem reach_hinv {mode hist b} (R : Reach mode hist b) (V : ∀ e ∈ hist, Valid mode e.1)
    (D : Spec.Buf.Disciplined (pfxLen mode) hist) : HInv b (Spec.Buf.track (pfxLen mode) hist).2 := by
  induction R with
  | create h =>
    obtain ⟨I, hm, hb, hms, -⟩ := create_spec h
    exact ⟨by simp [Spec.Buf.track], by simp [hms], by simp [hms]⟩
  | call R hs ih =>
    rename_i hist b op fresh b' r
    have V1 : ∀ e ∈ hist, Valid mode e.1 := fun e he => V e (by simp [he])
    obtain ⟨D1, D2⟩ := disc_append D
    have H := ih V1 D1
    obtain ⟨I, hm, hb⟩ := reach_spec R V1
    subst hm
    rw [track_append, ← hb]
    exact step_hinv I (V (op, r) (by simp)) H D2 hs

end Sid.LBuf
