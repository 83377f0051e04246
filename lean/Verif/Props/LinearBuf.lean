import Verif.Proof.LinearBuf
/-
C05, C06, C07: linear buffers.
-/
namespace Sid.Props
open Sid.LBuf
open Sid.Spec.Buf (Op Ret)

/-- C05.  After any history of valid calls, on any buffer (both modes, any initial size, step and limit):
    the data from any position is the corresponding tail of the content described by the history, the count is the
    length of that content, and asking beyond the content is refused. -/
theorem C05_get_data_returns_content {mode : Mode} {hist : List (Op × Ret)} {b : Buf} (R : Reach mode hist b)
    (V : ∀ e ∈ hist, Valid mode e.1) (p : Nat) :
    count b = (Spec.Buf.content (pfxLen mode) hist).length ∧
    (p ≤ (Spec.Buf.content (pfxLen mode) hist).length →
      (getData b p).2 = .data ((Spec.Buf.content (pfxLen mode) hist).drop p)) ∧
    ((Spec.Buf.content (pfxLen mode) hist).length < p → getData b p = (b, .err .ERANGE)) := by
  obtain ⟨I, hm, hb⟩ := reach_spec R V
  rw [← hb]
  obtain ⟨-, -, -, -, -, hc⟩ := getData_spec I (r := (getData b p).2) (b' := (getData b p).1) (p := p) rfl
  refine ⟨count_eq I, ?_, ?_⟩
  · intro hp
    rcases hc with ⟨-, -, hlt⟩ | ⟨hd, -⟩
    · omega
    · exact hd
  · intro hp
    rcases hc with ⟨h1, h2, -⟩ | ⟨-, hle, -⟩
    · exact Prod.ext h2 h1
    · omega

/-- C05.  Every kind of add either returns the offset at which the added bytes start, or is refused with
    -EBUSY / -EXFULL / -EOVERFLOW; the content afterwards is the one the specification's `effect` gives. -/
theorem C05_add_returns_start_offset {mode : Mode} {hist : List (Op × Ret)} {b b' : Buf} {op : Op} {r : Ret}
    {fresh : Nat → UInt8} (R : Reach mode hist b) (V : ∀ e ∈ hist, Valid mode e.1)
    (hop : (∃ bs m, op = .add bs m) ∨ (∃ n m, op = .addZero n m) ∨ (∃ s m, op = .addFmt s m))
    (h : step b op fresh = some (b', r)) :
    (r = .pos (Spec.Buf.content (pfxLen mode) hist).length ∨ r = .err .EBUSY ∨ r = .err .EXFULL ∨ r = .err .EOVERFLOW) ∧
      Spec.Buf.content (pfxLen mode) (hist ++ [(op, r)]) =
        Spec.Buf.effect (pfxLen mode) (Spec.Buf.content (pfxLen mode) hist) op r := by
  obtain ⟨I, hm, hb⟩ := reach_spec R V
  refine ⟨?_, by simp [Spec.Buf.content, List.foldl_append]⟩
  rw [← hb]
  rcases hop with ⟨bs, m, rfl⟩ | ⟨n, m, rfl⟩ | ⟨s, m, rfl⟩ <;> simp only [step, Option.some.injEq] at h
  · obtain ⟨-, -, hc⟩ := add_spec I h
    rcases hc with ⟨e, rfl, -, ⟨-, rfl⟩ | ⟨-, rfl | rfl⟩⟩ | ⟨-, rfl, -⟩ <;> simp
  · obtain ⟨-, -, hc⟩ := add_spec I h
    rcases hc with ⟨e, rfl, -, ⟨-, rfl⟩ | ⟨-, rfl | rfl⟩⟩ | ⟨-, rfl, -⟩ <;> simp
  · obtain ⟨-, -, hc⟩ := addFmt_spec I h
    rcases hc with ⟨e, rfl, -, -, -, -, -, ⟨-, rfl⟩ | ⟨-, rfl | rfl⟩⟩ | ⟨-, rfl, -⟩ <;> simp

/-- A concrete history: create (prefix mode, size 0, step 3, limit 12), add "AB", formatted add "x", rewind by one. -/
example : ∃ b, Reach .prefixed [(.add [65, 66] false, .pos 0), (.addFmt [120] false, .pos 2),
    (.release 1 true true, .done)] b ∧
    Spec.Buf.content 4 [(.add [65, 66] false, .pos 0), (.addFmt [120] false, .pos 2), (.release 1 true true, .done)]
      = [65, 66, 120] := by
  refine ⟨_, .call (fresh := fun _ => 7) (.call (fresh := fun _ => 7) (.call (fresh := fun _ => 7)
    (.create (size := 0) (st := 3) (limit := 12) (fresh := fun _ => 7) rfl) rfl) rfl) rfl, rfl⟩

/-- C06.  After any history of valid calls in which every re-initialisation fits its own limit: the space allocated
    never exceeds a configured limit and never is smaller than the space used. -/
theorem C06_allocation_within_limit {mode : Mode} {hist : List (Op × Ret)} {b : Buf} (R : Reach mode hist b)
    (V : ∀ e ∈ hist, Valid mode e.1) (F : ∀ e ∈ hist, ResetFits mode e.1) :
    (b.limit ≠ 0 → b.mem.length ≤ b.limit) ∧ b.used ≤ b.mem.length :=
  ⟨fun h => (reach_linv R V F).lim.resolve_left h, (reach_spec R V).1.le⟩

/-- C06.  In plain mode every re-initialisation fits its own limit (or is refused), so no condition is needed. -/
theorem C06_plain_unconditional {hist : List (Op × Ret)} {b : Buf} (R : Reach .plain hist b)
    (V : ∀ e ∈ hist, Valid .plain e.1) : (b.limit ≠ 0 → b.mem.length ≤ b.limit) ∧ b.used ≤ b.mem.length := by
  refine C06_allocation_within_limit R V ?_
  rintro ⟨op, r⟩ -
  cases op <;> simp [ResetFits, pfxLen]
  omega

/-- C06.  Exactly when an add is accepted: nothing is bound, and the new total (with the size prefix) already fits, or
    the buffer may grow (step non-zero) and the total does not exceed the limit.  Otherwise it is refused with -EBUSY,
    -EXFULL (no growth step) or -EOVERFLOW (limit) and the buffer is unchanged. -/
theorem C06_add_accepted_iff {mode : Mode} {hist : List (Op × Ret)} {b : Buf} (R : Reach mode hist b)
    (V : ∀ e ∈ hist, Valid mode e.1) (F : ∀ e ∈ hist, ResetFits mode e.1) (bs : List UInt8) (m : Bool)
    (fresh : Nat → UInt8) :
    let total := pfxLen mode + (Spec.Buf.content (pfxLen mode) hist).length + bs.length
    let room := total ≤ b.mem.length ∨ (b.step ≠ 0 ∧ (b.limit = 0 ∨ total ≤ b.limit))
    ((∃ p, (add b bs m fresh).2 = .pos p) ↔ b.markSet = false ∧ room) ∧
    (b.markSet = true → add b bs m fresh = (b, .err .EBUSY)) ∧
    (b.markSet = false → ¬ room → add b bs m fresh = (b, .err (if b.step = 0 then .EXFULL else .EOVERFLOW))) := by
  intro total room
  obtain ⟨I, hm, hb⟩ := reach_spec R V
  have L := reach_linv R V F
  have htot : startOff b + bs.length = total := by
    have h1 := I.ge
    have h2 := I.le
    have hl : (bytes b).length = b.used - pfxLen b.mode := by simp [bytes]; omega
    show _ = pfxLen mode + (Spec.Buf.content (pfxLen mode) hist).length + bs.length
    rw [← hb, hl, ← hm]
    unfold startOff
    split <;> omega
  have hiff := realloc_false_ok_iff (b := b) (needed := total) (fresh := fresh) (checkBuf_true L.chk)
  have hbusy : b.markSet = true → add b bs m fresh = (b, .err .EBUSY) := by
    intro h; simp [add, h]
  refine ⟨⟨?_, ?_⟩, hbusy, ?_⟩
  · rintro ⟨p, hp⟩
    cases hs : b.markSet
    · refine ⟨rfl, hiff.mp ?_⟩
      rw [← htot]
      simp only [add, hs] at hp
      simp only [Bool.false_eq_true, if_false] at hp
      split at hp
      · cases hp
      · rename_i b1 hb1
        exact ⟨b1, hb1⟩
    · rw [hbusy hs] at hp; cases hp
  · rintro ⟨hs, hroom⟩
    obtain ⟨b1, hb1⟩ := hiff.mpr hroom
    rw [← htot] at hb1
    simp [add, hs, hb1]
  · intro hs hroom
    have hno : ¬ ∃ b', realloc b total false fresh = .ok b' := fun h => hroom (hiff.mp h)
    cases he : realloc b total false fresh with
    | ok b' => exact absurd ⟨b', he⟩ hno
    | error e =>
      have : e = if b.step = 0 then .EXFULL else .EOVERFLOW := by
        rcases realloc_err he with ⟨rfl, -, h0, -⟩ | ⟨rfl, hl, -, -⟩
        · simp [h0]
        · have := (checkBuf_true L.chk).resolve_left hl
          simp [this.1]
      rw [← htot] at he
      simp [add, hs, he, this]

/-- C06, limit of the claim: re-initialising a size-prefix buffer with a limit that has room for the size but not
    for the prefix fails with -EOVERFLOW and leaves more allocated than the limit that is now in force. -/
theorem C06_reset_init_overflow_counterexample :
    ∃ hist b, Reach .prefixed hist b ∧ (∀ e ∈ hist, Valid .prefixed e.1) ∧ b.limit ≠ 0 ∧ b.limit < b.mem.length := by
  refine ⟨[(.resetInit 2 1 2, .err .EOVERFLOW)], _,
    .call (fresh := fun _ => 0) (.create (size := 10) (st := 1) (limit := 0) (fresh := fun _ => 0) rfl) rfl, ?_, ?_, ?_⟩
  · simp [Valid]
  · decide
  · decide

/-- A limit without an allocation step makes the creation check divide by zero. -/
theorem C06_limit_without_step_is_undefined (mode : Mode) (size limit : Nat) (fresh : Nat → UInt8)
    (hl : limit ≠ 0) (hs : size ≤ limit) : create mode size 0 limit fresh = .ub := by
  have : ¬ limit < size := by omega
  simp [create, checkBuf, hl, this]

example : ∃ b, Reach .plain [(.add [1, 2, 3] false, .pos 0), (.add [4, 5] false, .err .EOVERFLOW)] b ∧
    b.limit = 4 ∧ b.mem.length = 4 := by
  refine ⟨_, .call (fresh := fun _ => 0) (.call (fresh := fun _ => 0)
    (.create (size := 1) (st := 2) (limit := 4) (fresh := fun _ => 0) rfl) rfl) rfl, ?_, ?_⟩ <;> decide

/-- C07 (partial: only for disciplined histories, see `C07_lower_get_data_counterexample` and
    `C07_refused_reset_counterexample`).  While an address handed out by the buffer is outstanding, every kind of add
    is refused with -EBUSY and leaves the buffer as it is. -/
theorem C07_adds_refused_while_bound_partial {mode : Mode} {hist : List (Op × Ret)} {b : Buf} (R : Reach mode hist b)
    (V : ∀ e ∈ hist, Valid mode e.1) (D : Spec.Buf.Disciplined (pfxLen mode) hist)
    (hout : (Spec.Buf.track (pfxLen mode) hist).2 ≠ []) (fresh : Nat → UInt8) :
    (∀ bs m, step b (.add bs m) fresh = some (b, .err .EBUSY)) ∧
    (∀ n m, step b (.addZero n m) fresh = some (b, .err .EBUSY)) ∧
    (∀ s m, step b (.addFmt s m) fresh = some (b, .err .EBUSY)) := by
  have H := reach_hinv R V D
  have hms : b.markSet = true := by
    obtain ⟨q, hq⟩ := List.exists_mem_of_ne_nil _ hout
    exact (H.low q hq).1
  refine ⟨fun bs m => ?_, fun n m => ?_, fun s m => ?_⟩ <;> simp [step, add, addFmt, hms]

/-- C07 (partial, same discipline).  While an address is outstanding, no call other than a reset moves the memory or
    changes any byte of it. -/
theorem C07_memory_stable_while_bound_partial {mode : Mode} {hist : List (Op × Ret)} {b b' : Buf} {op : Op} {r : Ret}
    {fresh : Nat → UInt8} (R : Reach mode hist b) (V : ∀ e ∈ hist, Valid mode e.1)
    (D : Spec.Buf.Disciplined (pfxLen mode) hist) (hout : (Spec.Buf.track (pfxLen mode) hist).2 ≠ [])
    (hop : op ≠ .reset ∧ ∀ s st l, op ≠ .resetInit s st l) (Vop : Valid mode op)
    (h : step b op fresh = some (b', r)) : b'.gen = b.gen ∧ b'.mem = b.mem := by
  obtain ⟨a1, a2, a3⟩ := C07_adds_refused_while_bound_partial R V D hout fresh
  obtain ⟨I, hm, -⟩ := reach_spec R V
  cases op with
  | add bs m => rw [a1] at h; cases h; exact ⟨rfl, rfl⟩
  | addZero n m => rw [a2] at h; cases h; exact ⟨rfl, rfl⟩
  | addFmt s m => rw [a3] at h; cases h; exact ⟨rfl, rfl⟩
  | release p rel rw' =>
    simp only [step, Option.some.injEq] at h
    obtain ⟨-, -, h1, h2, -⟩ := release_spec I h
    exact ⟨h2, h1⟩
  | releaseMem off rw' =>
    simp only [step, Option.some.injEq] at h
    obtain ⟨-, -, h1, h2, -⟩ := releaseMem_spec I (by rw [hm]; exact Vop) h
    exact ⟨h2, h1⟩
  | getData p =>
    simp only [step, Option.some.injEq] at h
    obtain ⟨-, -, h1, h2, -⟩ := getData_spec I h
    exact ⟨h2, h1⟩
  | reset => exact absurd rfl hop.1
  | resetInit s st l => exact absurd rfl (hop.2 s st l)

/-- A disciplined history with an outstanding address: add with address, read data from position 0. -/
example : ∃ b, Reach .plain [(.add [1, 2, 3] false, .pos 0), (.add [4, 5] true, .pos 3), (.getData 0, .data [1, 2, 3, 4, 5]),
      (.release 1 false false, .done)] b ∧
    (Spec.Buf.track 0 [(.add [1, 2, 3] false, .pos 0), (.add [4, 5] true, .pos 3), (.getData 0, .data [1, 2, 3, 4, 5]),
      (.release 1 false false, .done)]).2 = [0] := by
  refine ⟨_, .call (fresh := fun _ => 0) (.call (fresh := fun _ => 0) (.call (fresh := fun _ => 0) (.call (fresh := fun _ => 0)
    (.create (size := 1) (st := 1) (limit := 0) (fresh := fun _ => 0) rfl) rfl) rfl) rfl) rfl, ?_⟩
  decide

/-- C07 fails in general: the comparison in `sid_buf_get_data_from` is with the boolean `mark.set`, so a lower
    position asked for later is not recorded.  Add 3 bytes with address at position 3, ask for data from position 1,
    unbind at position 2: the address at position 1 is still outstanding, yet an add is accepted. -/
theorem C07_lower_get_data_counterexample :
    ∃ hist b, Reach .plain hist b ∧ (∀ e ∈ hist, Valid .plain e.1) ∧ (Spec.Buf.track 0 hist).2 = [1] ∧
      ∃ b', step b (.add [9] false) (fun _ => 0) = some (b', .pos 4) := by
  refine ⟨[(.add [1, 2, 3] false, .pos 0), (.add [4] true, .pos 3), (.getData 1, .data [2, 3, 4]),
    (.release 2 false false, .done)], _,
    .call (fresh := fun _ => 0) (.call (fresh := fun _ => 0) (.call (fresh := fun _ => 0) (.call (fresh := fun _ => 0)
    (.create (size := 1) (st := 1) (limit := 0) (fresh := fun _ => 0) rfl) rfl) rfl) rfl) rfl, ?_, ?_, _, rfl⟩
  · simp [Valid]
  · decide

/-- C07 fails for a refused re-initialisation: it reports -EINVAL and keeps the content, but drops the mark. -/
theorem C07_refused_reset_counterexample :
    ∃ hist b, Reach .plain hist b ∧ (∀ e ∈ hist, Valid .plain e.1) ∧ (Spec.Buf.track 0 hist).2 = [0] ∧
      ∃ b', step b (.add [9] false) (fun _ => 0) = some (b', .pos 1) := by
  refine ⟨[(.add [1] true, .pos 0), (.resetInit 5 1 3, .err .EINVAL)], _,
    .call (fresh := fun _ => 0) (.call (fresh := fun _ => 0)
    (.create (size := 1) (st := 1) (limit := 0) (fresh := fun _ => 0) rfl) rfl) rfl, ?_, ?_, _, rfl⟩
  · simp [Valid]
  · decide

/-- Giving addresses back does not always re-enable adds: on an empty buffer `sid_buf_unbind` succeeds without
    clearing the mark, so after get-data plus unbind every later add is refused. -/
theorem C07_empty_unbind_keeps_mark :
    ∃ hist b, Reach .plain hist b ∧ (∀ e ∈ hist, Valid .plain e.1) ∧ (Spec.Buf.track 0 hist).2 = [] ∧
      ∀ bs m fresh, step b (.add bs m) fresh = some (b, .err .EBUSY) := by
  refine ⟨[(.getData 0, .data []), (.release 0 false false, .done)], _,
    .call (fresh := fun _ => 0) (.call (fresh := fun _ => 0)
    (.create (size := 0) (st := 1) (limit := 0) (fresh := fun _ => 0) rfl) rfl) rfl, ?_, ?_, ?_⟩
  · simp [Valid]
  · decide
  · intro bs m fresh; rfl

end Sid.Props
