import Verif.Proof.VectorBuf
/-
C10 and C11 for vector buffers.
-/
namespace Sid.Props
open Sid.LBuf (Mode IoEv WOut)
open Sid.VBuf
open Sid.Spec.VBuf (Op Ret)
open Sid.Spec.Frame

/-- C11, partial.  Whatever calls were made on a vector buffer (both modes, any size, step, limit), provided zero-filled
    adds were made only with length 0 or into an empty plain buffer: `get_data` returns exactly the items added and not
    rewound, in order, so no add changed an earlier item; positions beyond are refused.
    Missing: zero-filled adds elsewhere (false, see the counterexamples) and, in plain mode, get_data from positions
    other than 0 (false, see below). -/
theorem C11_items_kept_partial {mode : Mode} {hist : List (Op × Ret)} {b : VBuf.Buf} (R : VBuf.Reach mode hist b)
    (G : OkHist mode hist) :
    VBuf.count b = (Spec.VBuf.content hist).length ∧
    (∀ p, p ≤ (Spec.VBuf.content hist).length → mode = .prefixed ∨ p = 0 →
      (VBuf.getData b p).2 = .items ((Spec.VBuf.content hist).drop p)) ∧
    (∀ p, (Spec.VBuf.content hist).length < p → (VBuf.getData b p).2 = .err .ERANGE) := by
  obtain ⟨I, hm, hi⟩ := VBuf.reach_spec R G
  rw [← hi, ← hm]
  exact ⟨VBuf.count_eq I, fun p h1 h2 => (VBuf.getData_spec I p).2.2.2.1 h1 h2,
    fun p h => (VBuf.getData_spec I p).2.2.2.2.1 h⟩

/-- C11, partial.  An add of an item always lands behind the existing ones and returns their number, or is refused and
    changes nothing. -/
theorem C11_add_appends_partial {mode : Mode} {hist : List (Op × Ret)} {b b' : VBuf.Buf} {d : List UInt8} {m : Bool}
    {r : Ret} {fresh : Nat → Cell} (R : VBuf.Reach mode hist b) (G : OkHist mode hist)
    (h : VBuf.step b (.add d m) fresh = (b', r)) :
    (∃ e, r = .err e ∧ b' = b) ∨ (r = .pos (Spec.VBuf.content hist).length ∧
      (VBuf.getData b' 0).2 = .items (Spec.VBuf.content hist ++ [d])) := by
  obtain ⟨I, hm, hi⟩ := VBuf.reach_spec R G
  obtain ⟨I', -, hc⟩ := VBuf.add_spec I h
  rw [← hi]
  rcases hc with hc | ⟨h1, h2⟩
  · exact .inl hc
  · refine .inr ⟨h1, ?_⟩
    have := (VBuf.getData_spec I' 0).2.2.2.1 (Nat.zero_le _) (.inr rfl)
    rw [this, h2, List.drop_zero]

theorem realloc_either (b : VBuf.Buf) (n : Nat) (force : Bool) (f : Nat → Cell) :
    (∃ b', VBuf.realloc b n force f = .ok b' ∧ b'.mode = b.mode ∧ b'.markSet = b.markSet) ∨
      VBuf.realloc b n force f = .error .EXFULL ∨ VBuf.realloc b n force f = .error .EOVERFLOW := by
  unfold VBuf.realloc
  dsimp only
  by_cases h1 : ¬ force = true ∧ b.cells.length ≥ n
  · rw [if_pos h1]; exact .inl ⟨_, rfl, rfl, rfl⟩
  rw [if_neg h1]
  by_cases h2 : ¬ force = true ∧ b.step = 0
  · rw [if_pos h2]; exact .inr (.inl rfl)
  rw [if_neg h2]
  generalize LBuf.roundUp n (if force = true then 1 else b.step) = k
  by_cases h3 : b.limit ≠ 0 ∧ k > b.limit
  · rw [if_pos h3]; exact .inr (.inr rfl)
  · rw [if_neg h3]; exact .inl ⟨_, rfl, rfl, rfl⟩

/-- C11.  After an add that asked for the address of the item, nothing is added until the item is released (by position) or the
    buffer is reset; then adds are no longer refused for this reason. -/
theorem C11_bound (b b' : VBuf.Buf) (d : List UInt8) (p : Nat) (fresh : Nat → Cell)
    (h : VBuf.step b (.add d true) fresh = (b', .pos p)) :
    (∀ d' m f, VBuf.step b' (.add d' m) f = (b', .err .EBUSY)) ∧
    (∀ n m f, VBuf.step b' (.addEmpty n m) f = (b', .err .EBUSY)) ∧
    (∀ rw d' m f f', (VBuf.step (VBuf.step b' (.release p false rw) f).1 (.add d' m) f').2 ≠ .err .EBUSY) ∧
    (∀ d' m f f', (VBuf.step (VBuf.step b' .reset f).1 (.add d' m) f').2 ≠ .err .EBUSY) := by
  have free : ∀ (x : VBuf.Buf) d' m f', x.markSet = false → (VBuf.add x d' m f').2 ≠ .err .EBUSY := by
    intro x d' m f' hx
    unfold VBuf.add
    rw [if_neg (by simp [hx])]
    rcases realloc_either x (VBuf.startIdx x + 1) false f' with ⟨b', e, -⟩ | e | e <;> rw [e] <;> simp
  simp only [VBuf.step, VBuf.add] at h
  split at h
  · simp at h
  rename_i hm
  split at h
  · simp at h
  rename_i b1 hr
  have hmode : b1.mode = b.mode := by
    rcases realloc_either b (VBuf.startIdx b + 1) false fresh with ⟨b', e, e', -⟩ | e | e <;> rw [e] at hr <;> cases hr
    exact e'
  simp only [Prod.mk.injEq, Ret.pos.injEq] at h
  obtain ⟨rfl, rfl⟩ := h
  generalize hx : VBuf.setMark _ true (VBuf.count b) = x
  have hms : x.markSet = true := by rw [← hx]; rfl
  have hmp : x.markPos = VBuf.count b := by rw [← hx]; rfl
  refine ⟨?_, ?_, ?_, ?_⟩
  · intro d' m f; simp [VBuf.step, VBuf.add, hms]
  · intro n m f; simp [VBuf.step, VBuf.addEmpty, hms]
  · intro rw' d' m f f'
    refine free _ d' m f' ?_
    have hc : VBuf.count x = VBuf.count b + 1 := by
      rw [← hx]
      simp only [VBuf.setMark, if_true, VBuf.count, hmode, VBuf.startIdx, VBuf.pfxCells]
      cases b.mode with
      | plain => dsimp only; split <;> omega
      | prefixed => dsimp only; split <;> simp <;> omega
    simp only [VBuf.step, VBuf.release, hc]
    rw [if_neg (by omega), if_neg (by omega)]
    simp only [Bool.false_eq_true, if_false, VBuf.releaseAt, hms, hmp, Nat.le_refl, and_self, if_true]
    cases rw' <;> rfl
  · intro d' m f f'
    refine free _ d' m f' ?_
    simp only [VBuf.step, VBuf.reset]
    generalize hy : ({ x with markSet := false, markPos := 0, used := 0 } : VBuf.Buf) = y
    have hy' : y.markSet = false := by rw [← hy]
    rcases realloc_either y (x.size + VBuf.pfxCells x.mode) true f with ⟨b', e, -, e'⟩ | e | e <;> rw [e]
    · rw [← hy']; exact e'
    · exact hy'
    · exact hy'

example : (VBuf.step ⟨.plain, 0, 2, 0, [], 0, false, 0⟩ (.add [7] true) (fun _ => none)).2 = .pos 0 := by decide

/-- A reachable buffer meeting the guard, with an empty slot first and two items behind it. -/
example : ∃ b, VBuf.Reach .plain [(.addEmpty 1 false, .pos 0), (.add [1, 2] false, .pos 1), (.add [] false, .pos 2)] b ∧
    Spec.VBuf.content [(.addEmpty 1 false, .pos 0), (.add [1, 2] false, .pos 1), (.add [] false, .pos 2)]
      = [[], [1, 2], []] ∧
    OkHist .plain [(.addEmpty 1 false, .pos 0), (.add [1, 2] false, .pos 1), (.add [] false, .pos 2)] := by
  refine ⟨_, VBuf.run_reach (fresh := fun _ => none) [.addEmpty 1 false, .add [1, 2] false, .add [] false] []
    ⟨.plain, 0, 2, 0, [], 0, false, 0⟩
    (.create (size := 0) (st := 2) (limit := 0) (fresh := fun _ => none) (p := (0, 0, 0, 0)) rfl), rfl, ?_⟩
  intro pre n m r post h
  match pre, h with
  | [], _ => exact .inr ⟨rfl, rfl⟩
  | [_], h => simp at h
  | [_, _], h => simp at h
  | _ :: _ :: _ :: _, h => simp at h

/-- C11 is false as stated: a zero-filled add wipes the first items instead of the new slots. -/
theorem C11_zero_fill_counterexample :
    ∃ b b', VBuf.Reach .plain [(.add [7] false, .pos 0)] b ∧ VBuf.addEmpty b 1 false (fun _ => none) = (b', .pos 1) ∧
      (VBuf.getData b 0).2 = .items [[7]] ∧ (VBuf.getData b' 0).2 = .items [[], []] :=
  ⟨_, _, .call (fresh := fun _ => none)
    (.create (size := 0) (st := 1) (limit := 0) (fresh := fun _ => none) (p := (0, 0, 0, 0)) rfl) rfl, rfl, by decide, by decide⟩

/-- In size-prefix mode such an add destroys the prefix cell, so that writing the buffer goes through a NULL pointer. -/
theorem C11_zero_fill_prefix_undefined :
    ∃ b, VBuf.Reach .prefixed [(.addEmpty 1 false, .pos 0)] b ∧ VBuf.writeAll b 0 [] [.xfer 100] = none :=
  ⟨_, .call (fresh := fun _ => none)
    (.create (size := 0) (st := 1) (limit := 0) (fresh := fun _ => none) (p := (0, 0, 0, 0)) rfl) rfl, by decide⟩

/-- In plain mode asking for the items from a position other than 0 yields an address outside the buffer. -/
theorem C11_get_data_from_bad_address {hist : List (Op × Ret)} {b : VBuf.Buf} (R : VBuf.Reach .plain hist b)
    (G : OkHist .plain hist) (p : Nat) (hp : 0 < p) (hle : p ≤ (Spec.VBuf.content hist).length) :
    (VBuf.getData b p).2 = .badAddress := by
  obtain ⟨I, hm, hi⟩ := VBuf.reach_spec R G
  rw [← hi, ← VBuf.count_eq I] at hle
  unfold VBuf.getData
  rw [if_neg (by omega), hm]
  simp only
  rw [if_neg (by omega)]

/-- C10 (vector buffers).  For every history meeting the guard of C11 and every behaviour of the descriptor: what the
    descriptor accepted is always a prefix of the serialized content (the concatenated items; in size-prefix mode their
    frame, nothing if nothing was ever added), all of it when the call reports success (a descriptor reporting ENODATA
    excluded); failure is reported only with an error the descriptor gave. -/
theorem C10_vector_write_all_exact {mode : Mode} {hist : List (Op × Ret)} {b : VBuf.Buf} (R : VBuf.Reach mode hist b)
    (G : OkHist mode hist) (sched : List IoEv) :
    let wire := if mode = .plain then (Spec.VBuf.content hist).flatten
      else if b.used = 0 then [] else frame (Spec.VBuf.content hist).flatten
    ∃ o, VBuf.writeAll b 0 [] sched = some o ∧
      (∀ out, o = .done out → .fail .ENODATA ∉ sched → out = wire) ∧
      (∀ e out, o = .failed e out → .fail e ∈ sched ∧ e ≠ .EAGAIN ∧ e ≠ .EINTR ∧ out <+: wire) ∧
      (∀ out, o = .pending out → out <+: wire) := by
  obtain ⟨I, hm, hi⟩ := VBuf.reach_spec R G
  have hw : (if mode = .plain then (Spec.VBuf.content hist).flatten
      else if b.used = 0 then [] else frame (Spec.VBuf.content hist).flatten) = VBuf.wire b := by
    unfold VBuf.wire
    rw [hm, hi]
    cases mode <;> rfl
  simp only
  rw [hw]
  exact VBuf.writeAll_spec sched b 0 [] I (fun h => absurd rfl h) (fun h => absurd rfl h) (Nat.zero_le _) rfl

example : ∃ b, VBuf.Reach .prefixed [(.add [65] false, .pos 0), (.add [] false, .pos 1), (.add [66, 67] false, .pos 2)] b ∧
    VBuf.writeAll b 0 [] [.xfer 3, .fail .EAGAIN, .xfer 2, .xfer 100] = some (.done (frame [65, 66, 67])) :=
  ⟨_, VBuf.run_reach (fresh := fun _ => none) [.add [65] false, .add [] false, .add [66, 67] false] []
    ⟨.prefixed, 0, 2, 0, [some [0, 0, 0, 0]], 0, false, 0⟩
    (.create (size := 0) (st := 2) (limit := 0) (fresh := fun _ => none) (p := (0, 0, 0, 0)) rfl), by decide⟩

/-- The write never ends if the items are all empty in plain mode: no schedule without errors makes it return. -/
theorem C10_empty_items_never_return (ks : List Nat) :
    ∃ b, VBuf.Reach .plain [(.add [] false, .pos 0)] b ∧
      VBuf.writeAll b 0 [] (ks.map IoEv.xfer) = some (.pending []) := by
  refine ⟨_, .call (fresh := fun _ => none)
    (.create (size := 0) (st := 1) (limit := 0) (fresh := fun _ => none) (p := (0, 0, 0, 0)) rfl) rfl, ?_⟩
  induction ks with
  | nil => rfl
  | cons k ks ih =>
    rw [List.map_cons]
    have h : ∀ (b : VBuf.Buf), VBuf.offer b 0 = some (b, .ok []) → ∀ es, VBuf.writeAll b 0 [] (.xfer k :: es) = VBuf.writeAll b 0 [] es := by
      intro b h es
      simp [VBuf.writeAll, h]
    rw [h]
    · exact ih
    · rfl

end Sid.Props
