import Verif.Proof.BufIo
/-
One read of a buffer that receives message after message, whoever handles the messages.
-/
namespace Sid.LBuf
open Sid.Spec.Buf (Op Ret)
open Sid.Spec.Frame

/-- What comes of one read: an error and no change; the end of the stream; a part of the next message; the next message. -/
theorem recv_step {todo : List (List UInt8)} {b : Buf} {s : Stream} (P : PInv todo b s) (F : ∀ q ∈ todo, Fits b q) (ev : IoEv)
    (fresh : Nat → UInt8) :
    (∃ e, read b s ev fresh = (b, s, .error e)) ∨
    (todo = [] ∧ read b s ev fresh = (b, s, .ok 0)) ∨
    (∃ b' s' n, read b s ev fresh = (b', s', .ok n) ∧ 0 < n ∧ isComplete b' = false ∧ PInv todo b' s' ∧ (∀ q ∈ todo, Fits b' q)) ∨
    (∃ p t b' s' n, todo = p :: t ∧ read b s ev fresh = (b', s', .ok n) ∧ 0 < n ∧ isComplete b' = true ∧
      b'.used = p.length + 4 ∧ b'.mem.length = p.length + 4 ∧ (getData b' 0).2 = .data p ∧ b'.mem.drop 4 = p ∧ b'.mode = .prefixed ∧
      b'.step = 1 ∧ b'.size = b.size ∧ b'.limit = b.limit ∧ b'.markSet = false ∧
      ∀ c : Buf, c.mode = .prefixed → c.step = 1 → c.size = b.size → c.limit = b.limit → 4 ≤ c.mem.length →
        PInv t (reset c fresh).1 s' ∧ ∀ q ∈ t, Fits (reset c fresh).1 q) := by
  cases todo with
  | nil =>
    obtain ⟨hu, hd, hm⟩ := P
    have hc : isComplete b = false := by simp [isComplete, hm, hu]
    have hz : expected b = 0 := by simp [expected, hu]
    unfold read
    simp only [hm, readPrefixed, hc]
    cases ev with
    | fail e => exact .inl ⟨e, by simp [sysRead]⟩
    | xfer k =>
      by_cases h1 : b.mem.length - b.used = 0
      · refine .inr (.inl ⟨trivial, ?_⟩); simp only [sysRead, h1, if_true]; simp [hz, hu]
      · cases hcl : s.closed
        · exact .inl ⟨.EAGAIN, by simp [sysRead, h1, hd, hcl]⟩
        · exact .inr (.inl ⟨trivial, by simp [sysRead, h1, hd, hcl, hz, hu]⟩)
  | cons p t =>
    obtain ⟨R, hlt⟩ := P
    obtain ⟨hp, hsz, hlim⟩ := F p (by simp)
    rcases read_step hp R hlt ev fresh with ⟨e, rfl, hr⟩ | ⟨k, b', s', n, rfl, hr, hn, hu, R', -, hbs, hbl⟩
    · exact .inl ⟨e, hr⟩
    · have hcomp := isComplete_frame hp R'
      have hfl := frame_length p
      by_cases hc : b'.used = (frame p).length
      · obtain ⟨hd, hrest, -⟩ := complete_content R' hc
        have hml := R'.big (by omega)
        refine .inr (.inr (.inr ⟨p, t, b', s', n, rfl, hr, hn, by rw [hcomp]; simp [hc], by omega, by omega, hd, ?_, R'.mode, R'.step,
          hbs, hbl, R'.mark, ?_⟩))
        · have := R'.pre
          rw [hc, List.take_of_length_le (by omega), List.take_length] at this
          rw [this]; simp [frame, le32]
        · intro c h1 h2 h3 h4 h5
          obtain ⟨r1, r2, r3, r4, r5, r6, r7⟩ := reset_fields (b := c) (fresh := fresh) (by rw [h1]; exact h5)
            (by rw [h1, h4, h3]; simp only [pfxLen]; rcases hlim with h | h
                · exact .inl h
                · exact .inr (by omega))
          have F' : ∀ q ∈ t, Fits (reset c fresh).1 q := by
            intro q hq
            obtain ⟨f1, f2, f3⟩ := F q (List.mem_cons_of_mem _ hq)
            exact ⟨f1, by rw [r4, h3]; exact f2, by rw [r3, h4]; exact f3⟩
          refine ⟨?_, F'⟩
          cases t with
          | nil => exact ⟨r5, by simpa [frames] using hrest, by rw [r1]; exact h1⟩
          | cons q t =>
            obtain ⟨f1, f2, f3⟩ := F' q (by simp)
            refine ⟨rinv_init (by rw [r1]; exact h1) (by rw [r2]; exact h2) f3 r5 ?_ f2 hrest r6, ?_⟩
            · rw [r7, r4, h1]; rfl
            · rw [r5, frame_length]; omega
      · have hlt' : b'.used < (frame p).length := by have := R'.usedF; omega
        refine .inr (.inr (.inl ⟨b', s', n, hr, hn, by rw [hcomp]; simp [hc], ⟨R', hlt'⟩, ?_⟩))
        intro q hq
        obtain ⟨f1, f2, f3⟩ := F q hq
        exact ⟨f1, by rw [hbs]; exact f2, by rw [hbl]; exact f3⟩

end Sid.LBuf
