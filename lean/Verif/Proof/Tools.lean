import Verif.Spec.Tools
import Verif.Props.Ifc
import Verif.Proof.UbrReply
/-
Lemmas about the command line tools.
-/
namespace Sid.Tools
open Sid.Ifc Sid.Spec.Client Sid.Spec.Frame Sid.Spec.Tools Sid.Props
open Sid.LBuf (Buf IoEv Stream)

theorem frame_unique {p q r s : List UInt8} (hp : p.length + 4 < 2 ^ 32) (hq : q.length + 4 < 2 ^ 32)
    (h : frame p ++ r = frame q ++ s) : p = q := by
  have hp' := mapShm_frame (tail := r) hp
  have hq' := mapShm_frame (tail := s) hq
  rw [h, hq'] at hp'
  simp only [Except.ok.injEq] at hp'
  by_cases e1 : p = []
  · by_cases e2 : q = []
    · rw [e1, e2]
    · rw [if_pos e1, if_neg e2] at hp'; cases hp'
  · by_cases e2 : q = []
    · rw [if_neg e1, if_pos e2] at hp'; cases hp'
    · rw [if_neg e1, if_neg e2] at hp'
      simp only [Option.some.injEq] at hp'
      have := congrArg (List.drop 4) hp'
      simpa [frame, le32] using this.symm

/-- what the accessors say of a reply -/
structure Read (r : Rsl) (p : List UInt8) : Prop where
  status : rslStatus r = some (number (p.take 8))
  prot : rslProtocol r = some (number ((p.drop 8).take 1))
  data : rslData r = some (if Success p ∧ p.length ≠ 12 then some (p.drop 12) else none)

theorem ifcReq_ok {w : World} {req : Req} {r : Rsl} {s : List UInt8} (h7 : req.cmd ≠ 7) (h : ifcReq w req = .ok r s) :
    ∃ p, Sends w p ∧ Read r p := by
  unfold ifcReq at h
  cases hm : message w.env req w.fresh with
  | error e => rw [hm] at h; cases h
  | ok b =>
    rw [hm] at h
    simp only at h
    cases hf : w.refused with
    | some e => rw [hf] at h; cases h
    | none =>
      rw [hf] at h
      simp only at h
      obtain ⟨p, rest, h1, h2, h3, h4, h5, h6, h8, -⟩ := C53_result_is_the_reply h
      refine ⟨p, ⟨hf, h2, h3, rest, h1⟩, h4, h5, ?_⟩
      by_cases ho : Success p
      · rw [h8 ho h7]
        by_cases hl : p.length = 12
        · simp [hl]
        · simp [hl, ho]
      · rw [h6 (by unfold Success at ho; omega), if_neg (fun h => ho h.1)]

theorem sends_unique {w : World} {p q : List UInt8} (h1 : Sends w p) (h2 : Sends w q) : p = q := by
  obtain ⟨-, -, a, r, h⟩ := h1
  obtain ⟨-, -, b, s, h'⟩ := h2
  exact frame_unique a b (h.symm.trans h')

/-- an answered request does not fail -/
theorem ifcReq_answered {w : World} {req : Req} {p : List UInt8} (h7 : req.cmd ≠ 7) (hc : Calm w) (hs : Sends w p)
    (hm : ∃ ops, bodyOps w.env req = .ok ops) :
    (∃ r s, ifcReq w req = .ok r s ∧ Read r p) ∨ ∃ s, ifcReq w req = .pending s := by
  obtain ⟨ops, hm⟩ := hm
  obtain ⟨b, hb, -⟩ := (message_spec (fresh := w.fresh)).2 ops hm
  have e : ifcReq w req = request w.env req w.fresh w.wsched w.reply w.rsched w.file := by
    unfold ifcReq
    rw [hb, hs.1]
  obtain ⟨h1, h2, h3, rest, h4⟩ := hs
  have hr : w.reply = ⟨frame p ++ rest, w.reply.closed⟩ := by rw [← h4]
  rcases C75_answered_request_does_not_fail (rest := rest) (closed := w.reply.closed) (file := w.file) hb h2 h3 hc.1 hc.2
    (fun h => absurd h h7) with ⟨r, s, h⟩ | ⟨s, h⟩
  · left
    rw [← hr, ← e] at h
    obtain ⟨q, hq, hR⟩ := ifcReq_ok h7 h
    rw [sends_unique hq ⟨h1, h2, h3, rest, h4⟩] at hR
    exact ⟨r, s, h, hR⟩
  · right
    rw [← hr, ← e] at h
    exact ⟨s, h⟩

theorem bodyOps_refused {env : List Str} {req : Req} {e : Errno} (h : bodyOps env req = .error e) : e ≠ .ECONNREFUSED := by
  have hull : ∀ k a b e, Util.envGetUll env k a b = .error e → e ≠ .ECONNREFUSED := by
    intro k a b e h
    unfold Util.envGetUll at h
    split at h
    · cases h; decide
    · simp only at h
      split at h
      · cases h; decide
      · split at h
        · cases h; decide
        · cases h
  have hdev : ∀ e, devtBytes env = .error e → e ≠ .ECONNREFUSED := by
    intro e h
    unfold devtBytes at h
    split at h
    · next h' => cases h; exact hull _ _ _ _ h'
    · split at h
      · next h' => cases h; exact hull _ _ _ _ h'
      · cases h
  have hck : ∀ n k e, checkpointOps env n k = .error e → e ≠ .ECONNREFUSED := by
    intro n k e h
    unfold checkpointOps at h
    split at h
    · split at h
      · next h' => cases h; exact hdev _ h'
      · cases h
    · cases h; decide
  unfold bodyOps at h
  split at h
  · split at h
    · split at h
      · cases h; decide
      · cases h
    · split at h <;> cases h
    · cases h; decide
  · split at h
    · unfold scanOps at h
      split at h
      · next h' => cases h; exact hdev _ h'
      · cases h
    · split at h
      · split at h
        · exact hck _ _ _ h
        · cases h; decide
      · cases h

theorem realloc_error {b : Buf} {n : Nat} {f : Bool} {fresh : Nat → UInt8} {e : Errno} (h : LBuf.realloc b n f fresh = .error e) :
    e = .EXFULL ∨ e = .EOVERFLOW := by
  unfold LBuf.realloc at h
  split at h
  · cases h
  · split at h
    · cases h; exact .inl rfl
    · generalize LBuf.roundUp n (if f = true then 1 else b.step) = k at h
      simp only at h
      by_cases hc : b.limit ≠ 0 ∧ k > b.limit
      · rw [if_pos hc] at h; cases h; exact .inr rfl
      · rw [if_neg hc] at h; cases h

theorem read_error {b : Buf} {s : Stream} {ev : IoEv} {fresh : Nat → UInt8} {e : Errno}
    (h : (LBuf.read b s ev fresh).2.2 = .error e) :
    ev = .fail e ∨ e = .EAGAIN ∨ e = .EXFULL ∨ e = .EOVERFLOW ∨ e = .EBADE ∨ e = .EBADMSG := by
  have hsys : ∀ n, LBuf.sysRead s n ev = .error e → ev = .fail e ∨ e = .EAGAIN := by
    intro n h
    unfold LBuf.sysRead at h
    split at h
    · cases h; exact .inl rfl
    · split at h
      · cases h
      · split at h
        · split at h
          · cases h
          · cases h; exact .inr rfl
        · cases h
  unfold LBuf.read at h
  split at h
  · unfold LBuf.readPlain at h
    split at h
    · next h' =>
      cases h
      unfold LBuf.growPlain at h'
      split at h'
      · rcases realloc_error h' with r | r <;> simp [r]
      · cases h'
    · unfold LBuf.readInto at h
      split at h
      · next h' =>
        cases h
        rcases hsys _ h' with r | r <;> simp [r]
      · cases h
  · unfold LBuf.readPrefixed at h
    split at h
    · cases h; simp
    · split at h
      · next h' =>
        cases h
        rcases hsys _ h' with r | r <;> simp [r]
      · simp only at h
        split at h
        · split at h
          · cases h; simp
          · cases h
        · split at h
          · split at h
            · cases h; simp
            · split at h
              · split at h
                · next h' =>
                  cases h
                  rcases realloc_error h' with r | r <;> simp [r]
                · cases h
              · cases h
          · cases h

theorem recvLoop_error (evs : List (IoEv × (Nat → UInt8))) : ∀ {b b' : Buf} {s s' : Stream} {e : Errno},
    LBuf.recvLoop b s evs = .failed e b' s' →
    IoEv.fail e ∈ evs.map Prod.fst ∨ e = .EAGAIN ∨ e = .EXFULL ∨ e = .EOVERFLOW ∨ e = .EBADE ∨ e = .EBADMSG := by
  induction evs with
  | nil => intro b b' s s' e h; cases h
  | cons x es ih =>
    obtain ⟨ev, fresh⟩ := x
    intro b b' s s' e h
    unfold LBuf.recvLoop at h
    split at h
    · split at h
      · split at h
        · cases h
        · rcases ih h with r | r
          · exact .inl (by simp only [List.map_cons, List.mem_cons]; exact .inr r)
          · exact .inr r
      · split at h
        · cases h
        · cases h; simp
    · next e1 heq =>
      split at h
      · rcases ih h with r | r
        · exact .inl (by simp only [List.map_cons, List.mem_cons]; exact .inr r)
        · exact .inr r
      · cases h
        have := read_error (b := b) (s := s) (ev := ev) (fresh := fresh) (e := e) (by rw [heq])
        rcases this with r | r
        · left; simp [r]
        · exact .inr r

/-- "connection refused" is reported only by the system -/
theorem ifcReq_refused {w : World} {req : Req} {s : List UInt8} (h7 : req.cmd ≠ 7)
    (h : ifcReq w req = .failed .ECONNREFUSED s) : Reported w .ECONNREFUSED := by
  unfold ifcReq at h
  cases hb : bodyOps w.env req with
  | error e =>
    rw [(message_spec (fresh := w.fresh)).1 e hb] at h
    cases h
    exact absurd rfl (bodyOps_refused hb)
  | ok ops =>
    obtain ⟨b, hm, F⟩ := (message_spec (fresh := w.fresh)).2 ops hb
    rw [hm] at h
    simp only at h
    cases hf : w.refused with
    | some e => rw [hf] at h; cases h; exact .inl hf
    | none =>
      rw [hf] at h
      simp only [request, hm] at h
      obtain ⟨-, w2, -⟩ := LBuf.writeAll_spec w.wsched b 0 [] F.inv (Nat.zero_le _) rfl
      split at h
      · next hw => cases h; exact .inr (.inl (w2 _ _ hw).1)
      · cases h
      · unfold receive at h
        have fin : ∀ b' o, finish req b' w.file o ≠ Out.failed .ECONNREFUSED s := by
          intro b' o h
          unfold finish at h
          split at h
          · cases h
          · rw [if_neg (show req.cmd ≠ cmdDbdump from h7)] at h
            cases h
        split at h
        · exact absurd h (fin _ _)
        · exact absurd h (fin _ _)
        · next hr =>
          cases h
          rcases recvLoop_error _ hr with r | r
          · exact .inr (.inr r)
          · simp at r
        · cases h

/-- without a daemon the connection is refused, once the message is made up -/
theorem ifcReq_gone {w : World} {req : Req} {e : Errno} (hm : ∃ ops, bodyOps w.env req = .ok ops) (h : w.refused = some e) :
    ifcReq w req = .failed e [] := by
  obtain ⟨ops, hm⟩ := hm
  obtain ⟨b, hb, -⟩ := (message_spec (fresh := w.fresh)).2 ops hm
  unfold ifcReq
  rw [hb, h]

theorem print_strings (l : List Str) (h : ∀ s ∈ l, 0 ∉ s) : Ubr.printFrom [] (strings l) = some (lines l) := by
  induction l with
  | nil => rfl
  | cons s l ih =>
    have e : strings (s :: l) = s ++ 0 :: strings l := by simp [strings]
    rw [e, Ubr.printFrom_line _ _ _ (h s (by simp)), ih fun x hx => h x (by simp [hx])]
    simp [lines]

end Sid.Tools
