import Verif.Proof.WrkChan
/-
C45: the channels between a worker and its proxy.
-/
namespace Sid.Props
open Sid.Chan Sid.Spec.Chan
open Sid.LBuf (IoEv)

/-- the API's words for a message of the model -/
def toSent : Msg → Sent
  | .data d => .data d.data d.ext
  | .yield => .finished

/-- the API's words for what a receiver does -/
def toSeen : Note → Seen
  | .call d => .callback d.data d.ext
  | .yielded => .finished

theorem seen_notes (sd : Side) (l : List Msg) :
    (l.flatMap (noteOf sd)).map toSeen = expectAll sd.proxy sd.socket (sd.suffix.getD []) (l.map toSent) := by
  induction l with
  | nil => rfl
  | cons m l ih =>
    rw [List.flatMap_cons, List.map_append, ih]
    simp only [expectAll, List.map_cons, List.flatMap_cons]
    congr 1
    cases m with
    | data d => rfl
    | yield => simp only [noteOf, toSent, expect]; split <;> rfl

/-- the receiving end of a channel, freshly set up -/
def receiver (fresh : Nat → UInt8) (cells : List Cell) (closed : Bool) : Res Chan :=
  match intBuf fresh with
  | .ok b => .ok ⟨b, cells, closed, [], true⟩
  | .err e => .err e
  | .ub => .ub

/-- the receiving end of a channel from an external worker, freshly set up -/
def extReceiver (fresh : Nat → UInt8) (cells : List Cell) (closed : Bool) : Res Chan :=
  match extBuf fresh with
  | .ok b => .ok ⟨b, cells, closed, [], true⟩
  | .err e => .err e
  | .ub => .ub

theorem receiver_idle {fresh cells closed c} (h : receiver fresh cells closed = .ok c) :
    Idle c ∧ c.cells = cells ∧ c.notes = [] := by
  unfold receiver at h
  split at h
  · next b hb =>
    cases h
    obtain ⟨h1, h2, h3, h4, h5, h6, h7, h8, h9, -⟩ := LBuf.create_spec hb
    exact ⟨⟨h2, h8, h9, h7, h5, h4, h6, rfl⟩, rfl, rfl⟩
  · cases h
  · cases h

/-- **C45.** Whatever messages are sent over a channel between two processes of the daemon, however the kernel cuts the stream into
    pieces and whichever calls have to be repeated: the receiver's callback is called for the messages in the order they were sent,
    once for each, with exactly the bytes sent and the suffix configured for the receiver, and with the file passed along.  It may not
    have received all of them yet; it never gets anything else, and never gets into undefined behaviour. -/
theorem C45_in_order (sd : Side) {f1 f2 : Nat → UInt8} {tx : LBuf.Buf} (htx : intBuf f1 = .ok tx) (l : List (Msg × SEv))
    (hsize : ∀ x ∈ l, x.1.bytes.length + 8 < 2 ^ 32) (hnd : ∀ x ∈ l, IoEv.fail .ENODATA ∉ x.2.wsched)
    {outs cells} (hs : sendAll sd.socket tx l = (outs, cells)) (hok : ∀ r ∈ outs, r = .ok)
    {closed : Bool} {c : Chan} (hc : receiver f2 cells closed = .ok c) (evs : List REv) :
    ∃ c', run sd c evs = some c' ∧
      ∃ pre, pre <+: l.map Prod.fst ∧
        c'.notes.map toSeen = expectAll sd.proxy sd.socket (sd.suffix.getD []) (pre.map toSent) := by
  obtain ⟨good, rest, junk, g1, g2, g3, g4, g5⟩ := sendAll_spec l hnd tx outs cells (create_tinv (by simp) htx) hs
  have hrest : rest = [] := by
    cases rest with
    | nil => rfl
    | cons x t =>
      obtain ⟨r, h1, h2⟩ := g5 x t rfl
      exact absurd (hok r (List.mem_of_getElem? h1)) h2
  subst hrest
  rw [g4 rfl, List.append_nil] at g2
  rw [List.append_nil] at g1
  subst g1
  obtain ⟨i1, i2, i3⟩ := receiver_idle hc
  have hw : cells = wires sd.socket (l.map Prod.fst) := by rw [g2, wires, List.flatMap_map]; rfl
  have hl : ∀ m ∈ l.map Prod.fst, m.bytes.length + 8 < 2 ^ 32 := by
    intro m hm
    obtain ⟨x, hx, rfl⟩ := List.mem_map.mp hm
    exact hsize x hx
  obtain ⟨c', r1, ⟨pre, p1, p2⟩, -⟩ := run_exact (sd := sd) evs (l.map Prod.fst) c
    (Rel.of_idle i1 (by rw [i2, hw, List.append_nil]) hl) hl
  exact ⟨c', r1, pre, p1, by rw [p2, i3, List.nil_append, seen_notes]⟩

/-- **C45.** And it gets all of them, as soon as it has been woken up to read often enough (once for each byte is enough in any case)
    and no call reported an error that does not ask for repetition. -/
theorem C45_all_delivered (sd : Side) {f1 f2 : Nat → UInt8} {tx : LBuf.Buf} (htx : intBuf f1 = .ok tx) (l : List (Msg × SEv))
    (hsize : ∀ x ∈ l, x.1.bytes.length + 8 < 2 ^ 32) (hnd : ∀ x ∈ l, IoEv.fail .ENODATA ∉ x.2.wsched)
    {outs cells} (hs : sendAll sd.socket tx l = (outs, cells)) (hok : ∀ r ∈ outs, r = .ok)
    {closed : Bool} {c : Chan} (hc : receiver f2 cells closed = .ok c) (evs : List REv) (hcalm : ∀ e ∈ evs, Calm e)
    (hlen : cells.length ≤ (evs.filter fun e => e.io.moves).length) :
    ∃ c', run sd c evs = some c' ∧
      c'.notes.map toSeen = expectAll sd.proxy sd.socket (sd.suffix.getD []) (l.map fun x => toSent x.1) := by
  obtain ⟨good, rest, junk, g1, g2, g3, g4, g5⟩ := sendAll_spec l hnd tx outs cells (create_tinv (by simp) htx) hs
  have hrest : rest = [] := by
    cases rest with
    | nil => rfl
    | cons x t =>
      obtain ⟨r, h1, h2⟩ := g5 x t rfl
      exact absurd (hok r (List.mem_of_getElem? h1)) h2
  subst hrest
  rw [g4 rfl, List.append_nil] at g2
  rw [List.append_nil] at g1
  subst g1
  obtain ⟨i1, i2, i3⟩ := receiver_idle hc
  have hw : cells = wires sd.socket (l.map Prod.fst) := by rw [g2, wires, List.flatMap_map]; rfl
  have hl : ∀ m ∈ l.map Prod.fst, m.bytes.length + 8 < 2 ^ 32 := by
    intro m hm
    obtain ⟨x, hx, rfl⟩ := List.mem_map.mp hm
    exact hsize x hx
  obtain ⟨c', r1, -, r3⟩ := run_exact (sd := sd) evs (l.map Prod.fst) c
    (Rel.of_idle i1 (by rw [i2, hw, List.append_nil]) hl) hl
  refine ⟨c', r1, ?_⟩
  rw [r3 hcalm (by rw [i2]; exact hlen), i3, List.nil_append, seen_notes, List.map_map]
  rfl

/-- **C45.** A send that fails in the middle does no harm to the messages sent before: they are received first and in order, whatever
    follows them in the stream. -/
theorem C45_before_failure (sd : Side) {f1 f2 : Nat → UInt8} {tx : LBuf.Buf} (htx : intBuf f1 = .ok tx) (good bad : List (Msg × SEv))
    (hsize : ∀ x ∈ good, x.1.bytes.length + 8 < 2 ^ 32) (hnd : ∀ x ∈ good ++ bad, IoEv.fail .ENODATA ∉ x.2.wsched)
    {outs cells} (hs : sendAll sd.socket tx (good ++ bad) = (outs, cells)) (hok : ∀ i < good.length, outs[i]? = some .ok)
    {closed : Bool} {c : Chan} (hc : receiver f2 cells closed = .ok c) (evs : List REv) {c' : Chan} (hr : run sd c evs = some c') :
    (∃ pre, pre <+: good.map Prod.fst ∧
        c'.notes.map toSeen = expectAll sd.proxy sd.socket (sd.suffix.getD []) (pre.map toSent)) ∨
      expectAll sd.proxy sd.socket (sd.suffix.getD []) (good.map fun x => toSent x.1) <+: c'.notes.map toSeen := by
  obtain ⟨good', rest, junk, g1, g2, g3, g4, g5⟩ := sendAll_spec (good ++ bad) hnd tx outs cells (create_tinv (by simp) htx) hs
  have hle : good.length ≤ good'.length := by
    rcases Nat.lt_or_ge good'.length good.length with h | h
    · cases rest with
      | nil => rw [List.append_nil] at g1; have := congrArg List.length g1; simp at this; omega
      | cons x t =>
        obtain ⟨r, h1, h2⟩ := g5 x t rfl
        rw [hok _ h] at h1
        cases h1
        exact absurd rfl h2
    · exact h
  obtain ⟨more, hmore⟩ : good <+: good' :=
    List.prefix_of_prefix_length_le (List.prefix_append good bad) (by rw [g1]; exact List.prefix_append _ _) hle
  obtain ⟨i1, i2, i3⟩ := receiver_idle hc
  have hw : cells = wires sd.socket (good.map Prod.fst) ++ (more.flatMap (fun x => sentCells .prefixed sd.socket x.1) ++ junk) := by
    rw [g2, ← hmore, List.flatMap_append, List.append_assoc, wires, List.flatMap_map]; rfl
  have hl : ∀ m ∈ good.map Prod.fst, m.bytes.length + 8 < 2 ^ 32 := by
    intro m hm
    obtain ⟨x, hx, rfl⟩ := List.mem_map.mp hm
    exact hsize x hx
  rcases run_junk evs _ c c' (Rel.of_idle i1 (by rw [i2, hw]) hl) hl hr with ⟨pre, p1, p2⟩ | p
  · exact .inl ⟨pre, p1, by rw [p2, i3, List.nil_append, seen_notes]⟩
  · refine .inr ?_
    rw [i3, List.nil_append] at p
    have h := List.IsPrefix.map toSeen p
    rw [seen_notes, List.map_map] at h
    exact h

/-- **C45.** A send over a channel returns, and successfully, if the kernel takes data often enough and reports no error that does not
    ask for repetition. -/
theorem C45_send_succeeds (socket : Bool) {f : Nat → UInt8} {tx : LBuf.Buf} (htx : intBuf f = .ok tx) (m : Msg) (e : SEv)
    (hw : ∀ er, IoEv.fail er ∈ e.wsched → er = .EAGAIN ∨ er = .EINTR)
    (ha : ∀ er, IoEv.fail er ∈ e.anc → er = .EAGAIN ∨ er = .EINTR) (hx : ∃ k, IoEv.xfer k ∈ e.anc)
    (hn : m.bytes.length + 8 ≤ (e.wsched.filter fun ev => match ev with | .xfer k => decide (0 < k) | .fail _ => false).length) :
    (send socket tx m e).2.1 = .ok := by
  obtain ⟨b, h1, h2, h3, h4, h5, h6⟩ := fill_spec (create_tinv (by simp) htx) m e.fresh
  have hu : b.used = m.bytes.length + 8 := by
    have := LBuf.image_length b h2
    rw [image_content h2 h3 h6] at this
    rw [← this, imageOf, LBuf.frame_length, payload_length]
  obtain ⟨o, ho⟩ := LBuf.writeAll_terminates e.wsched b 0 [] h2 (Nat.zero_le _) hw (by rw [hu]; exact hn)
  have hanc : ∀ (fd : Option Nat) (l : List IoEv), (∀ er, IoEv.fail er ∈ l → er = .EAGAIN ∨ er = .EINTR) → (∃ k, IoEv.xfer k ∈ l) →
      (sendAnc fd l).1 = .ok := by
    intro fd l
    induction l with
    | nil => rintro - ⟨k, hk⟩; cases hk
    | cons x l ih =>
      intro h1 ⟨k, hk⟩
      cases x with
      | xfer k => rfl
      | fail er =>
        have := h1 er (List.mem_cons_self ..)
        simp only [sendAnc, this, if_true]
        refine ih (fun er h => h1 er (List.mem_cons_of_mem _ h)) ⟨k, ?_⟩
        simpa using hk
  simp only [send, h1, transmit, ho, sendExt]
  cases m.ext with
  | none => rfl
  | some fd =>
    simp only
    split
    · exact hanc fd _ ha hx
    · rfl

/-- **C45.** What an external worker writes to its output before closing it (and nothing but that, with the configured suffix) is
    handed to the proxy's callback, once, and not before the worker has closed its output; and it is handed over once the proxy has
    been woken up often enough. -/
theorem C45_external_output (sd : Side) {f : Nat → UInt8} (out : List UInt8) {closed : Bool} {c : Chan}
    (hc : extReceiver f (plainCells out) closed = .ok c) (evs : List REv) :
    ∃ c', run sd c evs = some c' ∧
      (c'.notes = [] ∨ (closed = true ∧ c'.notes.map toSeen = [.callback (out ++ sd.suffix.getD []) none])) ∧
      ((∀ e ∈ evs, Calm e) → closed = true → out.length < (evs.filter fun e => e.io.moves).length →
        c'.notes.map toSeen = [.callback (out ++ sd.suffix.getD []) none]) := by
  unfold extReceiver at hc
  split at hc
  · next b hb =>
    cases hc
    obtain ⟨h1, h2, h3, h4, h5, h6, h7, h8, h9, -⟩ := LBuf.create_spec hb
    obtain ⟨c', r1, r2, r3⟩ := plain_run (sd := sd) (total := out) evs ⟨b, plainCells out, closed, [], true⟩
      ⟨h1, h2, by simp only [h8]; simp, h9, h4, by simp only [h3, plainCells_fst, List.nil_append]⟩ rfl
    refine ⟨c', r1, ?_, ?_⟩
    · rcases r2 with h | ⟨h, hcl⟩
      · exact .inl h
      · exact .inr ⟨hcl, by rw [h]; rfl⟩
    · intro q1 q2 q3
      rw [r3 q1 q2 (by simp only [plainCells, List.length_map]; omega)]
      rfl
  · cases hc
  · cases hc

/-- **C45.** An external worker can read exactly the data sent to it, one message directly behind the other. -/
theorem C45_external_input {f : Nat → UInt8} {tx : LBuf.Buf} (htx : extBuf f = .ok tx) (l : List (List UInt8 × SEv))
    (hnd : ∀ x ∈ l, IoEv.fail .ENODATA ∉ x.2.wsched) {outs cells}
    (hs : sendAll false tx (l.map fun x => (.data ⟨x.1, none⟩, x.2)) = (outs, cells)) (hok : ∀ r ∈ outs, r = .ok) :
    cells.map Prod.fst = l.flatMap Prod.fst := by
  obtain ⟨good, rest, junk, g1, g2, g3, g4, g5⟩ := sendAll_spec _ (by
    intro x hx
    obtain ⟨y, hy, rfl⟩ := List.mem_map.mp hx
    exact hnd y hy) tx outs cells (create_tinv (by simp) htx) hs
  have hrest : rest = [] := by
    cases rest with
    | nil => rfl
    | cons x t =>
      obtain ⟨r, h1, h2⟩ := g5 x t rfl
      exact absurd (hok r (List.mem_of_getElem? h1)) h2
  subst hrest
  rw [g4 rfl, List.append_nil] at g2
  rw [List.append_nil] at g1
  rw [g2, ← g1, List.flatMap_map, List.map_flatMap]
  congr 1
  funext x
  simp [sentCells, plainCells_fst, extCells, Msg.ext, Msg.bytes]

namespace ChanExample

/-- writing three bytes at a time, once interrupted -/
def sev : SEv := ⟨.fail .EINTR :: (List.replicate 12 (.xfer 3)), [.fail .EAGAIN, .xfer 1], fun _ => 0⟩
/-- reading two bytes at a time -/
def rev : REv := ⟨false, .xfer 2, [.xfer 1], fun _ => 7, fun _ => 8, fun _ => 9⟩
/-- the messages -/
def msgs : List (Msg × SEv) := [(.data ⟨[1, 2, 3], some (some 5)⟩, sev), (.data ⟨[], none⟩, sev), (.yield, sev)]
/-- the proxy's end of a socket with a suffix -/
def side : Side := ⟨true, true, some [0]⟩

/-- the hypotheses of the theorems above are met, with fragments, interruptions, files and a suffix -/
example : ∃ tx cells c, intBuf (fun _ => 0) = .ok tx ∧ sendAll true tx msgs = ([.ok, .ok, .ok], cells) ∧ cells.length = 28 ∧
    receiver (fun _ => 1) cells false = .ok c ∧ (∀ e ∈ List.replicate 28 rev, Calm e) ∧
    (run side c (List.replicate 28 rev)).map (fun c => c.notes.map toSeen) =
      some [.callback [1, 2, 3, 0] (some (some 5)), .callback [0] none, .finished] := by
  refine ⟨_, _, _, rfl, rfl, rfl, rfl, ?_, ?_⟩
  · intro e he
    rw [List.eq_of_mem_replicate he]
    exact ⟨rfl, nofun, fun er h => by simp [rev] at h, 1, by simp [rev]⟩
  · decide +kernel

/-- an external worker's output -/
example : ∃ c, extReceiver (fun _ => 0) (plainCells [65, 66, 67]) true = .ok c ∧
    (run ⟨true, false, some [0]⟩ c (List.replicate 4 rev)).map (fun c => c.notes.map toSeen) =
      some [.callback [65, 66, 67, 0] none] := ⟨_, rfl, by decide +kernel⟩

/-- a send that fails in the middle of the second message -/
def broken : List (Msg × SEv) := [(.data ⟨[1, 2, 3], none⟩, sev), (.data ⟨[4], none⟩, ⟨[.xfer 5, .fail .EPIPE], [], fun _ => 0⟩)]

example : ∃ tx cells c, intBuf (fun _ => 0) = .ok tx ∧ sendAll true tx broken = ([.ok, .failed .EPIPE], cells) ∧
    receiver (fun _ => 1) cells true = .ok c ∧
    (run side c (List.replicate 20 rev)).map (fun c => c.notes.map toSeen) = some [.callback [1, 2, 3, 0] none] :=
  ⟨_, _, _, rfl, rfl, rfl, by decide +kernel⟩

/-- two messages to an external worker -/
def ext2 : List (List UInt8 × SEv) := [([1, 2], sev), ([3], sev)]

example : ∃ tx, extBuf (fun _ => 0) = .ok tx ∧
    (sendAll false tx (ext2.map fun x => (.data ⟨x.1, none⟩, x.2))).1 = [.ok, .ok] ∧
    (sendAll false tx (ext2.map fun x => (.data ⟨x.1, none⟩, x.2))).2.map Prod.fst = [1, 2, 3] :=
  ⟨_, rfl, by decide +kernel, by decide +kernel⟩

end ChanExample
end Sid.Props
