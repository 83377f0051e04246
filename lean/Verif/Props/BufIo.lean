import Verif.Proof.BufIo
/-
C08, C09, C10: reading and writing linear buffers.
-/
namespace Sid.Props
open Sid.LBuf
open Sid.Spec.Buf (Op Ret)
open Sid.Spec.Frame

/-- C08.  A size-prefix buffer created with no initial space and step 1 (as every reader of sid does), unlimited or with
    room for the message, reads from a stream that starts with the frame of `p`.  For every schedule of reads (short
    reads, EAGAIN, EINTR, errors) and every unspecified memory content:
    * reported complete: exactly the frame was taken from the stream, and the data is exactly `p`;
    * still waiting: the frame has not been read completely, the buffer is not complete and nothing behind the frame was
      consumed;
    * error: the descriptor reported that error. -/
theorem C08_framed_message_survives_fragmentation {p rest : List UInt8} {limit : Nat} {closed : Bool} {fresh : Nat → UInt8}
    {b : Buf} (hp : p.length + 4 < 2 ^ 32) (hl : limit = 0 ∨ p.length + 4 ≤ limit)
    (hb : create .prefixed 0 1 limit fresh = .ok b) (sched : List (IoEv × (Nat → UInt8))) :
    (∃ b', recvLoop b ⟨frame p ++ rest, closed⟩ sched = .complete b' ⟨rest, closed⟩ ∧ (getData b' 0).2 = .data p ∧
      count b' = p.length) ∨
    (∃ b' left, recvLoop b ⟨frame p ++ rest, closed⟩ sched = .pending b' ⟨left ++ rest, closed⟩ ∧ left ≠ [] ∧
      left <:+ frame p ∧ isComplete b' = false) ∨
    (∃ e b' s', recvLoop b ⟨frame p ++ rest, closed⟩ sched = .failed e b' s' ∧ e ≠ .EAGAIN ∧ e ≠ .EINTR ∧
      .fail e ∈ sched.map Prod.fst) := by
  obtain ⟨R, hu⟩ := fresh_reader (s := ⟨frame p ++ rest, closed⟩) hb (Nat.zero_le _) hl rfl
  have hfl := frame_length p
  rcases recvLoop_spec hp sched b _ R (by omega) with ⟨b', s', h1, R', hc⟩ | ⟨b', s', h1, R', hc⟩ | h
  · obtain ⟨h2, h3, h4⟩ := complete_content R' hc
    have hcl := recvLoop_closed hp sched b _ R (by omega)
    rw [h1] at hcl
    have hs : s' = ⟨rest, closed⟩ := by
      rcases s' with ⟨d, c⟩
      dsimp only [ROut.stream] at h3 hcl
      rw [h3, hcl]
    rw [hs] at h1
    refine .inl ⟨b', h1, h2, ?_⟩
    rw [count_eq (complete_inv R' hc), h4]
  · have hcl := recvLoop_closed hp sched b _ R (by omega)
    rw [h1] at hcl
    have hs : s' = ⟨(frame p).drop b'.used ++ rest, closed⟩ := by
      have h3 := R'.str
      rcases s' with ⟨d, c⟩
      dsimp only [ROut.stream] at h3 hcl
      rw [h3, hcl]
    rw [hs] at h1
    refine .inr (.inl ⟨b', _, h1, ?_, List.drop_suffix _ _, ?_⟩)
    · intro h0
      have := congrArg List.length h0
      simp at this
      omega
    · rw [isComplete_frame hp R']
      simp; omega
  · exact .inr (.inr h)

/-- C08, progress: if the descriptor reports no hard error and delivers data at least as often as the message has bytes,
    the message is received. -/
theorem C08_enough_reads_complete {p rest : List UInt8} {limit : Nat} {closed : Bool} {fresh : Nat → UInt8}
    {b : Buf} (hp : p.length + 4 < 2 ^ 32) (hl : limit = 0 ∨ p.length + 4 ≤ limit)
    (hb : create .prefixed 0 1 limit fresh = .ok b) (sched : List (IoEv × (Nat → UInt8)))
    (he : ∀ e, .fail e ∈ sched.map Prod.fst → e = .EAGAIN ∨ e = .EINTR)
    (hn : (frame p).length ≤ ((sched.map Prod.fst).filter IoEv.moves).length) :
    ∃ b', recvLoop b ⟨frame p ++ rest, closed⟩ sched = .complete b' ⟨rest, closed⟩ ∧ (getData b' 0).2 = .data p := by
  obtain ⟨R, hu⟩ := fresh_reader (s := ⟨frame p ++ rest, closed⟩) hb (Nat.zero_le _) hl rfl
  have hfl := frame_length p
  obtain ⟨b1, s1, h1⟩ := recvLoop_completes hp sched b _ R (by omega) he (by omega)
  rcases C08_framed_message_survives_fragmentation (closed := closed) (rest := rest) hp hl hb sched with
    ⟨b', h2, h3, -⟩ | ⟨b', s', h2, -⟩ | ⟨e, b', s', h2, -⟩
  · exact ⟨b', h2, h3⟩
  · rw [h2] at h1; cases h1
  · rw [h2] at h1; cases h1

/-- C08 for a sender that ends before the message does (it dies, or closes the connection): whatever part of the frame came, and for
    every schedule, the message is never reported complete and the end is never taken for an end between messages: the loop reports
    a bad message as soon as it sees the end, after at most as many productive reads as there were bytes and one more, or the error of
    the descriptor. -/
theorem C08_truncated {p q miss : List UInt8} {limit : Nat} {fresh : Nat → UInt8} {b : Buf} (hp : p.length + 4 < 2 ^ 32)
    (hl : limit = 0 ∨ p.length + 4 ≤ limit) (hb : create .prefixed 0 1 limit fresh = .ok b) (hq : q ++ miss = frame p) (hm : miss ≠ [])
    (sched : List (IoEv × (Nat → UInt8))) :
    ((∃ b' left, recvLoop b ⟨q, true⟩ sched = .pending b' ⟨left, true⟩ ∧ left <:+ q ∧
        ((sched.map Prod.fst).filter IoEv.moves).length ≤ q.length) ∨
      ∃ e b' s', recvLoop b ⟨q, true⟩ sched = .failed e b' s' ∧
        (e = .EBADMSG ∨ (e ≠ .EAGAIN ∧ e ≠ .EINTR ∧ .fail e ∈ sched.map Prod.fst))) := by
  obtain ⟨R, -⟩ := fresh_reader (s := ⟨q ++ miss, true⟩) (rest := []) hb (Nat.zero_le _) hl (by rw [hq, List.append_nil])
  exact trunc_loop hp sched b ⟨q, true⟩ ⟨hm, rfl, R⟩

/-- C08: however the part that came was read, a read at the end of the stream reports a bad message, if a part of a message came; a
    stream that ends before anything came is reported as ended, without error.  (This is how the daemon tells a client that went
    away between messages from one that went away within a message.) -/
theorem C08_truncated_read {p q miss : List UInt8} {limit : Nat} {fresh : Nat → UInt8} {b : Buf} (hp : p.length + 4 < 2 ^ 32)
    (hl : limit = 0 ∨ p.length + 4 ≤ limit) (hb : create .prefixed 0 1 limit fresh = .ok b) (hq : q ++ miss = frame p) (hm : miss ≠ [])
    (sched : List (IoEv × (Nat → UInt8))) (k : Nat) (fresh' : Nat → UInt8)
    (hend : (readMany b ⟨q, true⟩ sched).2.1.data = []) :
    LBuf.read (readMany b ⟨q, true⟩ sched).1 (readMany b ⟨q, true⟩ sched).2.1 (.xfer k) fresh' =
      ((readMany b ⟨q, true⟩ sched).1, (readMany b ⟨q, true⟩ sched).2.1, if q = [] then .ok 0 else .error .EBADMSG) := by
  obtain ⟨R, -⟩ := fresh_reader (s := ⟨q ++ miss, true⟩) (rest := []) hb (Nat.zero_le _) hl (by rw [hq, List.append_nil])
  have T := trunc_many (miss := miss) hp sched b ⟨q, true⟩ ⟨hm, rfl, R⟩
  rcases trunc_read hp T k fresh' with ⟨hd, hr⟩ | ⟨hd, -⟩
  · rw [hr]
    have hlen := congrArg List.length T.2.2.str
    have hql := congrArg List.length hq
    have hlt := T.lt
    rw [hend] at hlen
    simp only [List.nil_append, List.append_nil, List.length_drop, List.length_append] at hlen hql
    have : (readMany b ⟨q, true⟩ sched).1.used = q.length := by omega
    rw [this]
    by_cases h0 : q = []
    · rw [if_pos h0, if_pos (by simp [h0])]
    · rw [if_neg h0, if_neg (by simpa using h0)]
  · exact absurd hend hd

/-- a client dies after six of seven bytes -/
example : ∃ b b', create .prefixed 0 1 0 (fun _ => 7) = .ok b ∧ [7, 0, 0, 0, 65, 66] ++ [67] = frame [65, 66, 67] ∧
    recvLoop b ⟨[7, 0, 0, 0, 65, 66], true⟩ [(.xfer 5, fun _ => 0), (.fail .EINTR, fun _ => 0), (.xfer 5, fun _ => 0), (.xfer 5, fun _ => 0)] =
      .failed .EBADMSG b' ⟨[], true⟩ := ⟨_, _, rfl, by decide, rfl⟩

/-- C08, end to end: whatever history of calls filled the sender's size-prefix buffer, if writing it out completes, then
    any receiver schedule that completes yields the sender's content (content non-empty or at least one add made, so that
    something is on the wire; kernel never reports ENODATA for the write). -/
theorem C08_sender_to_receiver {hist : List (Op × Ret)} {snd : Buf} (R : Reach .prefixed hist snd)
    (V : ∀ e ∈ hist, Valid .prefixed e.1) (hu : snd.used ≠ 0)
    (hlen : (Spec.Buf.content 4 hist).length + 4 < 2 ^ 32)
    {wsched : List IoEv} {out : List UInt8} (hw : writeAll snd 0 [] wsched = .done out) (hnd : .fail .ENODATA ∉ wsched)
    {fresh : Nat → UInt8} {b b' : Buf} (hb : create .prefixed 0 1 0 fresh = .ok b)
    {rsched : List (IoEv × (Nat → UInt8))} {rest : List UInt8} {closed : Bool} {s' : Stream}
    (hr : recvLoop b ⟨out ++ rest, closed⟩ rsched = .complete b' s') :
    (getData b' 0).2 = .data (Spec.Buf.content 4 hist) ∧ s' = ⟨rest, closed⟩ := by
  obtain ⟨I, hm, hbytes⟩ := reach_spec R V
  have hout := (writeAll_spec wsched snd 0 [] I (Nat.zero_le _) rfl).1 out hw hnd
  rw [image_eq snd I, hm] at hout
  simp only [hu, if_false] at hout
  rw [hbytes] at hout
  simp only [pfxLen] at hout
  rw [hout] at hr
  rcases C08_framed_message_survives_fragmentation (closed := closed) (rest := rest) hlen (.inl rfl) hb rsched with
    ⟨b'', h2, h3, -⟩ | ⟨b'', s'', h2, -⟩ | ⟨e, b'', s'', h2, -⟩
  · have h2 := h2.symm.trans hr
    cases h2
    exact ⟨h3, rfl⟩
  · rw [h2] at hr; cases hr
  · rw [h2] at hr; cases hr

/-- Concrete run: payload "AB", followed by another byte 9; reads of 3, EAGAIN, 1 byte, then everything. -/
example : (match create .prefixed 0 1 0 (fun _ => 7) with
    | .ok b => (match recvLoop b ⟨frame [65, 66] ++ [9], false⟩
        [(.xfer 3, fun _ => 1), (.fail .EAGAIN, fun _ => 1), (.xfer 1, fun _ => 1), (.xfer 100, fun _ => 1)] with
      | .complete b' s' => some ((getData b' 0).2, s'.data)
      | _ => none)
    | _ => none) = some (.data [65, 66], [9]) := by decide

/-- Concrete run of the sender: two adds, written in pieces of 4 (with an EINTR), 1 and 100 bytes. -/
example : ∃ snd, Reach .prefixed [(.add [65] false, .pos 0), (.addFmt [66] false, .pos 1)] snd ∧ snd.used ≠ 0 ∧
    writeAll snd 0 [] [.xfer 4, .fail .EINTR, .xfer 1, .xfer 100] = .done (frame [65, 66, 0]) :=
  ⟨_, .call (fresh := fun _ => 7) (.call (fresh := fun _ => 7)
    (.create (size := 0) (st := 1) (limit := 0) (fresh := fun _ => 7) rfl) rfl) rfl, by decide, by decide⟩

/-- C09.  One buffer (step 1, initial size not above any payload's length) receives message after message, being reset
    after each, from a stream carrying the frames of `ps`.  For every schedule the messages delivered are exactly the
    first few of `ps`, and what is left on the stream is exactly the rest of the frames minus a part of the next
    frame: no byte of a later message is ever consumed. -/
theorem C09_reads_stay_within_message {ps : List (List UInt8)} {size limit : Nat} {closed : Bool} {fresh : Nat → UInt8}
    {b : Buf} (hps : ∀ p ∈ ps, p.length + 4 < 2 ^ 32 ∧ size ≤ p.length ∧ (limit = 0 ∨ p.length + 4 ≤ limit))
    (hb : create .prefixed size 1 limit fresh = .ok b) (sched : List (IoEv × (Nat → UInt8))) :
    ∃ done todo partRead, ps = done ++ todo ∧ (pump b ⟨frames ps, closed⟩ [] sched).1 = done ∧
      (pump b ⟨frames ps, closed⟩ [] sched).2.2.data = (frames todo).drop partRead ∧
      (∀ q later, todo = q :: later → partRead < (frame q).length) := by
  obtain ⟨P, F⟩ := fresh_pump (s := ⟨frames ps, closed⟩) hb hps rfl
  obtain ⟨pre, post, h1, h2, u, h3, h4⟩ := pump_spec sched ps [] b _ P F
  exact ⟨pre, post, u, h1, by simpa using h2, h3, h4⟩

/-- C09, progress: enough productive reads without a hard error deliver all messages. -/
theorem C09_all_messages_delivered {ps : List (List UInt8)} {size limit : Nat} {closed : Bool} {fresh : Nat → UInt8}
    {b : Buf} (hps : ∀ p ∈ ps, p.length + 4 < 2 ^ 32 ∧ size ≤ p.length ∧ (limit = 0 ∨ p.length + 4 ≤ limit))
    (hb : create .prefixed size 1 limit fresh = .ok b) (sched : List (IoEv × (Nat → UInt8)))
    (he : ∀ e, .fail e ∈ sched.map Prod.fst → e = .EAGAIN ∨ e = .EINTR)
    (hn : (frames ps).length ≤ ((sched.map Prod.fst).filter IoEv.moves).length) :
    (pump b ⟨frames ps, closed⟩ [] sched).1 = ps := by
  obtain ⟨P, F⟩ := fresh_pump (s := ⟨frames ps, closed⟩) hb hps rfl
  simpa using pump_completes sched ps [] b _ P F he (by omega)

example : ∃ b, create .prefixed 1 1 0 (fun _ => 7) = .ok b ∧
    pump b ⟨frames [[1], [2, 3]], false⟩ [] [(.xfer 100, fun _ => 0), (.xfer 3, fun _ => 0), (.xfer 100, fun _ => 0),
      (.xfer 100, fun _ => 0)] = ([[1], [2, 3]], (pump b ⟨frames [[1], [2, 3]], false⟩ [] [(.xfer 100, fun _ => 0),
      (.xfer 3, fun _ => 0), (.xfer 100, fun _ => 0), (.xfer 100, fun _ => 0)]).2.1, ⟨[], false⟩) :=
  ⟨_, rfl, by decide⟩

/-- C09 fails for a reader whose initial size exceeds a message: with size 8 and an empty message followed by the
    message `[1]`, one read takes all 9 bytes; the first message is never reported complete. -/
theorem C09_big_initial_size_counterexample :
    ∃ b b' s', create .prefixed 8 1 0 (fun _ => 0) = .ok b ∧
      LBuf.read b ⟨frame [] ++ frame [1], false⟩ (.xfer 100) (fun _ => 0) = (b', s', .ok 9) ∧ s'.data = [] ∧
      isComplete b' = false :=
  ⟨_, _, _, rfl, rfl, by decide, by decide⟩

/-- C10 (linear buffers).  For every history of calls that filled the buffer and every behaviour of the descriptor:
    what has been accepted by the descriptor is always a prefix of the serialized content (the content itself in plain
    mode; its frame in size-prefix mode, nothing if nothing was ever added); it is all of it when the call reports
    success (a descriptor reporting ENODATA is excluded); failure is reported only with an error the descriptor gave. -/
theorem C10_write_all_exact {mode : Mode} {hist : List (Op × Ret)} {b : Buf} (R : Reach mode hist b)
    (V : ∀ e ∈ hist, Valid mode e.1) (sched : List IoEv) :
    let wire := if mode = .plain then Spec.Buf.content 0 hist
      else if b.used = 0 then [] else frame (Spec.Buf.content 4 hist)
    (∀ out, writeAll b 0 [] sched = .done out → .fail .ENODATA ∉ sched → out = wire) ∧
    (∀ e out, writeAll b 0 [] sched = .failed e out → .fail e ∈ sched ∧ e ≠ .EAGAIN ∧ e ≠ .EINTR ∧ out <+: wire) ∧
    (∀ out, writeAll b 0 [] sched = .pending out → out <+: wire ∧ out.length < wire.length) := by
  obtain ⟨I, hm, hbytes⟩ := reach_spec R V
  have hw : (if mode = .plain then Spec.Buf.content 0 hist
      else if b.used = 0 then [] else frame (Spec.Buf.content 4 hist)) = image b := by
    rw [image_eq b I, hm, hbytes]
    cases mode <;> rfl
  simp only
  rw [hw]
  obtain ⟨h1, h2, h3⟩ := writeAll_spec sched b 0 [] I (Nat.zero_le _) rfl
  refine ⟨h1, ?_, ?_⟩
  · intro e out h
    obtain ⟨a1, a2, a3, k, rfl⟩ := h2 e out h
    exact ⟨a1, a2, a3, List.take_prefix _ _⟩
  · intro out h
    obtain ⟨k, hk, rfl⟩ := h3 out h
    refine ⟨List.take_prefix _ _, ?_⟩
    have := image_length b I
    simp; omega

/-- C10, progress: without hard errors, as many productive writes as there are bytes suffice. -/
theorem C10_write_all_terminates {mode : Mode} {hist : List (Op × Ret)} {b : Buf} (R : Reach mode hist b)
    (V : ∀ e ∈ hist, Valid mode e.1) (sched : List IoEv)
    (he : ∀ e, IoEv.fail e ∈ sched → e = .EAGAIN ∨ e = .EINTR)
    (hn : b.used ≤ (sched.filter (fun ev => match ev with | .xfer k => decide (0 < k) | .fail _ => false)).length) :
    ∃ out, writeAll b 0 [] sched = .done out := by
  obtain ⟨I, hm, hbytes⟩ := reach_spec R V
  exact writeAll_terminates sched b 0 [] I (Nat.zero_le _) he (by omega)

/-- C10 as stated fails if the descriptor reports ENODATA: buf.c uses that value internally for "nothing left", so the
    call claims success with nothing written. -/
theorem C10_enodata_counterexample :
    ∃ b, Reach .plain [(.add [65] false, .pos 0)] b ∧ writeAll b 0 [] [.fail .ENODATA] = .done [] :=
  ⟨_, .call (fresh := fun _ => 7) (.create (size := 0) (st := 1) (limit := 0) (fresh := fun _ => 7) rfl) rfl, by decide⟩

/-- Reading into a buffer ignores memory handed out before: a bound address may move (see C07). -/
theorem C07_read_moves_bound_memory_counterexample :
    ∃ b b1 b2 s', create .plain 1 1 0 (fun _ => 0) = .ok b ∧ add b [65] true (fun _ => 0) = (b1, .pos 0) ∧
      LBuf.read b1 ⟨[66], false⟩ (.xfer 1) (fun _ => 0) = (b2, s', .ok 1) ∧ b1.markSet = true ∧ b2.gen ≠ b1.gen :=
  ⟨_, _, _, _, rfl, rfl, rfl, by decide, by decide⟩

/-! ### C58: plain reading -/

theorem readPlain_spec {b : Buf} {s : Stream} {ev fresh} (I : Inv b) (hm : b.mode = .plain) :
    ∃ k, bytes (readPlain b s ev fresh).1 = bytes b ++ s.data.take k ∧
      (readPlain b s ev fresh).2.1 = ⟨s.data.drop k, s.closed⟩ ∧ k ≤ s.data.length ∧
      (∀ n, (readPlain b s ev fresh).2.2 = .ok n → n = k) ∧
      (∀ e, (readPlain b s ev fresh).2.2 = .error e → k = 0) ∧
      Inv (readPlain b s ev fresh).1 ∧ (readPlain b s ev fresh).1.mode = .plain ∧
      (readPlain b s ev fresh).1.step = b.step ∧
      ((readPlain b s ev fresh).2.2 = .ok 0 → b.step ≠ 0 → s.data = [] ∧ s.closed = true) := by
  have hbytes : ∀ c : Buf, c.mode = .plain → bytes c = c.mem.take c.used := by
    intro c hc; simp [bytes, hc, pfxLen]
  have key : ∀ c : Buf, Inv c → c.mode = .plain → c.step = b.step → bytes c = bytes b → (b.step ≠ 0 → c.used < c.mem.length) →
      ∃ k, readInto c s ev =
        ((if k = 0 then c else { c with mem := store c.mem c.used (s.data.take k), used := c.used + k }), ⟨s.data.drop k, s.closed⟩,
          if k = 0 then (match sysRead s (c.mem.length - c.used) ev with | .error e => .error e | .ok _ => .ok 0) else .ok k) ∧
        k ≤ s.data.length ∧ c.used + k ≤ c.mem.length ∧
        (sysRead s (c.mem.length - c.used) ev = .ok [] → b.step ≠ 0 → s.data = [] ∧ s.closed = true) ∧
        (∀ bs, sysRead s (c.mem.length - c.used) ev = .ok bs → bs.length = k) ∧
        (∀ e, sysRead s (c.mem.length - c.used) ev = .error e → k = 0) := by
    intro c Ic hcm hcs hcb hroom
    have hle := Ic.le
    unfold readInto
    cases hr : sysRead s (c.mem.length - c.used) ev with
    | error e => exact ⟨0, by simp, by omega, by omega, by simp, by simp, by simp⟩
    | ok bs =>
      have hbs : bs = s.data.take bs.length ∧ bs.length ≤ c.mem.length - c.used ∧ bs.length ≤ s.data.length ∧
          (bs = [] → b.step ≠ 0 → s.data = [] ∧ s.closed = true) := by
        cases ev with
        | fail e => simp [sysRead] at hr
        | xfer k =>
          simp only [sysRead] at hr
          split at hr
          · rename_i h0
            simp only [Except.ok.injEq] at hr; subst hr
            refine ⟨by simp, by simp, by simp, fun _ hst => ?_⟩
            have := hroom hst; omega
          · split at hr
            · rename_i hd
              split at hr
              · rename_i hcl
                simp only [Except.ok.injEq] at hr; subst hr
                exact ⟨by simp, by simp, by simp, fun _ _ => ⟨hd, hcl⟩⟩
              · simp at hr
            · rename_i h0 hd
              simp only [Except.ok.injEq] at hr; subst hr
              have hd' : 0 < s.data.length := by
                cases hh : s.data with
                | nil => exact absurd hh hd
                | cons => simp
              refine ⟨by simp [List.take_take, List.length_take], ?_, ?_, ?_⟩
              · simp only [List.length_take]; omega
              · simp only [List.length_take]; omega
              · intro h; have := congrArg List.length h; simp only [List.length_take, List.length_nil] at this; omega
      refine ⟨bs.length, ?_, hbs.2.2.1, by omega, fun h => hbs.2.2.2 (by simpa using h), fun bs' h => by simp at h; rw [h], by simp⟩
      by_cases h0 : bs.length = 0
      · have : bs = [] := List.length_eq_zero_iff.mp h0
        subst this
        simp [store]
      · simp only [h0, if_false]
        rw [← hbs.1]
  have fin : ∀ c : Buf, Inv c → c.mode = .plain → c.step = b.step → bytes c = bytes b → (b.step ≠ 0 → c.used < c.mem.length) →
      ∀ res, res = readInto c s ev →
      ∃ k, bytes res.1 = bytes b ++ s.data.take k ∧ res.2.1 = ⟨s.data.drop k, s.closed⟩ ∧ k ≤ s.data.length ∧
      (∀ n, res.2.2 = .ok n → n = k) ∧ (∀ e, res.2.2 = .error e → k = 0) ∧ Inv res.1 ∧ res.1.mode = .plain ∧
      res.1.step = b.step ∧ (res.2.2 = .ok 0 → b.step ≠ 0 → s.data = [] ∧ s.closed = true) := by
    intro c Ic hcm hcs hcb hroom res hres
    obtain ⟨k, h1, h2, h3, h4, h5, h6⟩ := key c Ic hcm hcs hcb hroom
    rw [h1] at hres
    subst hres
    refine ⟨k, ?_, rfl, h2, ?_, ?_, ?_, ?_, ?_, ?_⟩
    · by_cases h0 : k = 0
      · simp [h0, hcb]
      · simp only [h0, if_false]
        rw [← hcb, hbytes _ hcm, hbytes _ (by exact hcm)]
        have := store_take_after (mem := c.mem) (off := c.used) (bs := s.data.take k) Ic.le
        simpa [List.length_take, Nat.min_eq_left h2] using this
    · intro n hn
      by_cases h0 : k = 0
      · simp only [h0, if_true] at hn
        cases hr : sysRead s (c.mem.length - c.used) ev with
        | error e => rw [hr] at hn; simp at hn
        | ok bs => rw [hr] at hn; simp at hn; omega
      · simp only [h0, if_false, Except.ok.injEq] at hn; exact hn.symm
    · intro e he
      by_cases h0 : k = 0
      · exact h0
      · simp [h0] at he
    · by_cases h0 : k = 0
      · simpa [h0] using Ic
      · simp only [h0, if_false]
        have hl := store_length (mem := c.mem) (off := c.used) (bs := s.data.take k)
          (by simp only [List.length_take]; omega)
        constructor
        all_goals simp_all [pfxLen]
    · by_cases h0 : k = 0 <;> simp [h0, hcm]
    · by_cases h0 : k = 0 <;> simp [h0, hcs]
    · intro hz
      by_cases h0 : k = 0
      · simp only [h0, if_true] at hz
        cases hr : sysRead s (c.mem.length - c.used) ev with
        | error e => rw [hr] at hz; simp at hz
        | ok bs =>
          have := h5 bs hr
          rw [h0] at this
          have : bs = [] := List.length_eq_zero_iff.mp this
          subst this
          exact h4 hr
      · simp only [h0, if_false, Except.ok.injEq] at hz
  by_cases hfull : b.used = b.mem.length
  · cases hre : realloc b (b.mem.length + b.step) false fresh with
    | error e =>
      have : readPlain b s ev fresh = (b, s, .error e) := by
        have hg : growPlain b fresh = _ := (if_pos hfull).trans hre; simp only [readPlain, hg]
      rw [this]
      exact ⟨0, by simp, by simp, by omega, by simp, by simp, I, hm, rfl, by simp⟩
    | ok c =>
      obtain ⟨g1, g2, g3, g4, g5, g6, g7, g8, g9⟩ := realloc_ok hre
      have hpos := I.le
      refine fin c ⟨by omega, by simp [g1, hm, pfxLen], by simp [g1, hm, pfxLen]⟩ (g1.trans hm) g3 ?_ (fun h => by omega) _
        (by have hg : growPlain b fresh = _ := (if_pos hfull).trans hre; simp only [readPlain, hg])
      rw [hbytes _ (g1.trans hm), hbytes _ hm, g5]
      exact g9 _ (by omega) hpos
  · have hle := I.le
    exact fin b I hm rfl rfl (fun _ => by omega) _ (by have hg : growPlain b fresh = .ok b := if_neg hfull; simp only [readPlain, hg])

/-- C58.  Reading without size prefix: whatever the calls made on the buffer before, any sequence of reads (short reads,
    errors, any memory contents) appends to the content exactly the bytes taken from the stream, in order, and loses
    none: the new content is the old content, then the consumed bytes; the stream holds the rest.  With a growing step,
    a read reports the end of input (0) only when the stream is closed and empty. -/
theorem C58_plain_read_appends {hist : List (Op × Ret)} {b : Buf} (R : Reach .plain hist b)
    (V : ∀ e ∈ hist, Valid .plain e.1) (s : Stream) (sched : List (IoEv × (Nat → UInt8))) :
    ∃ taken, s.data = taken ++ (readMany b s sched).2.1.data ∧
      (getData (readMany b s sched).1 0).2 = .data (Spec.Buf.content 0 hist ++ taken) ∧
      (b.step ≠ 0 → .ok 0 ∈ (readMany b s sched).2.2 → s.closed = true ∧ taken = s.data) := by
  have hreach := reach_spec R V
  have key : ∀ (sched : List (IoEv × (Nat → UInt8))) (b : Buf) (s : Stream), Inv b → b.mode = .plain →
      ∃ taken, s.data = taken ++ (readMany b s sched).2.1.data ∧ (readMany b s sched).2.1.closed = s.closed ∧
        bytes (readMany b s sched).1 = bytes b ++ taken ∧ Inv (readMany b s sched).1 ∧
        (readMany b s sched).1.mode = .plain ∧
        (b.step ≠ 0 → .ok 0 ∈ (readMany b s sched).2.2 → s.closed = true ∧ taken = s.data) := by
    intro sched
    induction sched with
    | nil => intro b s I hm; exact ⟨[], by simp [readMany], rfl, by simp [readMany], I, hm, by simp [readMany]⟩
    | cons x es ih =>
      intro b s I hm
      obtain ⟨ev, fresh⟩ := x
      obtain ⟨k, h1, h2, h3, h4, h5, h6, h7, h8, h9⟩ := readPlain_spec (s := s) (ev := ev) (fresh := fresh) I hm
      have hrd : LBuf.read b s ev fresh = readPlain b s ev fresh := by simp [LBuf.read, hm]
      obtain ⟨t, g1, g2, g3, g4, g5, g6⟩ := ih (readPlain b s ev fresh).1 (readPlain b s ev fresh).2.1 h6 h7
      simp only [readMany, hrd]
      refine ⟨s.data.take k ++ t, ?_, ?_, ?_, g4, g5, ?_⟩
      · rw [List.append_assoc, ← g1, h2]; simp
      · rw [g2, h2]
      · rw [g3, h1, List.append_assoc]
      · intro hst hmem
        rw [List.mem_cons] at hmem
        rcases hmem with hz | hmem
        · obtain ⟨hd, hc⟩ := h9 hz.symm hst
          refine ⟨hc, ?_⟩
          rw [h2, hd] at g1
          simp at g1
          simp [hd, g1.1]
        · obtain ⟨hc, ht⟩ := g6 (by rw [h8]; exact hst) hmem
          rw [h2] at hc ht
          exact ⟨hc, by rw [ht]; simp⟩
  have hI := hreach.1
  have hm : b.mode = .plain := hreach.2.1
  obtain ⟨t, h1, h2, h3, h4, h5, h6⟩ := key sched b s hI hm
  refine ⟨t, h1, ?_, h6⟩
  have hg := getData_spec (b := (readMany b s sched).1) (b' := (getData (readMany b s sched).1 0).1) (p := 0)
    (r := (getData (readMany b s sched).1 0).2) h4 rfl
  rcases hg.2.2.2.2.2 with ⟨_, _, h0⟩ | ⟨h0, _⟩
  · omega
  · rw [h0, h3, hreach.2.2]; rfl

/-- C58.  With step 0 a full buffer makes the read report the end of input although data is waiting. -/
theorem C58_step_zero_counterexample :
    ∃ (b : Buf) (R : Reach .plain [(.add [1] false, .pos 0)] b),
      (readMany b ⟨[7], false⟩ [(.xfer 1, fun _ => 0)]).2.2 = [.ok 0] := by
  have r0 : Reach .plain [] _ := Reach.create (size := 1) (st := 0) (limit := 0) (fresh := fun _ => 0) rfl
  exact ⟨_, Reach.call (op := .add [1] false) (fresh := fun _ => 0) r0 rfl, rfl⟩

/-- C58: a buffer with one byte already in it, read with a short read, an interruption and the end of input -/
example : ∃ (b : Buf) (R : Reach .plain [(.add [1] false, .pos 0)] b), b.step ≠ 0 ∧
    (readMany b ⟨[7, 8, 9], true⟩ [(.xfer 2, fun _ => 0), (.fail .EINTR, fun _ => 0), (.xfer 9, fun _ => 0),
      (.xfer 9, fun _ => 0)]).2.2 = [.ok 2, .error .EINTR, .ok 1, .ok 0] := by
  have r0 : Reach .plain [] _ := Reach.create (size := 0) (st := 4) (limit := 0) (fresh := fun _ => 0) rfl
  exact ⟨_, Reach.call (op := .add [1] false) (fresh := fun _ => 0) r0 rfl, by decide, rfl⟩

end Sid.Props
