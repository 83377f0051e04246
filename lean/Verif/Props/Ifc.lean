import Verif.Proof.Ifc
/-
C53, C54: the client library.  C75: a request that is answered.  C61, C62: what a request carries and what the daemon makes of it.  C63, C64, C65: base
utilities.
-/
namespace Sid.Props
open Sid.Ifc Sid.Util Sid.Spec.Client Sid.Spec.Frame
open Sid.LBuf (Buf IoEv Stream)
open Sid.Spec.Buf (Op Ret)

/-! ### C53 -/

/-- C53.  Every command has a name and the name gives the command back; any other name is the unknown command. -/
theorem C53_command_names_one_to_one :
    (∀ c, c ≤ 10 → ∃ n, typeToName c = some n) ∧
    (∀ c n, typeToName c = some n → nameToType (some n) = c) ∧
    (∀ n, (∀ c, typeToName c ≠ some n) → nameToType (some n) = 1) ∧
    [0, 1, 2, 3, 4, 5, 6, 7, 8, 9, 10].map typeToName = [txt "undefined", txt "unknown", txt "active", txt "checkpoint",
      txt "reply", txt "scan", txt "version", txt "dbdump", txt "dbstats", txt "resources", txt "devices"].map some := by
  refine ⟨?_, ?_, ?_, by decide +kernel⟩
  · intro c hc
    have : c < cmdNames.length := by simp [cmdNames]; omega
    exact ⟨cmdNames[c], by simp [typeToName, this]⟩
  · intro c n h
    have hc : c < 11 := by
      unfold typeToName at h
      have := (List.getElem?_eq_some_iff.mp h).1
      simpa [cmdNames] using this
    have key : ∀ c < 11, ∀ n, typeToName c = some n → nameToType (some n) = c := by
      intro c hc n h
      have : c = 0 ∨ c = 1 ∨ c = 2 ∨ c = 3 ∨ c = 4 ∨ c = 5 ∨ c = 6 ∨ c = 7 ∨ c = 8 ∨ c = 9 ∨ c = 10 := by omega
      rcases this with rfl | rfl | rfl | rfl | rfl | rfl | rfl | rfl | rfl | rfl | rfl <;>
        (simp only [typeToName, cmdNames, List.map, List.getElem?_cons_zero, List.getElem?_cons_succ, Option.some.injEq] at h
         subst h; decide)
    exact key c hc n h
  · intro n hn
    have key : ∀ (l : List Str) (k : Nat), (∀ x ∈ l, x ≠ n) → nameToTypeFrom n k l = 1 := by
      intro l
      induction l with
      | nil => intro k _; rfl
      | cons a l ih =>
        intro k h
        simp only [nameToTypeFrom]
        rw [if_neg (fun hh => h a (by simp) hh.symm)]
        exact ih _ fun x hx => h x (by simp [hx])
    refine key cmdNames 0 fun x hx => ?_
    rintro rfl
    obtain ⟨c, hc, he⟩ := List.mem_iff_getElem.mp hx
    exact hn c (by rw [typeToName, ← he]; simp)

example : nameToType (some (txt "scan")) = 5 ∧ nameToType (some (txt "scam")) = 1 := by decide

theorem finish_ok {req : Req} {b : Buf} {file sent r s} (h : finish req b file sent = .ok r s) :
    s = sent ∧ r.buf = b ∧ 12 ≤ LBuf.count b ∧ (req.cmd ≠ 7 → r.shm = none) ∧
      (req.cmd = 7 → ∃ f, file = .ok f ∧ mapShm f = .ok r.shm) := by
  unfold finish at h
  split at h
  · cases h
  · rename_i hc
    split at h
    · rename_i h7
      split at h
      · cases h
      · rename_i f
        cases hm : mapShm f with
        | error e => rw [hm] at h; cases h
        | ok m =>
          rw [hm] at h
          simp only [Out.ok.injEq] at h
          obtain ⟨rfl, rfl⟩ := h
          exact ⟨rfl, rfl, by omega, fun h => absurd h7 h, fun _ => ⟨f, rfl, hm⟩⟩
    · rename_i h7
      simp only [Out.ok.injEq] at h
      obtain ⟨rfl, rfl⟩ := h
      exact ⟨rfl, rfl, by omega, fun _ => rfl, fun h => absurd h h7⟩

theorem receive_ok {req : Req} {b : Buf} {fresh reply rsched file sent r s} (hm : b.mode = .prefixed)
    (h : receive req b fresh reply rsched file sent = .ok r s) :
    s = sent ∧ ∃ p rest, reply.data = frame p ++ rest ∧ 12 ≤ p.length ∧ p.length + 4 < 2 ^ 32 ∧ rslBytes r = some p ∧
      (req.cmd ≠ 7 → r.shm = none) ∧ (req.cmd = 7 → ∃ f, file = .ok f ∧ mapShm f = .ok r.shm) := by
  unfold receive at h
  have T : Took (LBuf.reset b fresh).1 [] := by
    have hmode : (LBuf.reset b fresh).1.mode = .prefixed := by
      unfold LBuf.reset LBuf.realloc
      simp only [LBuf.roundUp_one, not_true_eq_false, false_and, if_false, if_true]
      split <;> rename_i hx <;> split at hx <;> cases hx <;> exact hm
    have hu : (LBuf.reset b fresh).1.used = 0 := by
      unfold LBuf.reset LBuf.realloc
      simp only [LBuf.roundUp_one, not_true_eq_false, false_and, if_false, if_true]
      split <;> rename_i hx <;> split at hx <;> cases hx <;> rfl
    exact ⟨hmode, by omega, by simp [hu]⟩
  have fin : ∀ b' s', (LBuf.recvLoop (LBuf.reset b fresh).1 reply rsched = .complete b' s' ∨
      LBuf.recvLoop (LBuf.reset b fresh).1 reply rsched = .eof b' s') → finish req b' file sent = .ok r s →
      s = sent ∧ ∃ p rest, reply.data = frame p ++ rest ∧ 12 ≤ p.length ∧ p.length + 4 < 2 ^ 32 ∧ rslBytes r = some p ∧
      (req.cmd ≠ 7 → r.shm = none) ∧ (req.cmd = 7 → ∃ f, file = .ok f ∧ mapShm f = .ok r.shm) := by
    intro b' s' hl hf
    obtain ⟨d, h1, h2, h3⟩ := recvLoop_took rsched _ _ _ T b' s' hl
    obtain ⟨p, h4, h5, h6, h7⟩ := complete_frame h2 h3
    obtain ⟨g1, g2, g3, g4, g5⟩ := finish_ok hf
    refine ⟨g1, p, s'.data, ?_, ?_, h5, ?_, g4, g5⟩
    · rw [h1]; simp only [List.nil_append] at h4; rw [h4]
    · rw [LBuf.count_eq h7, h6] at g3; exact g3
    · unfold rslBytes
      rw [g2, data_of_bytes h7 h6]
  split at h
  · rename_i b' s' hl; exact fin b' s' (.inl hl) h
  · rename_i b' s' hl; exact fin b' s' (.inr hl) h
  · cases h
  · cases h

theorem mapShm_frame {q tail : List UInt8} (hq : q.length + 4 < 2 ^ 32) :
    mapShm (frame q ++ tail) = .ok (if q = [] then none else some (frame q)) := by
  have hl := LBuf.frame_length q
  have hn : leNat ((frame q ++ tail).take 4) = q.length + 4 := by
    rw [List.take_append_of_le_length (by omega)]
    simp only [frame, le32, List.cons_append, List.nil_append, List.take, leNat, UInt8.toNat_ofNat']
    omega
  unfold mapShm
  rw [if_neg (by simp; omega), if_neg (by omega), hn]
  by_cases h : q = []
  · simp [h]
  · have : 0 < q.length := List.length_pos_iff.mpr h
    rw [if_pos (by omega), if_neg h, List.take_append_of_le_length (by omega), ← hl, List.take_length]

/-- C53.  A request that succeeds, whatever the sockets do and whatever the daemon sends, has received exactly one
    complete message `p` with a header, and the accessors give the header's fields and what follows it: nothing if the
    status says failure; for a database dump the content of the passed memory file, if it has any. -/
theorem C53_result_is_the_reply {env : List Str} {req : Req} {fresh wsched} {reply : Stream} {rsched file r sent}
    (h : request env req fresh wsched reply rsched file = .ok r sent) :
    ∃ p rest, reply.data = frame p ++ rest ∧ 12 ≤ p.length ∧ p.length + 4 < 2 ^ 32 ∧
      rslStatus r = some (number (p.take 8)) ∧ rslProtocol r = some (number ((p.drop 8).take 1)) ∧
      (number (p.take 8) % 2 = 1 → rslData r = some none) ∧
      (number (p.take 8) % 2 = 0 → req.cmd ≠ 7 → rslData r = some (if p.length = 12 then none else some (p.drop 12))) ∧
      (number (p.take 8) % 2 = 0 → req.cmd = 7 → ∃ f, file = .ok f ∧
        ∀ q tail, f = frame q ++ tail → q ≠ [] → q.length + 4 < 2 ^ 32 → rslData r = some (some q)) := by
  unfold request at h
  cases hm : message env req fresh with
  | error e => rw [hm] at h; cases h
  | ok b =>
    rw [hm] at h
    simp only at h
    have hmode : b.mode = .prefixed := by
      cases hb : bodyOps env req with
      | error e => rw [(message_spec (fresh := fresh)).1 e hb] at hm; cases hm
      | ok ops =>
        obtain ⟨b', h1, F⟩ := (message_spec (fresh := fresh)).2 ops hb
        rw [h1] at hm; cases hm; exact F.mode
    split at h
    · cases h
    · cases h
    · obtain ⟨-, p, rest, h1, h2, hb, h3, h4, h5⟩ := receive_ok hmode h
      have hh : hdrOf p = some ⟨leNat (p.take 8), leNat ((p.drop 8).take 1), leNat ((p.drop 9).take 1),
          leNat ((p.drop 10).take 2)⟩ := by unfold hdrOf; rw [if_neg (by omega)]
      refine ⟨p, rest, h1, h2, hb, ?_, ?_, ?_, ?_, ?_⟩
      · simp [rslStatus, h3, hh, leNat_number]
      · simp [rslProtocol, h3, hh, leNat_number]
      · intro hst
        simp only [rslData, h3, hh, leNat_number, Option.map_some, hst, if_true]
      · intro hst h7
        simp only [rslData, h3, hh, leNat_number, Option.map_some, hst, h4 h7]
        by_cases h12 : p.length = 12
        · simp [h12]
        · simp [h12, show p.length > 12 by omega]
      · intro hst h7
        obtain ⟨f, hf, hmf⟩ := h5 h7
        refine ⟨f, hf, ?_⟩
        rintro q tail rfl hq hlen
        rw [mapShm_frame hlen, if_neg hq] at hmf
        simp only [Except.ok.injEq] at hmf
        simp only [rslData, h3, hh, leNat_number, Option.map_some, hst, ← hmf]
        simp [frame, le32]

/-- a version request, answered with a header and two bytes; the reply comes in pieces -/
example : ∃ r sent, request [] ⟨6, 0, 7, .none⟩ (fun _ => 0) (List.replicate 9 (.xfer 3))
    ⟨frame ((Hdr.mk 0 2 4 0).bytes ++ [8, 9]), false⟩ (List.replicate 9 (.xfer 5, fun _ => 0)) (.error .EBADF) = .ok r sent ∧
    rslData r = some (some [8, 9]) := ⟨_, _, rfl, by decide +kernel⟩

/-! ### C61 -/

/-- the bytes of a request that the kernel has taken -/
def sentOf : Out → List UInt8
  | .failed _ s => s
  | .ok _ s => s
  | .pending s => s

theorem sent_spec {env : List Str} {req : Req} {ops : List Op} (hb : bodyOps env req = .ok ops) (fresh wsched reply rsched file) :
    sentOf (request env req fresh wsched reply rsched file) <+: frame ((reqHdr req).bytes ++ ops.flatMap opBytes) ∧
    (∀ r sent, request env req fresh wsched reply rsched file = .ok r sent → .fail .ENODATA ∉ wsched →
      sent = frame ((reqHdr req).bytes ++ ops.flatMap opBytes)) := by
  obtain ⟨b, hm, F⟩ := (message_spec (fresh := fresh)).2 ops hb
  have hne : (reqHdr req).bytes ++ ops.flatMap opBytes ≠ [] := by
    intro h
    have := congrArg List.length h
    simp [hdr_bytes_length] at this
  have hi : LBuf.image b = frame ((reqHdr req).bytes ++ ops.flatMap opBytes) := by
    rw [LBuf.image_eq b F.inv, F.mode]
    simp only [filling_used F hne, if_false, F.bytes]
  obtain ⟨w1, w2, w3⟩ := LBuf.writeAll_spec wsched b 0 [] F.inv (Nat.zero_le _) rfl
  unfold request
  rw [hm]
  simp only
  rw [← hi]
  have hrecv : ∀ out, sentOf (receive req b fresh reply rsched file out) = out := by
    intro out
    unfold receive
    have hf : ∀ b', sentOf (finish req b' file out) = out := by
      intro b'
      unfold finish
      split
      · rfl
      · split
        · split
          · rfl
          · split <;> rfl
        · rfl
    split
    · exact hf _
    · exact hf _
    · rfl
    · rfl
  cases hw : LBuf.writeAll b 0 [] wsched with
  | failed e out =>
    obtain ⟨-, -, -, k, rfl⟩ := w2 e out hw
    exact ⟨List.take_prefix _ _, by simp⟩
  | pending out =>
    obtain ⟨k, -, rfl⟩ := w3 out hw
    exact ⟨List.take_prefix _ _, by simp⟩
  | done out =>
    simp only [hrecv]
    refine ⟨?_, ?_⟩
    · -- also with ENODATA only a prefix was taken
      have : ∀ (evs : List IoEv) (b : Buf) (pos : Nat) (out : List UInt8), LBuf.Inv b → pos ≤ b.used →
          out = (LBuf.image b).take pos → ∀ o, LBuf.writeAll b pos out evs = .done o → o <+: LBuf.image b := by
        intro evs
        induction evs with
        | nil =>
          intro b pos out I hp ho o h
          simp only [LBuf.writeAll] at h
          split at h
          · cases h; rw [ho]; exact List.take_prefix _ _
          · split at h <;> cases h
        | cons ev es ih =>
          intro b pos out I hp ho o h
          simp only [LBuf.writeAll] at h
          have hi' : LBuf.image (LBuf.updatePrefix b) = LBuf.image b := by
            unfold LBuf.image
            rw [LBuf.updatePrefix_idem, (LBuf.updatePrefix_fields b).1]
          have hu := (LBuf.updatePrefix_fields b).1
          split at h
          · cases h; rw [ho]; exact List.take_prefix _ _
          · split at h
            · cases h
            · cases ev with
              | fail e =>
                simp only at h
                split at h
                · cases h; rw [ho]; exact List.take_prefix _ _
                · split at h
                  · have := ih _ pos out (LBuf.updatePrefix_inv b I) (by omega) (by rw [hi']; exact ho) o h
                    rwa [hi'] at this
                  · cases h
              | xfer k =>
                simp only at h
                have hil := LBuf.image_length b I
                have := ih _ _ _ (LBuf.updatePrefix_inv b I) ?_ ?_ o h
                · rwa [hi'] at this
                · simp only [List.length_take, List.length_drop, hu]; omega
                · rw [hi', ho]
                  have himg : (LBuf.updatePrefix b).mem.take (LBuf.updatePrefix b).used = LBuf.image b := by
                    rw [hu]; rfl
                  rw [himg, List.take_add]
                  congr 1
                  simp [List.take_take]
      exact this wsched b 0 [] F.inv (Nat.zero_le _) rfl out hw
    · intro r sent h hnd
      have : sentOf (receive req b fresh reply rsched file out) = out := hrecv out
      rw [h] at this
      simp only [sentOf] at this
      rw [this]
      exact w1 out hw hnd

theorem devt_ok {env : List Str} {M m : Nat} (hM : valueOf env (txt "MAJOR") = some (decimal M)) (hM' : M < 2 ^ 20)
    (hm : valueOf env (txt "MINOR") = some (decimal m)) (hm' : m < 2 ^ 12) :
    ∃ dev, devtBytes env = .ok dev ∧ dev.length = 8 ∧
      majorOf (BitVec.ofNat 64 (number dev)) = BitVec.ofNat 32 M ∧ minorOf (BitVec.ofNat 64 (number dev)) = BitVec.ofNat 32 m := by
  refine ⟨leBytes (makedev (BitVec.ofNat 32 M) (BitVec.ofNat 32 m)).toNat 8, ?_, ?_, ?_⟩
  · simp only [devtBytes, envGetUll_decimal hM (by omega : M < 2 ^ 64), envGetUll_decimal hm (by omega : m < 2 ^ 64)]
    rw [if_neg (by simp only [maxMajor]; omega)]
    simp only
    rw [if_neg (by simp only [maxMinor]; omega)]
  · exact leBytes_length _ _
  · rw [number_leBytes, show (256 : Nat) ^ 8 = 2 ^ 64 by decide, Nat.mod_eq_of_lt (BitVec.isLt _), BitVec.ofNat_toNat,
      BitVec.setWidth_eq]
    exact ⟨major_makedev _ _, minor_makedev _ _⟩

/-- C61, scan.  For a client whose environment names a device 0 ≤ MAJOR < 2^20, 0 ≤ MINOR < 2^12, whatever the sockets do:
    the bytes sent are always a beginning of one message, which consists of a header with the request's sequence number,
    protocol 2, command and flags, the device number and the whole environment; a successful request has sent all of it
    (a descriptor reporting ENODATA is excluded, see C10). -/
theorem C61_scan_request_on_the_wire {env : List Str} {M m seq flags : Nat} {data : ReqData} (hf : flags.testBit 2 = false)
    (hs : seq < 2 ^ 64) (hfl : flags < 2 ^ 16)
    (hM : valueOf env (txt "MAJOR") = some (decimal M)) (hM' : M < 2 ^ 20)
    (hm : valueOf env (txt "MINOR") = some (decimal m)) (hm' : m < 2 ^ 12) :
    ∃ hdr dev, hdr.length = 12 ∧ (∀ rest, hdrOf (hdr ++ rest) = some ⟨seq, 2, 5, flags⟩) ∧ dev.length = 8 ∧
      majorOf (BitVec.ofNat 64 (number dev)) = BitVec.ofNat 32 M ∧
      minorOf (BitVec.ofNat 64 (number dev)) = BitVec.ofNat 32 m ∧
      ∀ fresh wsched reply rsched file,
        sentOf (request env ⟨5, flags, seq, data⟩ fresh wsched reply rsched file) <+: frame (hdr ++ dev ++ strings env) ∧
        (∀ r sent, request env ⟨5, flags, seq, data⟩ fresh wsched reply rsched file = .ok r sent → .fail .ENODATA ∉ wsched →
          sent = frame (hdr ++ dev ++ strings env)) := by
  obtain ⟨dev, hd, hl, h1, h2⟩ := devt_ok hM hM' hm hm'
  have hb : bodyOps env ⟨5, flags, seq, data⟩ = .ok (.add dev false :: env.map fun kv => .add (kv ++ [0]) false) := by
    simp [bodyOps, hf, cmdScan, scanOps, hd]
  have hflat : (Op.add dev false :: env.map fun kv => Op.add (kv ++ [0]) false).flatMap opBytes = dev ++ strings env := by
    simp only [List.flatMap_cons, opBytes, strings, List.flatMap_map]
  have hr : reqHdr ⟨5, flags, seq, data⟩ = ⟨seq, 2, 5, flags⟩ := by
    simp [reqHdr, Nat.mod_eq_of_lt hs, Nat.mod_eq_of_lt hfl]
  refine ⟨(Hdr.mk seq 2 5 flags).bytes, dev, hdr_bytes_length _, fun rest => hdrOf_bytes _ _ hs (by show 2 < 256; decide) (by simp) hfl,
    hl, h1, h2, ?_⟩
  intro fresh wsched reply rsched file
  have := sent_spec hb fresh wsched reply rsched file
  rw [hflat, hr, ← List.append_assoc] at this
  exact this

theorem keyOps_bytes (env keys : List Str) : (keyOps env keys).flatMap opBytes =
    strings (keys.filterMap fun k => (valueOf env k).map fun v => k ++ [61] ++ v) := by
  induction keys with
  | nil => rfl
  | cons k ks ih =>
    simp only [keyOps, getenv_eq]
    cases hv : valueOf env k with
    | none => simpa [List.filterMap_cons, hv] using ih
    | some v => simp [List.filterMap_cons, strings, opBytes, hv] at ih ⊢; rw [ih]

/-- C61, checkpoint.  The same with the checkpoint's name and those of the requested variables that are set, in the order
    requested. -/
theorem C61_checkpoint_request_on_the_wire {env : List Str} {M m seq flags : Nat} {name : Str} {keys : List Str}
    (hf : flags.testBit 2 = false) (hs : seq < 2 ^ 64) (hfl : flags < 2 ^ 16)
    (hM : valueOf env (txt "MAJOR") = some (decimal M)) (hM' : M < 2 ^ 20)
    (hm : valueOf env (txt "MINOR") = some (decimal m)) (hm' : m < 2 ^ 12) :
    ∃ hdr dev, hdr.length = 12 ∧ (∀ rest, hdrOf (hdr ++ rest) = some ⟨seq, 2, 3, flags⟩) ∧ dev.length = 8 ∧
      majorOf (BitVec.ofNat 64 (number dev)) = BitVec.ofNat 32 M ∧
      minorOf (BitVec.ofNat 64 (number dev)) = BitVec.ofNat 32 m ∧
      ∀ fresh wsched reply rsched file r sent,
        request env ⟨3, flags, seq, .checkpoint (some name) (some keys)⟩ fresh wsched reply rsched file = .ok r sent →
        .fail .ENODATA ∉ wsched →
        sent = frame (hdr ++ dev ++ strings (name :: keys.filterMap fun k => (valueOf env k).map fun v => k ++ [61] ++ v)) := by
  obtain ⟨dev, hd, hl, h1, h2⟩ := devt_ok hM hM' hm hm'
  have hb : bodyOps env ⟨3, flags, seq, .checkpoint (some name) (some keys)⟩ =
      .ok (.add dev false :: .add (name ++ [0]) false :: keyOps env keys) := by
    simp [bodyOps, hf, cmdScan, cmdCheckpoint, checkpointOps, hd]
  have hflat : (Op.add dev false :: Op.add (name ++ [0]) false :: keyOps env keys).flatMap opBytes =
      dev ++ strings (name :: keys.filterMap fun k => (valueOf env k).map fun v => k ++ [61] ++ v) := by
    have hs : ∀ (x : Str) l, strings (x :: l) = x ++ [0] ++ strings l := fun x l => by simp [strings]
    simp only [List.flatMap_cons, keyOps_bytes, opBytes]
    rw [hs]
  have hr : reqHdr ⟨3, flags, seq, .checkpoint (some name) (some keys)⟩ = ⟨seq, 2, 3, flags⟩ := by
    simp [reqHdr, Nat.mod_eq_of_lt hs, Nat.mod_eq_of_lt hfl]
  refine ⟨(Hdr.mk seq 2 3 flags).bytes, dev, hdr_bytes_length _, fun rest => hdrOf_bytes _ _ hs (by show 2 < 256; decide) (by simp) hfl,
    hl, h1, h2, ?_⟩
  intro fresh wsched reply rsched file r sent h hnd
  have := (sent_spec hb fresh wsched reply rsched file).2 r sent h hnd
  rw [hflat, hr, ← List.append_assoc] at this
  exact this

/-- C61, other commands: only the header, or the header and the given memory. -/
theorem C61_plain_request_on_the_wire {env : List Str} {cmd seq flags n : Nat} {mem : List UInt8} (hs : seq < 2 ^ 64)
    (hfl : flags < 2 ^ 16) (hc : cmd < 256) (hf : flags.testBit 2 = true ∨ (cmd ≠ 5 ∧ cmd ≠ 3 ∧ n = 0)) :
    ∃ hdr, hdr.length = 12 ∧ (∀ rest, hdrOf (hdr ++ rest) = some ⟨seq, 2, cmd, flags⟩) ∧
      ∀ fresh wsched reply rsched file r sent,
        request env ⟨cmd, flags, seq, .unmodified (some mem) n⟩ fresh wsched reply rsched file = .ok r sent →
        .fail .ENODATA ∉ wsched → sent = frame (hdr ++ mem.take n) := by
  have hr : reqHdr ⟨cmd, flags, seq, .unmodified (some mem) n⟩ = ⟨seq, 2, cmd, flags⟩ := by
    simp [reqHdr, Nat.mod_eq_of_lt hs, Nat.mod_eq_of_lt hfl, Nat.mod_eq_of_lt hc]
  have hb : ∃ ops, bodyOps env ⟨cmd, flags, seq, .unmodified (some mem) n⟩ = .ok ops ∧ ops.flatMap opBytes = mem.take n := by
    by_cases h : flags.testBit 2 = true
    · by_cases hn : n > 0
      · exact ⟨[.add (mem.take n) false], by simp [bodyOps, h, hn], by simp [opBytes]⟩
      · exact ⟨[], by simp [bodyOps, h, hn], by simp [show n = 0 by omega]⟩
    · obtain ⟨h5, h3, h0⟩ := hf.resolve_left h
      exact ⟨[], by simp [bodyOps, h, cmdScan, cmdCheckpoint, h5, h3], by simp [h0]⟩
  obtain ⟨ops, hb, hflat⟩ := hb
  refine ⟨(Hdr.mk seq 2 cmd flags).bytes, hdr_bytes_length _, fun rest => hdrOf_bytes _ _ hs (by show 2 < 256; decide) hc hfl, ?_⟩
  intro fresh wsched reply rsched file r sent h hnd
  have := (sent_spec hb fresh wsched reply rsched file).2 r sent h hnd
  rw [hflat, hr] at this
  exact this

/-! ### C54 -/

theorem strings_cons (x : Str) (l : List Str) : strings (x :: l) = x ++ [0] ++ strings l := by simp [strings]

theorem fieldLoop_total (env : List Str) (hz : ∀ e ∈ env, 0 ∉ e) : ∀ acc, ∃ b l, fieldLoop (strings env) acc = some (b, l) := by
  induction env with
  | nil => intro acc; exact ⟨true, acc, by rw [show strings [] = [] from rfl, fieldLoop_nil]⟩
  | cons e l ih =>
    intro acc
    rw [strings_cons, fieldLoop_cons (hz e (by simp))]
    cases addField e with
    | none => exact ⟨_, _, rfl⟩
    | some kv => exact ih (fun x hx => hz x (by simp [hx])) _

theorem parse_dev {dev rest : List UInt8} (hl : dev.length = 8) (hr : rest ≠ []) :
    parseEnv (dev ++ rest) = (fieldLoop rest []).map fun r =>
      .ok (majorOf (BitVec.ofNat 64 (number dev)), minorOf (BitVec.ofNat 64 (number dev)), r.1, r.2) := by
  have h0 : 0 < rest.length := List.length_pos_iff.mpr hr
  unfold parseEnv
  rw [if_neg (by simp; omega)]
  simp only [leNat_number]
  rw [show (dev ++ rest).take 8 = dev by rw [← hl]; simp, show (dev ++ rest).drop 8 = rest by rw [← hl]; simp]

theorem strings_ne {env : List Str} (h : env ≠ []) : strings env ≠ [] := by
  cases env with
  | nil => exact absurd rfl h
  | cons e l => rw [strings_cons]; simp

/-- C54, for the device numbers the client accepts (major below 2^20, minor below 2^12; the kernel's minors go up to
    2^20 - 1): a successful scan request has sent a message from which the daemon takes the same device number.
    Missing for the full claim: minors from 4096 on. -/
theorem C54_device_number_accepted_partial {env : List Str} {M m seq flags : Nat} {data : ReqData}
    (hf : flags.testBit 2 = false) (hs : seq < 2 ^ 64) (hfl : flags < 2 ^ 16) (hz : ∀ e ∈ env, 0 ∉ e)
    (hM : valueOf env (txt "MAJOR") = some (decimal M)) (hM' : M < 2 ^ 20)
    (hm : valueOf env (txt "MINOR") = some (decimal m)) (hm' : m < 2 ^ 12) :
    ∃ hdr body, hdr.length = 12 ∧
      (∀ fresh, ∃ b, message env ⟨5, flags, seq, data⟩ fresh = .ok b) ∧
      (∀ fresh wsched reply rsched file r sent, request env ⟨5, flags, seq, data⟩ fresh wsched reply rsched file = .ok r sent →
        .fail .ENODATA ∉ wsched → sent = frame (hdr ++ body)) ∧
      ∃ all vars, parseEnv body = some (.ok (BitVec.ofNat 32 M, BitVec.ofNat 32 m, all, vars)) := by
  obtain ⟨hdr, dev, h1, -, h3, h4, h5, h6⟩ := C61_scan_request_on_the_wire (data := data) hf hs hfl hM hM' hm hm'
  refine ⟨hdr, dev ++ strings env, h1, ?_, ?_, ?_⟩
  · intro fresh
    obtain ⟨dev, hd, -⟩ := devt_ok hM hM' hm hm'
    obtain ⟨b, hb, -⟩ := (message_spec (env := env) (req := ⟨5, flags, seq, data⟩) (fresh := fresh)).2
      (.add dev false :: env.map fun kv => .add (kv ++ [0]) false) (by simp [bodyOps, hf, cmdScan, scanOps, hd])
    exact ⟨b, hb⟩
  · intro fresh wsched reply rsched file r sent h hnd
    rw [← List.append_assoc]
    exact (h6 fresh wsched reply rsched file).2 r sent h hnd
  · have hne : env ≠ [] := by rintro rfl; simp [valueOf] at hM
    obtain ⟨b, l, hfl⟩ := fieldLoop_total env hz []
    exact ⟨b, l, by rw [parse_dev h3 (strings_ne hne), hfl, h4, h5]; rfl⟩

/-- C54 is false from minor 4096 on: the limits of major and minor are swapped, and the request is refused with -ERANGE
    without sending anything. -/
theorem C54_large_minor_refused_counterexample {env : List Str} {M m seq flags : Nat} {data : ReqData}
    (hf : flags.testBit 2 = false)
    (hM : valueOf env (txt "MAJOR") = some (decimal M)) (hM' : M < 2 ^ 12)
    (hm : valueOf env (txt "MINOR") = some (decimal m)) (hm' : 2 ^ 12 ≤ m) (hm2 : m < 2 ^ 20)
    (fresh wsched reply rsched file) :
    request env ⟨5, flags, seq, data⟩ fresh wsched reply rsched file = .failed .ERANGE [] := by
  have hd : devtBytes env = .error .ERANGE := by
    simp only [devtBytes, envGetUll_decimal hM (by omega : M < 2 ^ 64), envGetUll_decimal hm (by omega : m < 2 ^ 64)]
    rw [if_neg (by simp only [maxMajor]; omega)]
    simp only
    rw [if_pos (by simp only [maxMinor]; omega)]
  have : message env ⟨5, flags, seq, data⟩ fresh = .error .ERANGE :=
    (message_spec (fresh := fresh)).1 _ (by simp [bodyOps, hf, cmdScan, scanOps, hd])
  simp [request, this]

/-- C54.  Numbers the library cannot have meant are refused before anything is sent: majors of more than 20 bits, and, with any
    other major, minors of more than 12 bits. -/
theorem C54_out_of_range_refused {env : List Str} {M m seq flags : Nat} {data : ReqData} (hf : flags.testBit 2 = false)
    (hM : valueOf env (txt "MAJOR") = some (decimal M)) (hm : valueOf env (txt "MINOR") = some (decimal m))
    (h1 : M < 2 ^ 64) (h2 : m < 2 ^ 64) (h : 2 ^ 20 ≤ M ∨ 2 ^ 12 ≤ m) (fresh wsched reply rsched file) :
    request env ⟨5, flags, seq, data⟩ fresh wsched reply rsched file = .failed .ERANGE [] := by
  have hd : devtBytes env = .error .ERANGE := by
    simp only [devtBytes, envGetUll_decimal hM h1, envGetUll_decimal hm h2]
    by_cases hM' : 2 ^ 20 ≤ M
    · rw [if_pos (by simp only [maxMajor]; omega)]
    · rw [if_neg (by simp only [maxMajor]; omega)]
      simp only
      rw [if_pos (by simp only [maxMinor]; omega)]
  have : message env ⟨5, flags, seq, data⟩ fresh = .error .ERANGE :=
    (message_spec (fresh := fresh)).1 _ (by simp [bodyOps, hf, cmdScan, scanOps, hd])
  simp [request, this]

theorem decimal_8 : decimal 8 = txt "8" := by rw [decimal]; decide
theorem decimal_17 : decimal 17 = txt "17" := by rw [decimal, decimal]; decide
theorem decimal_5000 : decimal 5000 = txt "5000" := by rw [decimal, decimal, decimal, decimal]; decide

/-- 8:17 meets the hypotheses of the first theorem, 8:5000 those of the second -/
example : valueOf [txt "ACTION=add", txt "MAJOR=8", txt "MINOR=17"] (txt "MAJOR") = some (decimal 8) ∧
    valueOf [txt "ACTION=add", txt "MAJOR=8", txt "MINOR=17"] (txt "MINOR") = some (decimal 17) ∧
    valueOf [txt "MAJOR=8", txt "MINOR=5000"] (txt "MINOR") = some (decimal 5000) := by
  rw [decimal_8, decimal_17, decimal_5000]
  decide

/-! ### C62 -/

/-- C62.  What the daemon makes of the environment in a scan request: if every variable has a value, all variables, in
    order; otherwise exactly those before the first variable without a value (see the counterexample).  A request without any
    variable is refused. -/
theorem C62_environment_imported_partial {dev : List UInt8} {pre : List (Str × Str × Str)} (hl : dev.length = 8)
    (hn : ∀ x ∈ pre, Named x.1 x.2.1 x.2.2 ∧ 0 ∉ x.1) :
    (pre ≠ [] → parseEnv (dev ++ strings (pre.map (·.1))) =
      some (.ok (majorOf (BitVec.ofNat 64 (number dev)), minorOf (BitVec.ofNat 64 (number dev)), true, pre.map (·.2)))) ∧
    (∀ bad post, 0 ∉ bad → (∀ n v, ¬ Named bad n v) →
      parseEnv (dev ++ strings (pre.map (·.1) ++ bad :: post)) =
        some (.ok (majorOf (BitVec.ofNat 64 (number dev)), minorOf (BitVec.ofNat 64 (number dev)), false, pre.map (·.2)))) ∧
    (∀ m : List UInt8, m.length ≤ 8 → parseEnv m = some (.error .EINVAL)) := by
  have key : ∀ (pre : List (Str × Str × Str)) (rest : List UInt8) acc, (∀ x ∈ pre, Named x.1 x.2.1 x.2.2 ∧ 0 ∉ x.1) →
      fieldLoop (strings (pre.map (·.1)) ++ rest) acc = fieldLoop rest (acc ++ pre.map (·.2)) := by
    intro pre
    induction pre with
    | nil => intro rest acc _; simp [strings]
    | cons x pre ih =>
      intro rest acc h
      obtain ⟨h1, h2⟩ := h x (by simp)
      rw [List.map_cons, strings_cons, List.append_assoc, fieldLoop_cons h2, addField_named h1]
      simp only
      rw [ih rest _ fun y hy => h y (by simp [hy])]
      simp
  refine ⟨?_, ?_, fun m hm => by rw [parseEnv, if_pos hm]⟩
  · intro hne
    rw [parse_dev hl (strings_ne (by simpa using hne))]
    have := key pre [] [] hn
    simp only [List.append_nil, List.nil_append, fieldLoop_nil] at this
    rw [this]; rfl
  · intro bad post hb hbad
    rw [parse_dev hl (strings_ne (by simp))]
    have hs : strings (pre.map (·.1) ++ bad :: post) = strings (pre.map (·.1)) ++ (bad ++ [0] ++ strings post) := by
      simp [strings]
    rw [hs, key pre _ [] hn, fieldLoop_cons hb, addField_none hbad]
    rfl

/-- C62 is false as stated: one variable with an empty value makes the daemon lose all variables that follow it, here
    the sequence number. -/
theorem C62_empty_value_counterexample :
    parseEnv (List.replicate 8 0 ++ strings [txt "A=1", txt "B=", txt "SEQNUM=5"]) =
      some (.ok (0, 0, false, [(txt "A", txt "1")])) := by
  have h := (C62_environment_imported_partial (dev := List.replicate 8 0) (pre := [(txt "A=1", txt "A", txt "1")])
    (by decide) (by intro x hx; simp at hx; subst hx; exact ⟨⟨by decide, by decide, by decide⟩, by decide⟩)).2.1
    (txt "B=") [txt "SEQNUM=5"] (by decide) ?_
  · exact h
  · rintro n v ⟨h1, h2, h3⟩
    have e : (n ++ [61]) ++ v = txt "B" ++ [61] := by rw [← h1]; decide
    cases hv : v.reverse with
    | nil => exact h3 (by simpa using hv)
    | cons a t =>
      have hv' : v = t.reverse ++ [a] := by rw [← List.reverse_reverse v, hv]; simp
      rw [hv', ← List.append_assoc] at e
      have := (List.append_inj' e rfl).1
      have hmem : (61 : UInt8) ∈ txt "B" := by rw [← this]; simp
      exact absurd hmem (by decide)

/-! ### C75 -/

/-- a reset message buffer is ready for a reply -/
theorem reply_reader {b : Buf} {c p rest : List UInt8} {fresh} {s : Stream} (F : Filling b c) (hd : s.data = frame p ++ rest) :
    LBuf.RInv (frame p) rest (LBuf.reset b fresh).1 s ∧ (LBuf.reset b fresh).1.used = 0 := by
  obtain ⟨r1, r2, r3, r4, r5, r6, r7⟩ := LBuf.reset_fields (b := b) (fresh := fresh) F.inv.room (.inl F.lim)
  refine ⟨LBuf.rinv_init (by rw [r1]; exact F.mode) (by rw [r2]; exact F.step) (.inl (by rw [r3]; exact F.lim)) r5 ?_ ?_ hd r6, r5⟩
  · rw [r7, r4, F.mode]; rfl
  · rw [r4, F.size]; omega

/-- C75.  A request whose message can be made up, to which the daemon sends a message with a header (and, for a database
    dump, passes a file made by it), does not fail unless a system call does: it succeeds, or the schedule given for the
    system calls ends first. -/
theorem C75_answered_request_does_not_fail {env : List Str} {req : Req} {fresh : Nat → UInt8} {b : Buf} {p rest : List UInt8}
    {closed : Bool} {wsched rsched file} (hm : message env req fresh = .ok b) (hp : 12 ≤ p.length) (hp' : p.length + 4 < 2 ^ 32)
    (hw : ∀ e, IoEv.fail e ∈ wsched → e = .EAGAIN ∨ e = .EINTR)
    (hr : ∀ e, IoEv.fail e ∈ rsched.map Prod.fst → e = .EAGAIN ∨ e = .EINTR)
    (h7 : req.cmd = 7 → ∃ q tail, file = .ok (frame q ++ tail) ∧ q.length + 4 < 2 ^ 32) :
    (∃ r sent, request env req fresh wsched ⟨frame p ++ rest, closed⟩ rsched file = .ok r sent) ∨
    (∃ sent, request env req fresh wsched ⟨frame p ++ rest, closed⟩ rsched file = .pending sent) := by
  obtain ⟨ops, hb⟩ : ∃ ops, bodyOps env req = .ok ops := by
    cases hb : bodyOps env req with
    | error e => rw [(message_spec (fresh := fresh)).1 e hb] at hm; cases hm
    | ok ops => exact ⟨ops, rfl⟩
  obtain ⟨b', hm', F⟩ := (message_spec (fresh := fresh)).2 ops hb
  rw [hm] at hm'
  cases hm'
  obtain ⟨-, w2, -⟩ := LBuf.writeAll_spec wsched b 0 [] F.inv (Nat.zero_le _) rfl
  unfold request
  rw [hm]
  simp only
  cases hwr : LBuf.writeAll b 0 [] wsched with
  | failed e out =>
    obtain ⟨h1, h2, h3, -⟩ := w2 e out hwr
    rcases hw e h1 with h | h
    · exact absurd h h2
    · exact absurd h h3
  | pending out => exact .inr ⟨out, rfl⟩
  | done out =>
    simp only [receive]
    obtain ⟨R, hu⟩ := reply_reader (fresh := fresh) (s := ⟨frame p ++ rest, closed⟩) F rfl
    have hfl := LBuf.frame_length p
    rcases LBuf.recvLoop_spec hp' rsched _ _ R (by omega) with ⟨b1, s1, h1, R1, hc⟩ | ⟨b1, s1, h1, -⟩ | ⟨e, b1, s1, h1, h2, h3, h4⟩
    · rw [h1]
      left
      obtain ⟨-, -, g3⟩ := LBuf.complete_content R1 hc
      have hcount : LBuf.count b1 = p.length := by
        unfold LBuf.count
        rw [R1.mode, hc, hfl]
        simp [LBuf.pfxLen]
        try omega
      simp only [finish, hcount, show cmdDbdump = 7 from rfl]
      rw [if_neg (by omega)]
      by_cases hc7 : req.cmd = 7
      · obtain ⟨q, tail, rfl, hq⟩ := h7 hc7
        rw [if_pos hc7]
        simp only [mapShm_frame hq]
        exact ⟨_, _, rfl⟩
      · rw [if_neg hc7]
        exact ⟨_, _, rfl⟩
    · rw [h1]; exact .inr ⟨out, rfl⟩
    · rcases hr e h4 with h | h
      · exact absurd h h2
      · exact absurd h h3

/-- C75.  It succeeds once the system calls have taken the bytes of the request and given those of the reply, however many
    calls that takes. -/
theorem C75_answered_request_succeeds {env : List Str} {req : Req} {fresh : Nat → UInt8} {b : Buf} {p rest : List UInt8}
    {closed : Bool} {wsched rsched file} (hm : message env req fresh = .ok b) (hp : 12 ≤ p.length) (hp' : p.length + 4 < 2 ^ 32)
    (hw : ∀ e, IoEv.fail e ∈ wsched → e = .EAGAIN ∨ e = .EINTR)
    (hwn : b.used ≤ (wsched.filter fun ev => match ev with | .xfer k => decide (0 < k) | .fail _ => false).length)
    (hr : ∀ e, IoEv.fail e ∈ rsched.map Prod.fst → e = .EAGAIN ∨ e = .EINTR)
    (hrn : (frame p).length ≤ ((rsched.map Prod.fst).filter IoEv.moves).length)
    (h7 : req.cmd = 7 → ∃ q tail, file = .ok (frame q ++ tail) ∧ q.length + 4 < 2 ^ 32) :
    ∃ r sent, request env req fresh wsched ⟨frame p ++ rest, closed⟩ rsched file = .ok r sent := by
  rcases C75_answered_request_does_not_fail (rest := rest) (closed := closed) hm hp hp' hw hr h7 with h | ⟨sent, h⟩
  · exact h
  · exfalso
    obtain ⟨ops, hb⟩ : ∃ ops, bodyOps env req = .ok ops := by
      cases hb : bodyOps env req with
      | error e => rw [(message_spec (fresh := fresh)).1 e hb] at hm; cases hm
      | ok ops => exact ⟨ops, rfl⟩
    obtain ⟨b', hm', F⟩ := (message_spec (fresh := fresh)).2 ops hb
    rw [hm] at hm'
    cases hm'
    obtain ⟨out, ho⟩ := LBuf.writeAll_terminates wsched b 0 [] F.inv (Nat.zero_le _) hw (by omega)
    obtain ⟨R, hu⟩ := reply_reader (fresh := fresh) (s := ⟨frame p ++ rest, closed⟩) F rfl
    have hfl := LBuf.frame_length p
    obtain ⟨b1, s1, h1⟩ := LBuf.recvLoop_completes hp' rsched _ _ R (by omega) hr (by omega)
    unfold request at h
    rw [hm] at h
    simp only [ho, receive, h1, finish] at h
    split at h
    · cases h
    · split at h
      · split at h
        · cases h
        · split at h <;> cases h
      · cases h

/-- a scan of 8:17, answered with a bare header byte by byte -/
example : ∃ b, message [txt "MAJOR=8", txt "MINOR=17"] ⟨5, 0, 7, .none⟩ (fun _ => 0) = .ok b ∧ b.used = 41 ∧
    ∃ r sent, request [txt "MAJOR=8", txt "MINOR=17"] ⟨5, 0, 7, .none⟩ (fun _ => 0) (List.replicate 41 (.xfer 1))
      ⟨frame (Hdr.mk 0 2 4 0).bytes ++ [], true⟩ (List.replicate 16 (.xfer 1, fun _ => 0)) (.error .EBADF) = .ok r sent := by
  refine ⟨_, rfl, by decide +kernel, C75_answered_request_succeeds rfl (by decide) (by decide) ?_ ?_ ?_ ?_ (fun h => absurd h (by decide))⟩
  · intro e h; simp at h
  · decide +kernel
  · intro e h; simp at h
  · decide +kernel

/-! ### C63 -/

/-- C63.  A complete read, for every behaviour of the descriptor: success gives the next bytes of the stream in order,
    `len` of them, or fewer only at the end of the input; nothing beyond is consumed; failure only with an error the
    descriptor reported (interruptions are retried); as long as neither happens, fewer than `len` bytes were there. -/
theorem C63_read_all_exact (s : Stream) (len : Nat) (sched : List IoEv) :
    (∀ bs s', readAll s len [] sched = .done bs s' →
      s.data = bs ++ s'.data ∧ bs.length ≤ len ∧ (bs.length < len → s.closed = true ∧ bs = s.data)) ∧
    (∀ e, readAll s len [] sched = .failed e → .fail e ∈ sched ∧ e ≠ .EINTR ∧ e ≠ .EAGAIN) ∧
    (∀ bs s', readAll s len [] sched = .pending bs s' → s.data = bs ++ s'.data ∧ bs.length < len) := by
  obtain ⟨h1, h2, h3⟩ := readAll_spec sched s len []
  refine ⟨?_, h2, ?_⟩
  · intro bs s' h
    obtain ⟨k, k1, k2, k3, k4, k5⟩ := h1 bs s' h
    simp only [List.nil_append] at k2
    subst k2 k4
    refine ⟨by simp, by simp; omega, ?_⟩
    intro hlt
    simp only [List.length_take] at hlt
    obtain ⟨c1, c2⟩ := k5 (by omega)
    exact ⟨c1, by simp at c2; rw [List.take_of_length_le (by omega)]⟩
  · intro bs s' h
    obtain ⟨k, k1, k2, k3, k4⟩ := h3 bs s' h
    simp only [List.nil_append] at k3
    subst k3 k4
    exact ⟨by simp, by simp; omega⟩

example : readAll ⟨[1, 2, 3, 4, 5], false⟩ 4 [] [.xfer 1, .fail .EINTR, .xfer 9] = .done [1, 2, 3, 4] ⟨[5], false⟩ ∧
    readAll ⟨[1, 2, 3], true⟩ 4 [] [.xfer 1, .fail .EAGAIN, .xfer 9, .xfer 9] = .done [1, 2, 3] ⟨[], true⟩ := by decide

/-! ### C64 -/

/-- C64, presence.  An argument (a name without `=`) is found exactly if some word of the command line is the argument,
    alone or followed by `=` and a value. -/
theorem C64_argument_found_iff_present {arg line : Str} (ha : 61 ∉ arg) :
    getArgLoop arg false line = .ok (if (words line).any (isArg arg) then some none else none) := by
  rw [getArgLoop_spec arg false ha]
  cases h : (words line).find? (isArg arg) with
  | none =>
    have : (words line).any (isArg arg) = false := by
      rw [List.any_eq_false]; exact List.find?_eq_none.mp h
    simp [this]
  | some w =>
    have : (words line).any (isArg arg) = true :=
      List.any_eq_true.mpr ⟨w, List.mem_of_find?_eq_some h, List.find?_some h⟩
    simp [this]

/-- C64, value.  If the value is asked for, the first word that is the argument decides: -EINVAL if it has no value,
    otherwise the value is returned, but with the equals sign in front of it (see the counterexample). -/
theorem C64_argument_value_partial {arg line : Str} (ha : 61 ∉ arg) :
    ((words line).find? (isArg arg) = none → getArgLoop arg true line = .ok none) ∧
    ((words line).find? (isArg arg) = some arg → getArgLoop arg true line = .error .EINVAL) ∧
    (∀ v, (words line).find? (isArg arg) = some (arg ++ [61] ++ v) → getArgLoop arg true line = .ok (some (some ([61] ++ v)))) := by
  rw [getArgLoop_spec arg true ha]
  refine ⟨fun h => by rw [h], fun h => by rw [h]; simp, fun v h => ?_⟩
  rw [h]
  simp

/-- C64 is false as stated: the value of `nompath=off` comes out as `=off`. -/
theorem C64_value_has_equals_sign_counterexample :
    getArgLoop (txt "nompath") true (txt "quiet nompath=off ro") = .ok (some (some (txt "=off"))) :=
  (C64_argument_value_partial (by decide)).2.2 (txt "off") (by decide)

/-! ### C65 -/

/-- C65.  Numbers from the environment: a missing variable is -ENOKEY; a value of digits is accepted exactly if it is
    below 2^64 and in range (unless min = max, which means no range), with its decimal value; a value with a character
    other than digits, signs and white space is refused.  Missing for the full claim: values with signs or white space,
    and the empty value (see the counterexamples). -/
theorem C65_env_number_partial {env : List Str} {key : Str} (min max : Nat) :
    (valueOf env key = none → envGetUll env key min max = .error .ENOKEY) ∧
    (∀ n, valueOf env key = some (decimal n) → min ≠ max →
      envGetUll env key min max =
        if 2 ^ 64 ≤ n then .error .EINVAL else if min ≤ n ∧ n ≤ max then .ok n else .error .ERANGE) ∧
    (∀ s c, valueOf env key = some s → c ∈ s → isDigit c = false → isSpace c = false → c ≠ 43 → c ≠ 45 →
      envGetUll env key min max = .error .EINVAL) := by
  refine ⟨?_, ?_, ?_⟩
  · intro h; simp [envGetUll, getenv_eq, h]
  · intro n h hmm
    obtain ⟨h1, h2, h3⟩ := decimal_spec n
    simp only [envGetUll, getenv_eq, h, strtoull_digits h1 h2, h3]
    by_cases hn : 2 ^ 64 ≤ n
    · simp [hn]
    · simp only [hn, if_false]
      by_cases hr : min ≤ n ∧ n ≤ max
      · rw [if_neg (by simp), if_neg (by omega), if_pos hr]
      · rw [if_neg (by simp), if_pos ⟨hmm, by omega⟩, if_neg hr]
  · intro s c h hc h1 h2 h3 h4
    have hd : c ∈ s.dropWhile isSpace := by
      have := List.takeWhile_append_dropWhile (p := isSpace) (l := s)
      rw [← this] at hc
      rcases List.mem_append.mp hc with hc | hc
      · rw [mem_takeWhile_true hc] at h2; cases h2
      · exact hc
    have hs : c ∈ (takeSign (s.dropWhile isSpace)).2 := by
      generalize s.dropWhile isSpace = t at hd
      unfold takeSign
      split
      · simp only [List.mem_cons] at hd
        exact hd.resolve_left h4
      · simp only [List.mem_cons] at hd
        exact hd.resolve_left h3
      · exact hd
    have hr : c ∈ (takeSign (s.dropWhile isSpace)).2.dropWhile isDigit := by
      have := List.takeWhile_append_dropWhile (p := isDigit) (l := (takeSign (s.dropWhile isSpace)).2)
      rw [← this] at hs
      rcases List.mem_append.mp hs with hs | hs
      · rw [mem_takeWhile_true hs] at h1; cases h1
      · exact hs
    have hne : (strtoull s).2.2 ≠ [] := by
      unfold strtoull
      simp only
      split
      · intro h; simp only at h; rw [h] at hc; simp at hc
      · split <;> (intro h; simp only at h; rw [h] at hr; simp at hr)
    simp [envGetUll, getenv_eq, h, hne]

/-- C65 is false as stated: the empty value is taken as 0, and a minus sign wraps around. -/
theorem C65_empty_and_negative_counterexample :
    envGetUll [txt "N="] (txt "N") 0 100 = .ok 0 ∧ envGetUll [txt "N=-1"] (txt "N") 0 (2 ^ 64 - 1) = .ok (2 ^ 64 - 1) ∧
      envGetUll [txt "N=7"] (txt "N") 5 5 = .ok 7 := ⟨rfl, rfl, rfl⟩

end Sid.Props
