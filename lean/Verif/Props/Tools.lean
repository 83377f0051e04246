import Verif.Proof.Tools
import Verif.Props.UbrReply
import Verif.Props.FmtEnv
import Verif.Proof.UbrEvent
/-
C90: what `usid` tells udev about the daemon and passes on of its reply.  C91: what `sidctl` prints and its exit status.
-/
namespace Sid.Props
open Sid.Ifc Sid.Tools Sid.Spec.Client Sid.Spec.Frame Sid.Spec.Tools
open Sid.LBuf (Buf IoEv Stream)

theorem name_scan : nameToType (some (txt "scan")) = 5 := by decide
theorem name_checkpoint : nameToType (some (txt "checkpoint")) = 3 := by decide
theorem name_active : nameToType (some (txt "active")) = 2 := by decide
theorem name_version : nameToType (some (txt "version")) = 6 := by decide

theorem seqnum_ok {env : List Str} {n : Nat} (hn : n < 2 ^ 64) (h : valueOf env (txt "SEQNUM") = some (decimal n)) :
    Util.envGetUll env (txt "SEQNUM") 0 (2 ^ 64 - 1) = .ok n := by
  rw [Util.envGetUll_decimal h hn, if_neg (by omega)]

/-- the request of `usid scan` and `usid checkpoint` -/
theorem telling_ask {env : List Str} {v : Version} {args : List Str} (hn : Numbered env) (ht : Telling args) :
    ∃ req, usid env v args = .ask req envEnd ∧ req.cmd ≠ 7 ∧ ∃ ops, bodyOps env req = .ok ops := by
  obtain ⟨n, M, m, hn, hM, hm, e1, e2, e3⟩ := hn
  obtain ⟨dev, hd, -⟩ := devt_ok e2 hM e3 hm
  rcases ht with rfl | ⟨name, keys, rfl⟩
  · refine ⟨⟨5, 2, n, .none⟩, ?_, (by simp), ?_⟩
    · simp only [usid, usidRun, name_scan, usidScan, usidEnv, seqnum_ok hn e1, cmdScan]
    · exact ⟨_, by simp [bodyOps, cmdScan, scanOps, hd, show (2 : Nat).testBit 2 = false from rfl]; rfl⟩
  · refine ⟨⟨3, 2, n, .checkpoint (some name) (some keys)⟩, ?_, (by simp), ?_⟩
    · simp only [usid, usidRun, name_checkpoint, usidCheckpoint, usidEnv, seqnum_ok hn e1, cmdCheckpoint]
    · exact ⟨_, by simp [bodyOps, cmdScan, cmdCheckpoint, checkpointOps, hd, show (2 : Nat).testBit 2 = false from rfl]; rfl⟩

/-- the status told of an answered request -/
theorem answered_status {r : Rsl} {p : List UInt8} (h : Read r p) :
    answeredStatus r = some (if (Success p ∧ p.length ≠ 12) ∧ SameProtocol p then .active else .incompatible) := by
  unfold answeredStatus
  rw [h.data, h.prot, Option.map_some]
  by_cases h1 : Success p ∧ p.length ≠ 12
  · by_cases h2 : SameProtocol p
    · rw [if_pos h1, if_pos (show _ ∧ SameProtocol p from ⟨h1, h2⟩), show number ((p.drop 8).take 1) = 2 from h2]; rfl
    · rw [if_pos h1, if_neg (show ¬ (_ ∧ SameProtocol p) from fun h => h2 h.2)]
      have : ¬ number ((p.drop 8).take 1) = 2 := h2
      simp [this]
  · rw [if_neg h1, if_neg (show ¬ (_ ∧ SameProtocol p) from fun h => h1 h.1)]
    rfl

theorem length_of_payload {p : List UInt8} (h : 12 ≤ p.length) : p.length = 12 ↔ payload p = [] := by
  unfold payload
  rw [List.drop_eq_nil_iff]
  omega

/-- a reply with strings: what is printed -/
theorem env_answered {r : Rsl} {p : List UInt8} {l : List Str} (h : Read r p) (hp : 12 ≤ p.length) (hs : Success p)
    (hl : payload p = strings l) (h0 : ∀ s ∈ l, 0 ∉ s) :
    envAnswered r = .ended (lines l ++ txt "SID_STATUS=" ++ (if l ≠ [] ∧ SameProtocol p then txt "active" else txt "incompatible") ++ [10]) true := by
  have hne : p.length = 12 ↔ l = [] := by
    rw [length_of_payload hp, hl]
    constructor
    · intro h
      by_cases e : l = []
      · exact e
      · exact absurd h (strings_ne e)
    · rintro rfl; rfl
  have hpr : printEnv r = some (lines l, true) := by
    unfold printEnv
    rw [h.data]
    have hs' : number (p.take 8) % 2 = 0 := hs
    by_cases h12 : p.length = 12
    · rw [if_neg fun h => h.2 h12]
      simp only [noData, h.status, hs', hne.mp h12]
      rfl
    · rw [if_pos ⟨hs, h12⟩]
      simp only
      rw [show p.drop 12 = strings l from hl, print_strings l h0]
      rfl
  unfold envAnswered
  rw [answered_status h, hpr]
  by_cases hb : l ≠ [] ∧ SameProtocol p
  · rw [if_pos ⟨⟨hs, fun h => hb.1 (hne.mp h)⟩, hb.2⟩, if_pos hb]
    simp only [statusLine, Status.name, List.append_assoc]
  · rw [if_neg fun h => hb ⟨fun e => h.1.2 (hne.mpr e), h.2⟩, if_neg hb]
    simp only [statusLine, Status.name, List.append_assoc]

/-- an answered request of `usid scan` and `usid checkpoint` -/
theorem telling_answered {w : World} {v : Version} {args : List Str} {p : List UInt8} (hn : Numbered w.env) (ht : Telling args)
    (hc : Calm w) (hs : Sends w p) {out : Str} {ok : Bool} (h : ∀ r, Read r p → envAnswered r = .ended out ok) :
    Says w (usid w.env v args) out ok := by
  obtain ⟨req, e, h7, hb⟩ := telling_ask (v := v) hn ht
  unfold Says
  rw [e]
  rcases ifcReq_answered h7 hc hs hb with ⟨r, s, e', hr⟩ | ⟨s, e'⟩
  · left
    simp only [Plan.run, e', envEnd]
    exact h r hr
  · right
    simp only [Plan.run, e', envEnd]

/-- C90.  When the daemon answers a scan or a checkpoint with success and variables, in the protocol of the tool, however the
    socket splits the transfer: udev gets every variable on its line, in the order of the reply, then that the daemon is active,
    and the tool succeeds. -/
theorem C90_told {w : World} {v : Version} {args : List Str} {p : List UInt8} {l : List Str} (hn : Numbered w.env)
    (ht : Telling args) (hc : Calm w) (hs : Sends w p) (hok : Success p) (hp : SameProtocol p) (hl : payload p = strings l)
    (hne : l ≠ []) (h0 : ∀ s ∈ l, 0 ∉ s) : Says w (usid w.env v args) (lines l ++ txt "SID_STATUS=active\n") true := by
  refine telling_answered hn ht hc hs fun r hr => ?_
  rw [env_answered hr hs.2.1 hok hl h0, if_pos ⟨hne, hp⟩]
  simp only [List.append_assoc, End.ended.injEq, and_true, List.append_cancel_left_eq]
  decide

/-- C90.  When it answers that the command failed, nothing is passed on and the tool fails. -/
theorem C90_failed {w : World} {v : Version} {args : List Str} {p : List UInt8} (hn : Numbered w.env)
    (ht : Telling args) (hc : Calm w) (hs : Sends w p) (hok : ¬ Success p) :
    Says w (usid w.env v args) (txt "SID_STATUS=incompatible\n") false := by
  refine telling_answered hn ht hc hs fun r hr => ?_
  have h1 : printEnv r = some ([], false) := by
    unfold printEnv
    rw [hr.data, if_neg fun h => hok h.1]
    simp only [noData, hr.status]
    unfold Success at hok
    have : number (p.take 8) % 2 = 1 := by omega
    rw [this]; rfl
  unfold envAnswered
  rw [answered_status hr, h1, if_neg fun h => hok h.1.1]
  rfl

/-- C90 is false of replies without variables: a daemon that answers a checkpoint (whose reply is always a bare header) in the
    protocol of the tool and with success is called incompatible. -/
theorem C90_counterexample_no_data {w : World} {v : Version} {args : List Str} {p : List UInt8} (hn : Numbered w.env)
    (ht : Telling args) (hc : Calm w) (hs : Sends w p) (hok : Success p) (hl : payload p = []) :
    Says w (usid w.env v args) (txt "SID_STATUS=incompatible\n") true := by
  refine telling_answered hn ht hc hs fun r hr => ?_
  rw [env_answered (l := []) hr hs.2.1 hok hl (by simp), if_neg fun h => h.1 rfl]
  decide

/-- C90.  Variables of a daemon with another protocol are passed on nevertheless, followed by the status "incompatible". -/
theorem C90_other_protocol {w : World} {v : Version} {args : List Str} {p : List UInt8} {l : List Str} (hn : Numbered w.env)
    (ht : Telling args) (hc : Calm w) (hs : Sends w p) (hok : Success p) (hp : ¬ SameProtocol p) (hl : payload p = strings l)
    (h0 : ∀ s ∈ l, 0 ∉ s) : Says w (usid w.env v args) (lines l ++ txt "SID_STATUS=incompatible\n") true := by
  refine telling_answered hn ht hc hs fun r hr => ?_
  rw [env_answered hr hs.2.1 hok hl h0, if_neg fun h => hp h.2]
  simp only [List.append_assoc, End.ended.injEq, and_true, List.append_cancel_left_eq]
  decide

/-- C90.  Without a daemon: a scan or checkpoint says so and is no failure, and so is asking for the version (the version of the
    tool is printed); asking whether the daemon is active says so and fails. -/
theorem C90_no_daemon {w : World} (v : Version) (hr : w.refused = some .ECONNREFUSED) :
    (∀ args, Numbered w.env → Telling args → (usid w.env v args).run w = .ended (txt "SID_STATUS=inactive\n") true) ∧
    (usid w.env v [txt "active"]).run w = .ended (txt "SID_STATUS=inactive\n") false ∧
    (usid w.env v [txt "version"]).run w = .ended
      (txt "USID_IFC_PROTOCOL=2\nUSID_MAJOR=" ++ decimal v.major ++ txt "\nUSID_MINOR=" ++ decimal v.minor ++ txt "\nUSID_RELEASE=" ++
        decimal v.release ++ txt "\nSID_STATUS=inactive\n") true := by
  have h6 : ∀ n, ∃ ops, bodyOps w.env ⟨6, 2, n, .none⟩ = .ok ops := fun n =>
    ⟨[], by simp [bodyOps, cmdScan, cmdCheckpoint, show (2 : Nat).testBit 2 = false from rfl]⟩
  refine ⟨fun args hn ht => ?_, ?_, ?_⟩
  · obtain ⟨req, e, h7, hb⟩ := telling_ask (v := v) hn ht
    rw [e]
    simp only [Plan.run, ifcReq_gone hb hr, envEnd]
    decide
  · simp only [usid, usidRun, name_active, usidActive, Plan.run, ifcReq_gone (h6 _) hr, activeEnd]
    decide
  · simp only [usid, usidRun, name_version, usidVersion, Plan.run, ifcReq_gone (h6 _) hr, versionEnd]
    rw [show (failedStatus .ECONNREFUSED) = .inactive from rfl]
    simp only [ownVersion, numLine, dec_eq_decimal, End.ended.injEq, List.append_assoc]
    refine ⟨?_, rfl⟩
    have e1 : txt "USID_IFC_PROTOCOL=2\nUSID_MAJOR=" = txt "USID_IFC_PROTOCOL" ++ ([61] ++ (decimal 2 ++ ([10] ++ (txt "USID_MAJOR" ++ [61])))) := by
      decide +kernel
    have e2 : txt "\nUSID_MINOR=" = [10] ++ (txt "USID_MINOR" ++ [61]) := by decide
    have e3 : txt "\nUSID_RELEASE=" = [10] ++ (txt "USID_RELEASE" ++ [61]) := by decide
    have e4 : txt "\nSID_STATUS=inactive\n" = [10] ++ statusLine .inactive := by decide
    rw [e1, e2, e3, e4]
    simp only [List.append_assoc]

/-! ### what the status means -/

/-- only one status is at the end of an output -/
theorem status_unique {a b : Str} {s t : Status} (h : a ++ statusLine s = b ++ statusLine t) : s = t := by
  have e : ∀ (x : Str) u, (x ++ statusLine u).reverse.take 9 = (statusLine u).reverse.take 9 := by
    intro x u
    rw [List.reverse_append, List.take_append_of_le_length]
    cases u <;> decide
  have := e a s
  rw [h, e b t] at this
  revert this
  cases s <;> cases t <;> decide

/-- all that can come of a request of `usid`; `strict`: success of the tool means success of the command -/
def Came (w : World) (req : Req) (out : Str) (ok : Bool) (strict : Prop) : Prop :=
  (∃ e s f, ifcReq w req = .failed e s ∧ out = f ++ statusLine (failedStatus e) ∧ (ok = true → failedStatus e = .inactive)) ∨
  (∃ p f, Sends w p ∧
    out = f ++ statusLine (if (Success p ∧ p.length ≠ 12) ∧ SameProtocol p then .active else .incompatible) ∧
    ((Success p ∧ p.length ≠ 12) → ok = true) ∧ (strict → ok = true → Success p))

theorem env_came {w : World} {req : Req} {out : Str} {ok : Bool} (h7 : req.cmd ≠ 7) (h : envEnd (ifcReq w req) = .ended out ok) :
    Came w req out ok True := by
  cases hi : ifcReq w req with
  | pending s => rw [hi] at h; cases h
  | failed e s =>
    rw [hi] at h
    simp only [envEnd, End.ended.injEq] at h
    exact .inl ⟨e, s, [], hi, by rw [← h.1]; rfl, fun ho => by rw [← h.2] at ho; simpa using ho⟩
  | ok r s =>
    obtain ⟨p, hs, hr⟩ := ifcReq_ok h7 hi
    rw [hi] at h
    simp only [envEnd, envAnswered, answered_status hr] at h
    right
    unfold printEnv at h
    rw [hr.data] at h
    by_cases hc : Success p ∧ p.length ≠ 12
    · rw [if_pos hc] at h
      simp only at h
      cases hp : Ubr.printFrom [] (p.drop 12) with
      | none => rw [hp] at h; cases h
      | some t =>
        rw [hp] at h
        simp only [Option.map_some, End.ended.injEq] at h
        exact ⟨p, t, hs, h.1.symm, fun _ => h.2.symm, fun _ _ => hc.1⟩
    · rw [if_neg hc] at h
      simp only [End.ended.injEq] at h
      refine ⟨p, [], hs, h.1.symm, fun h => absurd h hc, fun _ ho => ?_⟩
      rw [← h.2] at ho
      simp only [noData, hr.status] at ho
      exact eq_of_beq ho

theorem active_came {w : World} {req : Req} {out : Str} {ok : Bool} (h7 : req.cmd ≠ 7) (h : activeEnd (ifcReq w req) = .ended out ok) :
    Came w req out ok False := by
  cases hi : ifcReq w req with
  | pending s => rw [hi] at h; cases h
  | failed e s =>
    rw [hi] at h
    simp only [activeEnd, End.ended.injEq] at h
    exact .inl ⟨e, s, [], hi, by rw [← h.1]; rfl, fun ho => by rw [← h.2] at ho; cases ho⟩
  | ok r s =>
    obtain ⟨p, hs, hr⟩ := ifcReq_ok h7 hi
    rw [hi] at h
    simp only [activeEnd, answered_status hr, End.ended.injEq] at h
    exact .inr ⟨p, [], hs, h.1.symm, fun _ => h.2.symm, fun h => h.elim⟩

theorem version_came {w : World} {req : Req} {v : Version} {out : Str} {ok : Bool} (h7 : req.cmd ≠ 7)
    (h : versionEnd v (ifcReq w req) = .ended out ok) : Came w req out ok True := by
  cases hi : ifcReq w req with
  | pending s => rw [hi] at h; cases h
  | failed e s =>
    rw [hi] at h
    simp only [versionEnd, End.ended.injEq] at h
    exact .inl ⟨e, s, _, hi, h.1.symm, fun ho => by rw [← h.2] at ho; simpa using ho⟩
  | ok r s =>
    obtain ⟨p, hs, hr⟩ := ifcReq_ok h7 hi
    rw [hi] at h
    simp only [versionEnd, versionAnswered, answered_status hr, hr.data] at h
    right
    by_cases hc : Success p ∧ p.length ≠ 12
    · simp only [if_pos hc] at h
      cases hp : cstring (p.drop 12) with
      | none => rw [hp] at h; cases h
      | some t =>
        rw [hp] at h
        simp only [End.ended.injEq] at h
        exact ⟨p, ownVersion v ++ t, hs, h.1.symm, fun _ => h.2.symm, fun _ _ => hc.1⟩
    · simp only [if_neg hc] at h
      simp only [End.ended.injEq] at h
      refine ⟨p, ownVersion v, hs, h.1.symm, fun h => absurd h hc, fun _ ho => ?_⟩
      rw [← h.2] at ho; cases ho

theorem name_of {a : Str} {c : Nat} (h : nameToType (some a) = c) (hc : c ≠ 1) : typeToName c = some a := by
  obtain ⟨-, h1, h2, -⟩ := C53_command_names_one_to_one
  by_cases he : ∃ c', typeToName c' = some a
  · obtain ⟨c', he⟩ := he
    rw [← h, h1 c' a he]
    exact he
  · exact absurd ((h2 a fun c' hc' => he ⟨c', hc'⟩).symm.trans h).symm hc

/-- all that can come of `usid` -/
theorem usid_ended {w : World} {v : Version} {args : List Str} {out : Str} {ok : Bool}
    (h : (usid w.env v args).run w = .ended out ok) :
    (out = [] ∧ ok = false) ∨ (out = statusLine .error ∧ ok = false) ∨
    ∃ req, req.cmd ≠ 7 ∧ Came w req out ok (args.head? ≠ some (txt "active")) := by
  have weak : ∀ {req P}, Came w req out ok True → Came w req out ok P := by
    rintro req P (h | ⟨p, f, h1, h2, h3, h4⟩)
    · exact .inl h
    · exact .inr ⟨p, f, h1, h2, h3, fun _ => h4 trivial⟩
  have henv : ∀ cmd data, cmd ≠ 7 → (usidEnv w.env cmd data).run w = .ended out ok →
      (out = statusLine .error ∧ ok = false) ∨ ∃ req, req.cmd ≠ 7 ∧ Came w req out ok True := by
    intro cmd data h7 h
    unfold usidEnv at h
    split at h
    · simp only [Plan.run, End.ended.injEq] at h
      exact .inl ⟨h.1.symm, h.2.symm⟩
    · exact .inr ⟨_, h7, env_came h7 h⟩
  cases args with
  | nil => cases h; exact .inl ⟨rfl, rfl⟩
  | cons a rest =>
    change (usidRun w.env v rest (nameToType (some a))).run w = _ at h
    generalize hc : nameToType (some a) = c at h
    unfold usidRun at h
    split at h
    · have ha : a = txt "active" := by
        have := name_of hc (by decide)
        exact (Option.some.inj this).symm
      refine .inr (.inr ⟨⟨6, 2, seqOrZero w.env, .none⟩, by simp, ?_⟩)
      rcases active_came (by simp) h with r | ⟨p, f, h1, h2, h3, -⟩
      · exact .inl r
      · exact .inr ⟨p, f, h1, h2, h3, fun h => absurd (by rw [ha]; rfl) h⟩
    · cases rest with
      | nil => cases h; exact .inr (.inl ⟨rfl, rfl⟩)
      | cons name keys =>
        rcases henv _ _ (by decide) h with r | ⟨req, r1, r2⟩
        · exact .inr (.inl r)
        · exact .inr (.inr ⟨req, r1, weak r2⟩)
    · rcases henv _ _ (by decide) h with r | ⟨req, r1, r2⟩
      · exact .inr (.inl r)
      · exact .inr (.inr ⟨req, r1, weak r2⟩)
    · exact .inr (.inr ⟨_, (by simp), weak (version_came (req := ⟨6, 2, seqOrZero w.env, .none⟩) (by simp) h)⟩)
    · cases h; exact .inl ⟨rfl, rfl⟩

/-- C90.  Whatever the daemon, the system and the environment do: when `usid` says that the daemon is active, the daemon was
    reached and sent a complete message with the protocol of the tool, saying success and with data; the tool succeeds then. -/
theorem C90_active_means {w : World} {v : Version} {args : List Str} {f : Str} {ok : Bool}
    (h : (usid w.env v args).run w = .ended (f ++ txt "SID_STATUS=active\n") ok) :
    ok = true ∧ ∃ p, Sends w p ∧ Success p ∧ SameProtocol p ∧ payload p ≠ [] := by
  have hl : txt "SID_STATUS=active\n" = statusLine .active := by decide
  rw [hl] at h
  rcases usid_ended h with ⟨r, -⟩ | ⟨r, -⟩ | ⟨req, h7, r | ⟨p, g, hs, ho, h1, -⟩⟩
  · simp [statusLine] at r
  · exact absurd (status_unique (b := []) r) (by decide)
  · obtain ⟨e, s, g, -, ho, -⟩ := r
    have := status_unique ho
    unfold failedStatus at this
    split at this
    · cases this
    · split at this <;> cases this
  · have := status_unique ho
    split at this
    · next hc => exact ⟨h1 hc.1, p, hs, hc.1.1, hc.2, fun hp => hc.1.2 ((length_of_payload hs.2.1).mpr hp)⟩
    · cases this

/-- C90.  When `usid` says that the daemon is inactive, the system reported for its socket that the connection is refused. -/
theorem C90_inactive_means {w : World} {v : Version} {args : List Str} {f : Str} {ok : Bool}
    (h : (usid w.env v args).run w = .ended (f ++ txt "SID_STATUS=inactive\n") ok) : Reported w .ECONNREFUSED := by
  have hl : txt "SID_STATUS=inactive\n" = statusLine .inactive := by decide
  rw [hl] at h
  rcases usid_ended h with ⟨r, -⟩ | ⟨r, -⟩ | ⟨req, h7, r | ⟨p, g, hs, ho, h1, -⟩⟩
  · simp [statusLine] at r
  · exact absurd (status_unique (b := []) r) (by decide)
  · obtain ⟨e, s, g, hi, ho, -⟩ := r
    have := status_unique ho
    unfold failedStatus at this
    split at this
    · next he => rw [he] at hi; exact ifcReq_refused h7 hi
    · split at this <;> cases this
  · have := status_unique ho
    split at this <;> cases this

/-- C90.  When the socket cannot be reached for another reason than a refused connection, the tool says "error" and fails, whatever it is
    asked to do. -/
theorem C90_cannot_connect {w : World} (v : Version) {e : Errno} (hr : w.refused = some e) (h1 : e ≠ .ECONNREFUSED) (h2 : e ≠ .EBADMSG) :
    (∀ args, Numbered w.env → Telling args → (usid w.env v args).run w = .ended (txt "SID_STATUS=error\n") false) ∧
    (usid w.env v [txt "active"]).run w = .ended (txt "SID_STATUS=error\n") false := by
  have h6 : ∀ n, ∃ ops, bodyOps w.env ⟨6, 2, n, .none⟩ = .ok ops := fun n =>
    ⟨[], by simp [bodyOps, cmdScan, cmdCheckpoint, show (2 : Nat).testBit 2 = false from rfl]⟩
  have hf : failedStatus e = .error := by simp [failedStatus, h1, h2]
  refine ⟨fun args hn ht => ?_, ?_⟩
  · obtain ⟨req, e, h7, hb⟩ := telling_ask (v := v) hn ht
    rw [e]
    simp only [Plan.run, ifcReq_gone hb hr, envEnd, hf]
    decide
  · simp only [usid, usidRun, name_active, usidActive, Plan.run, ifcReq_gone (h6 _) hr, activeEnd, hf]
    decide

/-- C90.  When `usid` says that the daemon is incompatible, the daemon sent a complete message that does not say success in the protocol of
    the tool with data, or something that is no message. -/
theorem C90_incompatible_means {w : World} {v : Version} {args : List Str} {f : Str} {ok : Bool}
    (h : (usid w.env v args).run w = .ended (f ++ txt "SID_STATUS=incompatible\n") ok) :
    (∃ p, Sends w p ∧ ¬ (Success p ∧ payload p ≠ [] ∧ SameProtocol p)) ∨ ∃ req s, ifcReq w req = .failed .EBADMSG s := by
  have hl : txt "SID_STATUS=incompatible\n" = statusLine .incompatible := by decide
  rw [hl] at h
  rcases usid_ended h with ⟨r, -⟩ | ⟨r, -⟩ | ⟨req, h7, r | ⟨p, g, hs, ho, h1, -⟩⟩
  · simp [statusLine] at r
  · exact absurd (status_unique (b := []) r) (by decide)
  · obtain ⟨e, s, g, hi, ho, -⟩ := r
    have := status_unique ho
    unfold failedStatus at this
    split at this
    · cases this
    · split at this
      · next he => exact .inr ⟨req, s, he ▸ hi⟩
      · cases this
  · have := status_unique ho
    split at this
    · cases this
    · next hc => exact .inl ⟨p, hs, fun ⟨a, b, c⟩ => hc ⟨⟨a, fun hp => b ((length_of_payload hs.2.1).mp hp)⟩, c⟩⟩

/-- C90.  The exit status: unless it was asked only whether the daemon is active, success of the tool means that the daemon
    reported success, or that the connection was refused. -/
theorem C90_success_means {w : World} {v : Version} {args : List Str} {out : Str} (ha : args.head? ≠ some (txt "active"))
    (h : (usid w.env v args).run w = .ended out true) : Reported w .ECONNREFUSED ∨ ∃ p, Sends w p ∧ Success p := by
  rcases usid_ended h with ⟨-, r⟩ | ⟨-, r⟩ | ⟨req, h7, r | ⟨p, g, hs, -, -, h2⟩⟩
  · cases r
  · cases r
  · obtain ⟨e, s, g, hi, -, ho⟩ := r
    have := ho rfl
    unfold failedStatus at this
    split at this
    · next he => rw [he] at hi; exact .inl (ifcReq_refused h7 hi)
    · split at this <;> cases this
  · exact .inr ⟨p, hs, h2 ha rfl⟩

theorem version_body (env : List Str) (c f n : Nat) (hc : c ≠ 5 ∧ c ≠ 3) (hf : f < 3) : ∃ ops, bodyOps env ⟨c, f, n, .none⟩ = .ok ops := by
  have : f.testBit 2 = false := by
    have : f = 0 ∨ f = 1 ∨ f = 2 := by omega
    rcases this with rfl | rfl | rfl <;> rfl
  exact ⟨[], by simp [bodyOps, cmdScan, cmdCheckpoint, this, hc.1, hc.2]⟩

/-- C90.  `usid active`: "active" if and only if the daemon answers in the protocol of the tool, with success and data; else, if
    it answers at all, "incompatible".  The tool succeeds whatever the answer is. -/
theorem C90_active_says {w : World} {v : Version} {p : List UInt8} (hc : Calm w) (hs : Sends w p) :
    Says w (usid w.env v [txt "active"])
      (if Success p ∧ SameProtocol p ∧ payload p ≠ [] then txt "SID_STATUS=active\n" else txt "SID_STATUS=incompatible\n") true := by
  unfold Says
  simp only [usid, usidRun, name_active, usidActive, Plan.run]
  rcases ifcReq_answered (req := ⟨6, 2, seqOrZero w.env, .none⟩) (by simp) hc hs (version_body _ _ _ _ (by decide) (by decide)) with
    ⟨r, s, e, hr⟩ | ⟨s, e⟩
  · left
    rw [e]
    simp only [activeEnd, answered_status hr, End.ended.injEq, and_true]
    have hl := length_of_payload hs.2.1
    by_cases h : Success p ∧ SameProtocol p ∧ payload p ≠ []
    · rw [if_pos h, if_pos ⟨⟨h.1, fun e => h.2.2 (hl.mp e)⟩, h.2.1⟩]
      decide
    · rw [if_neg h, if_neg fun h' => h ⟨h'.1.1, h'.2, fun e => h'.1.2 (hl.mpr e)⟩]
      decide
  · right
    rw [e]
    rfl

/-- C90.  `usid version`, answered with success and a text: the version of the tool, the text, and that the daemon is active. -/
theorem C90_version_says {w : World} {v : Version} {p rest : List UInt8} {t : Str} (hc : Calm w) (hs : Sends w p) (hok : Success p)
    (hp : SameProtocol p) (ht : payload p = t ++ 0 :: rest) (h0 : 0 ∉ t) :
    Says w (usid w.env v [txt "version"])
      (txt "USID_IFC_PROTOCOL=2\nUSID_MAJOR=" ++ decimal v.major ++ txt "\nUSID_MINOR=" ++ decimal v.minor ++ txt "\nUSID_RELEASE=" ++
        decimal v.release ++ txt "\n" ++ t ++ txt "SID_STATUS=active\n") true := by
  unfold Says
  simp only [usid, usidRun, name_version, usidVersion, Plan.run]
  rcases ifcReq_answered (req := ⟨6, 2, seqOrZero w.env, .none⟩) (by simp) hc hs (version_body _ _ _ _ (by decide) (by decide)) with
    ⟨r, s, e, hr⟩ | ⟨s, e⟩
  · left
    rw [e]
    have hl := length_of_payload hs.2.1
    have h12 : Success p ∧ p.length ≠ 12 := ⟨hok, fun e => by rw [hl, ht] at e; simp at e⟩
    have hcs : cstring (p.drop 12) = some t := by
      rw [show p.drop 12 = t ++ 0 :: rest from ht]
      unfold cstring
      rw [if_pos (by simp), Ubr.takeWhile_text h0]
    simp only [versionEnd, versionAnswered, answered_status hr, hr.data, if_pos h12, hcs]
    rw [if_pos ⟨h12, hp⟩]
    simp only [ownVersion, numLine, dec_eq_decimal, End.ended.injEq, List.append_assoc]
    refine ⟨?_, trivial⟩
    have e1 : txt "USID_IFC_PROTOCOL=2\nUSID_MAJOR=" = txt "USID_IFC_PROTOCOL" ++ ([61] ++ (decimal 2 ++ ([10] ++ (txt "USID_MAJOR" ++ [61])))) := by
      decide +kernel
    have e2 : txt "\nUSID_MINOR=" = [10] ++ (txt "USID_MINOR" ++ [61]) := by decide
    have e3 : txt "\nUSID_RELEASE=" = [10] ++ (txt "USID_RELEASE" ++ [61]) := by decide
    have e4 : txt "SID_STATUS=active\n" = statusLine .active := by decide
    have e5 : txt "\n" = [10] := by decide
    rw [e1, e2, e3, e4, e5]
    simp only [List.append_assoc]
  · right
    rw [e]
    rfl

/-- C90.  Other arguments: nothing is sent, nothing printed for udev, and the tool fails.  A checkpoint without a name and a scan
    or checkpoint without a sequence number send nothing either; they say "error" and fail. -/
theorem C90_misused (w : World) (v : Version) :
    (∀ args, (∀ c ∈ ["active", "checkpoint", "scan", "version"], args.head? ≠ some (txt c)) →
      (usid w.env v args).run w = .ended [] false ∧ (usid w.env v args).sent w = []) ∧
    (∀ args, args = [txt "checkpoint"] ∨ (Telling args ∧ valueOf w.env (txt "SEQNUM") = none) →
      (usid w.env v args).run w = .ended (txt "SID_STATUS=error\n") false ∧ (usid w.env v args).sent w = []) := by
  have he : txt "SID_STATUS=error\n" = statusLine .error := by decide
  constructor
  · intro args h
    cases args with
    | nil => exact ⟨rfl, rfl⟩
    | cons a rest =>
      simp only [usid]
      have hno : ∀ c n, typeToName c = some (txt n) → n ∈ ["active", "checkpoint", "scan", "version"] → c ≠ 1 →
          nameToType (some a) ≠ c := by
        intro c n hc hn h1 hh
        have := name_of hh h1
        rw [hc] at this
        exact h n hn (by rw [Option.some.inj this]; rfl)
      have h2 := hno 2 "active" rfl (by simp) (by decide)
      have h3 := hno 3 "checkpoint" rfl (by simp) (by decide)
      have h5 := hno 5 "scan" rfl (by simp) (by decide)
      have h6 := hno 6 "version" rfl (by simp) (by decide)
      generalize nameToType (some a) = c at h2 h3 h5 h6
      unfold usidRun
      split <;> first | contradiction | exact ⟨rfl, rfl⟩
  · rw [he]
    rintro args (rfl | ⟨ht, hn⟩)
    · simp only [usid, usidRun, name_checkpoint, usidCheckpoint]
      exact ⟨rfl, rfl⟩
    · have hg : Util.envGetUll w.env (txt "SEQNUM") 0 (2 ^ 64 - 1) = .error .ENOKEY := by
        simp [Util.envGetUll, Util.getenv_eq, hn]
      rcases ht with rfl | ⟨name, keys, rfl⟩
      · simp only [usid, usidRun, name_scan, usidScan, usidEnv, hg]
        exact ⟨rfl, rfl⟩
      · simp only [usid, usidRun, name_checkpoint, usidCheckpoint, usidEnv, hg]
        exact ⟨rfl, rfl⟩

/-- C90.  What `usid scan` sends: with a sequence number and a device number in its environment, the bytes sent are a beginning of
    one message with the sequence number, the protocol 2, the command 5, the format 2, the device number and the whole environment;
    when the daemon answers and the tool ends, all of it was sent. -/
theorem C90_scan_sends {w : World} {v : Version} {n M m : Nat} (hn : n < 2 ^ 64) (hM : M < 2 ^ 20) (hm : m < 2 ^ 12)
    (e1 : valueOf w.env (txt "SEQNUM") = some (decimal n)) (e2 : valueOf w.env (txt "MAJOR") = some (decimal M))
    (e3 : valueOf w.env (txt "MINOR") = some (decimal m)) :
    ∃ hdr dev, hdr.length = 12 ∧ (∀ rest, hdrOf (hdr ++ rest) = some ⟨n, 2, 5, 2⟩) ∧ dev.length = 8 ∧
      majorOf (BitVec.ofNat 64 (number dev)) = BitVec.ofNat 32 M ∧ minorOf (BitVec.ofNat 64 (number dev)) = BitVec.ofNat 32 m ∧
      (usid w.env v [txt "scan"]).sent w <+: frame (hdr ++ dev ++ strings w.env) ∧
      (∀ p, Calm w → Sends w p → (usid w.env v [txt "scan"]).run w ≠ .waiting →
        (usid w.env v [txt "scan"]).sent w = frame (hdr ++ dev ++ strings w.env)) := by
  obtain ⟨hdr, dev, h1, h2, h3, h4, h5, h6⟩ :=
    C61_scan_request_on_the_wire (data := .none) (flags := 2) (by rfl) hn (by decide) e2 hM e3 hm
  refine ⟨hdr, dev, h1, h2, h3, h4, h5, ?_⟩
  have ha : usid w.env v [txt "scan"] = .ask ⟨5, 2, n, .none⟩ envEnd := by
    simp only [usid, usidRun, name_scan, usidScan, usidEnv, seqnum_ok hn e1, cmdScan]
  have hb : ∃ ops, bodyOps w.env ⟨5, 2, n, .none⟩ = .ok ops := by
    obtain ⟨req, h, -, hb⟩ := telling_ask (v := v) ⟨n, M, m, hn, hM, hm, e1, e2, e3⟩ (.inl rfl)
    rw [ha] at h
    cases h
    exact hb
  obtain ⟨ops, hb'⟩ := hb
  obtain ⟨b, hmsg, -⟩ := (message_spec (fresh := w.fresh)).2 ops hb'
  obtain ⟨g1, g2⟩ := h6 w.fresh w.wsched w.reply w.rsched w.file
  rw [ha]
  constructor
  · simp only [Plan.sent, ifcReq, hmsg]
    cases w.refused with
    | some e => exact List.nil_prefix
    | none =>
      generalize request w.env _ _ _ _ _ _ = o at g1
      cases o <;> exact g1
  · intro p hc hs hw
    rcases ifcReq_answered (req := ⟨5, 2, n, .none⟩) (by simp) hc hs ⟨ops, hb'⟩ with ⟨r, s, e, -⟩ | ⟨s, e⟩
    · have e' := e
      simp only [ifcReq, hmsg, hs.1] at e'
      have hnd : IoEv.fail .ENODATA ∉ w.wsched := fun h => by
        rcases hc.1 _ h with h | h <;> cases h
      simp only [Plan.sent, e, taken]
      exact g2 r s e' hnd
    · exact absurd (by simp only [Plan.run, e, envEnd]) hw

/-- C90.  A scan or checkpoint the daemon answers comes to its end: after as many moving system calls as the messages have bytes
    at most. -/
theorem C90_ends {env : List Str} {v : Version} {args : List Str} (hn : Numbered env) (ht : Telling args) :
    ∃ k, ∀ w p, w.env = env → Calm w → Sends w p → k ≤ movesOut w.wsched → p.length + 4 ≤ movesIn w.rsched →
      (usid env v args).run w ≠ .waiting := by
  obtain ⟨req, e, h7, ops, hb⟩ := telling_ask (v := v) hn ht
  refine ⟨((reqHdr req).bytes ++ ops.flatMap opBytes).length + 4, ?_⟩
  intro w p he hc hs hk hk' hw
  subst he
  obtain ⟨b, hm, F⟩ := (message_spec (fresh := w.fresh)).2 ops hb
  obtain ⟨h1, h2, h3, rest, h4⟩ := hs
  have hr : w.reply = ⟨frame p ++ rest, w.reply.closed⟩ := by rw [← h4]
  have hu : b.used ≤ movesOut w.wsched := by
    have hcnt := LBuf.count_eq F.inv
    have hby : LBuf.bytes b = _ := F.bytes
    rw [hby] at hcnt
    have hmode := F.mode
    have hge := F.inv.ge
    unfold LBuf.count at hcnt
    rw [hmode] at hcnt hge
    simp only [LBuf.pfxLen] at hcnt hge
    rcases hge with h0 | hge
    · omega
    · rw [if_neg (by omega), if_neg (by omega)] at hcnt
      omega
  obtain ⟨r, s, h⟩ := C75_answered_request_succeeds (rest := rest) (closed := w.reply.closed) (file := w.file) hm h2 h3 hc.1 hu hc.2
    (by rw [LBuf.frame_length]; exact hk') (fun h => absurd h h7)
  rw [← hr] at h
  have hi : ifcReq w req = .ok r s := by
    unfold ifcReq
    rw [hm, h1]
    exact h
  rw [e] at hw
  simp only [Plan.run, hi, envEnd, envAnswered] at hw
  split at hw <;> cases hw

/-- C90 (partial: names without '=' and newline, values without newline, see C79).  From the variables set while a scan is served,
    the session identifier of the worker among them, to what udev reads: exactly those variables and that the daemon is active;
    the tool succeeds. -/
theorem C90_scan_end_to_end_partial {w : World} {v : Version} {c : Ubr.Ctx} {d : Str} {db0 db : Ubr.Db}
    {log : List (Str × Option Str)} {keys : List Str} {sid : Str}
    (hc : c.num = some d) (hd : Spec.UbrKey.Plain d) (hne : d ≠ []) (hf : Spec.Reply.Fresh db0) (hs : Spec.Reply.Serve c db0 db log)
    (he : Spec.Sync.Entries db keys)
    (hl : ∀ x ∈ log, 0 ∉ x.1 ∧ 61 ∉ x.1 ∧ 10 ∉ x.1 ∧ ∀ v, x.2 = some v → 10 ∉ v)
    (hsid : Spec.Reply.lastOf log (txt ".SID_SESSION_ID") = some (some sid)) (hsid' : sid ≠ [])
    (hn : Numbered w.env) (hcalm : Calm w)
    (hsend : ∀ o, Ubr.exportLoop { db := db } keys = some o → Sends w ((Hdr.mk 0 2 4 0).bytes ++ Ubr.replyText o.udev)) :
    ∃ t, Says w (usid w.env v [txt "scan"]) t true ∧ ∀ n x, (n, x) ∈ Spec.FmtEnv.assignments t ↔
      (Spec.Reply.lastOf log n = some (some x) ∧ x ≠ []) ∨ (n = txt "SID_STATUS" ∧ x = txt "active") := by
  obtain ⟨o, ho, -, hm, -⟩ := C79_reply_is_what_was_set hc hd hne hf hs he
  have ht := Ubr.told_serve hc hd hne hf hs
  have h0 : ∀ x ∈ o.udev, 0 ∉ x.1 ∧ 0 ∉ x.2 := fun x hx => by
    obtain ⟨hx, -⟩ := (hm x.1 x.2).mp hx
    exact ⟨(hl _ (lastOf_mem hx)).1, (ht.texts _ _ hx).1⟩
  have hne' : o.udev ≠ [] := fun e => by
    have := (hm _ _).mpr ⟨hsid, hsid'⟩
    rw [e] at this
    cases this
  have hlen : (Hdr.mk 0 2 4 0).bytes.length = 12 := rfl
  have e1 : ((Hdr.mk 0 2 4 0).bytes ++ Ubr.replyText o.udev).take 8 = (Hdr.mk 0 2 4 0).bytes.take 8 :=
    List.take_append_of_le_length (by rw [hlen]; omega)
  have e2 : (((Hdr.mk 0 2 4 0).bytes ++ Ubr.replyText o.udev).drop 8).take 1 = ((Hdr.mk 0 2 4 0).bytes.drop 8).take 1 := by
    rw [List.drop_append_of_le_length (by rw [hlen]; omega), List.take_append_of_le_length (by rw [List.length_drop, hlen]; omega)]
  have e3 : payload ((Hdr.mk 0 2 4 0).bytes ++ Ubr.replyText o.udev) = strings (o.udev.map fun x => x.1 ++ [61] ++ x.2) := by
    unfold payload
    rw [List.drop_append_of_le_length (by rw [hlen]; omega), show (Hdr.mk 0 2 4 0).bytes.drop 12 = [] from rfl, List.nil_append]
    unfold Ubr.replyText strings
    rw [List.flatMap_map]
    rfl
  have e4 : lines (o.udev.map fun x => x.1 ++ [61] ++ x.2) ++ txt "SID_STATUS=active\n" =
      (o.udev ++ [(txt "SID_STATUS", txt "active")]).flatMap assignLine := by
    unfold lines
    rw [List.flatMap_map, List.flatMap_append]
    congr 1
  refine ⟨_, C90_told hn (.inl rfl) hcalm (hsend o ho) ?_ ?_ e3 ?_ ?_, fun n x => ?_⟩
  · show number _ % 2 = 0
    rw [e1]; rfl
  · show number _ = 2
    rw [e2]; rfl
  · simpa using hne'
  · intro s hs
    obtain ⟨x, hx, rfl⟩ := List.mem_map.mp hs
    simp [h0 x hx]
  · rw [e4, assignments_lines]
    · rw [List.mem_append, hm, List.mem_singleton, Prod.mk.injEq]
    · intro a ha
      rcases List.mem_append.mp ha with ha | ha
      · obtain ⟨hx, -⟩ := (hm a.1 a.2).mp ha
        obtain ⟨-, a, b, c⟩ := hl _ (lastOf_mem hx)
        exact ⟨a, b, c _ rfl⟩
      · rw [List.mem_singleton.mp ha]
        decide

/-! ### sidctl -/

theorem getFormat_iff {f : Str} {n : Nat} : getFormat f = some n ↔ Format f n := by
  have key : ∀ w, Event.sameCase f w = true ↔ Spec.Event.SameWord f w := fun w => Event.sameCase_iff
  have d1 : (txt "json").map Spec.Event.small ≠ (txt "env").map Spec.Event.small := by decide
  have d2 : (txt "json").map Spec.Event.small ≠ (txt "table").map Spec.Event.small := by decide
  have d3 : (txt "env").map Spec.Event.small ≠ (txt "table").map Spec.Event.small := by decide
  have x1 : ∀ a b, Spec.Event.SameWord f a → Spec.Event.SameWord f b → a.map Spec.Event.small = b.map Spec.Event.small :=
    fun a b h1 h2 => h1.symm.trans h2
  unfold getFormat Format
  by_cases h1 : Spec.Event.SameWord f (txt "json")
  · rw [if_pos ((key _).mpr h1)]
    constructor
    · intro h; cases h; exact .inr (.inl ⟨h1, rfl⟩)
    · rintro (⟨h, rfl⟩ | ⟨h, rfl⟩ | ⟨h, rfl⟩)
      · exact absurd (x1 _ _ h1 h) d2
      · rfl
      · exact absurd (x1 _ _ h1 h) d1
  · rw [if_neg fun h => h1 ((key _).mp h)]
    by_cases h2 : Spec.Event.SameWord f (txt "env")
    · rw [if_pos ((key _).mpr h2)]
      constructor
      · intro h; cases h; exact .inr (.inr ⟨h2, rfl⟩)
      · rintro (⟨h, rfl⟩ | ⟨h, rfl⟩ | ⟨h, rfl⟩)
        · exact absurd (x1 _ _ h2 h) d3
        · exact absurd h h1
        · rfl
    · rw [if_neg fun h => h2 ((key _).mp h)]
      by_cases h3 : Spec.Event.SameWord f (txt "table")
      · rw [if_pos ((key _).mpr h3)]
        constructor
        · intro h; cases h; exact .inl ⟨h3, rfl⟩
        · rintro (⟨h, rfl⟩ | ⟨h, rfl⟩ | ⟨h, rfl⟩)
          · rfl
          · exact absurd h h1
          · exact absurd h h2
      · rw [if_neg fun h => h3 ((key _).mp h)]
        constructor
        · intro h; cases h
        · rintro (⟨h, rfl⟩ | ⟨h, rfl⟩ | ⟨h, rfl⟩)
          · exact absurd h h3
          · exact absurd h h1
          · exact absurd h h2

theorem formatOf_iff (l : List Str) : ∀ {n cur : Nat}, formatOf cur l = some n ↔
    (∀ g ∈ l, ∃ k, Format g k) ∧ ((l = [] ∧ n = cur) ∨ ∃ f, l.getLast? = some f ∧ Format f n) := by
  induction l with
  | nil =>
    intro n cur
    simp [formatOf, eq_comm]
  | cons g l ih =>
    intro n cur
    unfold formatOf
    cases hg : getFormat g with
    | none =>
      constructor
      · intro h; cases h
      · rintro ⟨h, -⟩
        obtain ⟨k, hk⟩ := h g (by simp)
        rw [getFormat_iff.mpr hk] at hg
        cases hg
    | some k =>
      have hk := getFormat_iff.mp hg
      simp only [ih]
      constructor
      · rintro ⟨h1, h2⟩
        refine ⟨fun x hx => ?_, .inr ?_⟩
        · rcases List.mem_cons.mp hx with rfl | hx
          · exact ⟨k, hk⟩
          · exact h1 x hx
        · rcases h2 with ⟨rfl, rfl⟩ | ⟨f, hf, h⟩
          · exact ⟨g, rfl, hk⟩
          · exact ⟨f, by rw [List.getLast?_cons, hf]; rfl, h⟩
      · rintro ⟨h1, h2⟩
        refine ⟨fun x hx => h1 x (by simp [hx]), ?_⟩
        rcases h2 with ⟨h, -⟩ | ⟨f, hf, h⟩
        · cases h
        · cases l with
          | nil =>
            obtain rfl : g = f := Option.some.inj hf
            left
            refine ⟨rfl, ?_⟩
            have := getFormat_iff.mpr h
            rw [hg] at this
            cases this; rfl
          | cons a l =>
            right
            exact ⟨f, by rw [← hf]; rfl, h⟩

theorem shows_run {ver : Plan} {f : Nat} {a : Str} {c : Nat} (h : Shows a c) : ctlRun ver f a = ctlCmd c f := by
  unfold ctlRun
  rcases h with ⟨rfl, rfl⟩ | ⟨rfl, rfl⟩ | ⟨rfl, rfl⟩ | ⟨rfl, rfl⟩ <;> rfl

theorem shows_sidctl {ver : Plan} {formats : List Str} {a : Str} {c n : Nat} (h : Shows a c) (hf : Chosen formats n) :
    sidctl ver formats [a] = ctlCmd c n := by
  unfold sidctl
  rw [(formatOf_iff formats).mpr hf]
  exact shows_run h

theorem format_lt {f : Str} {n : Nat} (h : Format f n) : n < 3 := by
  rcases h with ⟨-, rfl⟩ | ⟨-, rfl⟩ | ⟨-, rfl⟩ <;> decide

theorem chosen_lt {l : List Str} {n : Nat} (h : Chosen l n) : n < 3 := by
  rcases h.2 with ⟨-, rfl⟩ | ⟨f, -, h⟩
  · decide
  · exact format_lt h

theorem shows_body {env : List Str} {a : Str} {c n : Nat} (h : Shows a c) (hn : n < 3) : ∃ ops, bodyOps env ⟨c, n, 0, .none⟩ = .ok ops :=
  version_body env c n 0 (by rcases h with ⟨-, rfl⟩ | ⟨-, rfl⟩ | ⟨-, rfl⟩ | ⟨-, rfl⟩ <;> decide) hn

theorem cstring_text {d t rest : Str} (h : d = t ++ 0 :: rest) (h0 : 0 ∉ t) : cstring d = some t := by
  rw [h]
  unfold cstring
  rw [if_pos (by simp), Ubr.takeWhile_text h0]

/-- a list with a NUL in it: what is before the first one -/
theorem text_split (d : Str) (h : 0 ∈ d) :
    0 ∉ d.takeWhile (· ≠ 0) ∧ ∃ rest, d = d.takeWhile (· ≠ 0) ++ 0 :: rest := by
  induction d with
  | nil => cases h
  | cons b d ih =>
    by_cases hb : b = 0
    · subst hb
      simp
    · obtain ⟨h1, rest, h2⟩ := ih (by simpa [Ne.symm hb] using h)
      rw [List.takeWhile_cons_of_pos (by simpa using hb)]
      exact ⟨by simpa [Ne.symm hb] using h1, rest, by rw [List.cons_append, ← h2]⟩

/-- an answered request, a file passed where one is needed -/
theorem ctl_answered {w : World} {req : Req} {p : List UInt8} (hc : Calm w) (hs : Sends w p)
    (hm : ∃ ops, bodyOps w.env req = .ok ops) (h7 : req.cmd = 7 → ∃ q, Passes w q) :
    (∃ r s, ifcReq w req = .ok r s ∧ rslStatus r = some (number (p.take 8)) ∧
      (¬ Success p → rslData r = some none) ∧
      (Success p → req.cmd ≠ 7 → rslData r = some (if p.length = 12 then none else some (p.drop 12))) ∧
      ∀ q, Success p → req.cmd = 7 → Passes w q → q ≠ [] → rslData r = some (some q)) ∨
    ∃ s, ifcReq w req = .pending s := by
  obtain ⟨ops, hm⟩ := hm
  obtain ⟨b, hb, -⟩ := (message_spec (fresh := w.fresh)).2 ops hm
  have e : ifcReq w req = request w.env req w.fresh w.wsched w.reply w.rsched w.file := by
    unfold ifcReq
    rw [hb, hs.1]
  obtain ⟨h1, h2, h3, rest, h4⟩ := hs
  have hr : w.reply = ⟨frame p ++ rest, w.reply.closed⟩ := by rw [← h4]
  rcases C75_answered_request_does_not_fail (rest := rest) (closed := w.reply.closed) (file := w.file) hb h2 h3 hc.1 hc.2
    (fun h => by obtain ⟨q, g1, tail, g2⟩ := h7 h; exact ⟨q, tail, g2, g1⟩) with ⟨r, s, h⟩ | ⟨s, h⟩
  · left
    rw [← hr] at h
    obtain ⟨p', rest', a1, a2, a3, a4, -, a6, a7, a8⟩ := C53_result_is_the_reply h
    have := frame_unique a3 h3 (a1.symm.trans h4)
    subst this
    rw [← e] at h
    refine ⟨r, s, h, a4, fun hn => a6 (by unfold Success at hn; omega), a7, ?_⟩
    intro q hok hc7 hq hne
    obtain ⟨f, hf, hf'⟩ := a8 hok hc7
    obtain ⟨g1, tail, g2⟩ := hq
    rw [hf] at g2
    cases g2
    exact hf' q tail rfl hne g1
  · right
    rw [← hr, ← e] at h
    exact ⟨s, h⟩

/-- C91.  Statistics, resources, devices: when the daemon answers with success and a text, `sidctl` prints the text, all of it and
    nothing else, and succeeds, however the socket splits the transfer. -/
theorem C91_prints {w : World} {ver : Plan} {formats : List Str} {a : Str} {c n : Nat} {p t rest : List UInt8} (ha : Shows a c)
    (h7 : a ≠ txt "dbdump") (hf : Chosen formats n) (hc : Calm w) (hs : Sends w p) (hok : Success p)
    (ht : payload p = t ++ 0 :: rest) (h0 : 0 ∉ t) : Says w (sidctl ver formats [a]) t true := by
  have hc7 : c ≠ 7 := by
    rcases ha with ⟨rfl, rfl⟩ | ⟨-, rfl⟩ | ⟨-, rfl⟩ | ⟨-, rfl⟩
    · exact absurd rfl h7
    all_goals decide
  unfold Says
  rw [shows_sidctl ha hf]
  rcases ctl_answered hc hs (shows_body (n := n) ha (chosen_lt hf)) (fun h => absurd h hc7) with ⟨r, s, e, -, -, h, -⟩ | ⟨s, e⟩
  · left
    have hl := length_of_payload hs.2.1
    have h12 : p.length ≠ 12 := fun e => by rw [hl, ht] at e; simp at e
    have := h hok hc7
    rw [if_neg h12] at this
    simp only [ctlCmd, Plan.run, e, ctlEnd, ctlAnswered, this, cstring_text (show p.drop 12 = _ from ht) h0]
  · right
    simp only [ctlCmd, Plan.run, e, ctlEnd]

/-- C91.  The database is printed from the file the daemon passes. -/
theorem C91_prints_database {w : World} {ver : Plan} {formats : List Str} {n : Nat} {p q t rest : List UInt8}
    (hf : Chosen formats n) (hc : Calm w) (hs : Sends w p) (hok : Success p) (hq : Passes w q)
    (ht : q = t ++ 0 :: rest) (h0 : 0 ∉ t) : Says w (sidctl ver formats [txt "dbdump"]) t true := by
  have ha : Shows (txt "dbdump") 7 := .inl ⟨rfl, rfl⟩
  unfold Says
  rw [shows_sidctl ha hf]
  rcases ctl_answered hc hs (shows_body (n := n) ha (chosen_lt hf)) (fun _ => ⟨q, hq⟩) with ⟨r, s, e, -, -, -, h⟩ | ⟨s, e⟩
  · left
    have := h q hok rfl hq (by rw [ht]; simp)
    simp only [ctlCmd, Plan.run, e, ctlEnd, ctlAnswered, this, cstring_text ht h0]
  · right
    simp only [ctlCmd, Plan.run, e, ctlEnd]

/-- C91.  When the daemon answers that the command failed, nothing is printed and `sidctl` fails. -/
theorem C91_failed {w : World} {ver : Plan} {formats : List Str} {a : Str} {c n : Nat} {p : List UInt8} (ha : Shows a c)
    (hf : Chosen formats n) (hc : Calm w) (hs : Sends w p) (hok : ¬ Success p) (h7 : a = txt "dbdump" → ∃ q, Passes w q) :
    Says w (sidctl ver formats [a]) [] false := by
  unfold Says
  rw [shows_sidctl ha hf]
  rcases ctl_answered hc hs (shows_body (n := n) ha (chosen_lt hf)) (fun h => h7 (by
    rcases ha with ⟨rfl, -⟩ | ⟨-, rfl⟩ | ⟨-, rfl⟩ | ⟨-, rfl⟩
    · rfl
    all_goals cases h)) with ⟨r, s, e, hst, h, -⟩ | ⟨s, e⟩
  · left
    have h2 : number (p.take 8) % 2 = 1 := by unfold Success at hok; omega
    simp only [ctlCmd, Plan.run, e, ctlEnd, ctlAnswered, h hok, noData, hst, h2]
    rfl
  · right
    simp only [ctlCmd, Plan.run, e, ctlEnd]

/-- C91.  When the daemon cannot be reached, nothing is printed and `sidctl` fails. -/
theorem C91_no_daemon {w : World} {ver : Plan} {formats : List Str} {a : Str} {c n : Nat} {e : Errno} (ha : Shows a c)
    (hf : Chosen formats n) (hr : w.refused = some e) :
    (sidctl ver formats [a]).run w = .ended [] false ∧ (sidctl ver formats [a]).sent w = [] := by
  rw [shows_sidctl ha hf]
  have := ifcReq_gone (shows_body (n := n) ha (chosen_lt hf)) hr
  simp only [ctlCmd, Plan.run, Plan.sent, this, ctlEnd, taken]
  exact ⟨trivial, trivial⟩

/-- C91.  `sidctl` succeeds only if the daemon was reached and the whole of a reply came that says success; what was printed is
    then the text of that reply (for the database: of the file passed). -/
theorem C91_success_means {w : World} {ver : Plan} {formats : List Str} {a out : Str} {c n : Nat} (ha : Shows a c)
    (hf : Chosen formats n) (h : (sidctl ver formats [a]).run w = .ended out true) :
    ∃ p, Sends w p ∧ Success p ∧
      (a ≠ txt "dbdump" → (payload p = [] ∧ out = []) ∨ (0 ∉ out ∧ ∃ rest, payload p = out ++ 0 :: rest)) ∧
      (a = txt "dbdump" → ∀ q, Passes w q → q ≠ [] → 0 ∉ out ∧ ∃ rest, q = out ++ 0 :: rest) := by
  rw [shows_sidctl ha hf] at h
  simp only [ctlCmd, Plan.run] at h
  cases hr : ifcReq w ⟨c, n, 0, .none⟩ with
  | failed e s => rw [hr] at h; simp [ctlEnd] at h
  | pending s => rw [hr] at h; simp [ctlEnd] at h
  | ok r s =>
    rw [hr] at h
    simp only [ctlEnd] at h
    unfold ifcReq at hr
    cases hm : message w.env ⟨c, n, 0, .none⟩ w.fresh with
    | error e => rw [hm] at hr; cases hr
    | ok b =>
      rw [hm] at hr
      simp only at hr
      cases hfr : w.refused with
      | some e => rw [hfr] at hr; cases hr
      | none =>
        rw [hfr] at hr
        simp only at hr
        obtain ⟨p, rest, h1, h2, h3, h4, -, h6, h8, h9⟩ := C53_result_is_the_reply hr
        have hok : Success p := by
          by_cases hok : Success p
          · exact hok
          · have hodd : number (p.take 8) % 2 = 1 := by unfold Success at hok; omega
            simp [ctlAnswered, h6 hodd, noData, h4, hodd] at h
        have htext : ∀ d, rslData r = some (some d) → 0 ∉ out ∧ ∃ rest, d = out ++ 0 :: rest := by
          intro d hd
          unfold ctlAnswered at h
          rw [hd] at h
          simp only at h
          unfold cstring at h
          by_cases h0 : (0 : UInt8) ∈ d
          · rw [if_pos h0] at h
            simp only [End.ended.injEq, and_true] at h
            subst h
            exact text_split d h0
          · rw [if_neg h0] at h
            cases h
        have hc7 : a ≠ txt "dbdump" → c ≠ 7 := by
          intro h
          rcases ha with ⟨rfl, rfl⟩ | ⟨-, rfl⟩ | ⟨-, rfl⟩ | ⟨-, rfl⟩
          · exact absurd rfl h
          all_goals decide
        refine ⟨p, ⟨hfr, h2, h3, rest, h1⟩, hok, fun hne => ?_, fun he q hq hqne => ?_⟩
        · have hd := h8 hok (hc7 hne)
          by_cases h12 : p.length = 12
          · left
            refine ⟨(length_of_payload h2).mp h12, ?_⟩
            rw [if_pos h12] at hd
            unfold ctlAnswered at h
            rw [hd] at h
            simp only [End.ended.injEq] at h
            exact h.1.symm
          · right
            rw [if_neg h12] at hd
            exact htext _ hd
        · have : c = 7 := by
            rcases ha with ⟨-, rfl⟩ | ⟨h, -⟩ | ⟨h, -⟩ | ⟨h, -⟩
            · rfl
            all_goals (rw [he] at h; exact absurd h (by decide))
          obtain ⟨f, hf, hf'⟩ := h9 hok this
          obtain ⟨g1, tail, g2⟩ := hq
          rw [hf] at g2
          cases g2
          exact htext _ (hf' q tail rfl hqne g1)

/-- C91.  The request is a bare header with the command and the format chosen: of several formats the last one counts. -/
theorem C91_sends {w : World} {ver : Plan} {formats : List Str} {a : Str} {c n : Nat} (ha : Shows a c)
    (hf : Chosen formats n) :
    ∃ hdr, hdr.length = 12 ∧ hdrOf hdr = some ⟨0, 2, c, n⟩ ∧ (sidctl ver formats [a]).sent w <+: frame hdr ∧
      ∀ p, Calm w → Sends w p → (a = txt "dbdump" → ∃ q, Passes w q) → (sidctl ver formats [a]).run w ≠ .waiting →
        (sidctl ver formats [a]).sent w = frame hdr := by
  have hn := chosen_lt hf
  have hc : c < 256 ∧ c ≠ 5 ∧ c ≠ 3 := by rcases ha with ⟨-, rfl⟩ | ⟨-, rfl⟩ | ⟨-, rfl⟩ | ⟨-, rfl⟩ <;> decide
  have hbit : n.testBit 2 = false := by
    have : n = 0 ∨ n = 1 ∨ n = 2 := by omega
    rcases this with rfl | rfl | rfl <;> rfl
  have hb : bodyOps w.env ⟨c, n, 0, .none⟩ = .ok [] := by simp [bodyOps, cmdScan, cmdCheckpoint, hbit, hc.2]
  have hr : reqHdr ⟨c, n, 0, .none⟩ = ⟨0, 2, c, n⟩ := by
    simp [reqHdr, Nat.mod_eq_of_lt hc.1, Nat.mod_eq_of_lt (show n < 65536 by omega)]
  obtain ⟨g1, g2⟩ := sent_spec hb w.fresh w.wsched w.reply w.rsched w.file
  rw [hr] at g1 g2
  simp only [List.flatMap_nil, List.append_nil] at g1 g2
  obtain ⟨b, hmsg, -⟩ := (message_spec (fresh := w.fresh)).2 _ hb
  refine ⟨(Hdr.mk 0 2 c n).bytes, hdr_bytes_length _, ?_, ?_, ?_⟩
  · have := hdrOf_bytes (Hdr.mk 0 2 c n) [] (by show 0 < _; decide) (by show 2 < 256; decide) hc.1 (by show n < _; omega)
    simpa using this
  · rw [shows_sidctl ha hf]
    simp only [ctlCmd, Plan.sent, ifcReq, hmsg]
    cases w.refused with
    | some e => exact List.nil_prefix
    | none =>
      generalize request w.env _ _ _ _ _ _ = o at g1
      cases o <;> exact g1
  · intro p hcalm hs h7 hw
    rw [shows_sidctl ha hf] at hw ⊢
    rcases ctl_answered hcalm hs (shows_body (n := n) ha hn) (fun h => h7 (by
      rcases ha with ⟨rfl, -⟩ | ⟨-, rfl⟩ | ⟨-, rfl⟩ | ⟨-, rfl⟩
      · rfl
      all_goals cases h)) with ⟨r, s, e, -⟩ | ⟨s, e⟩
    · have e' := e
      simp only [ifcReq, hmsg, hs.1] at e'
      have hnd : IoEv.fail .ENODATA ∉ w.wsched := fun h => by
        rcases hcalm.1 _ h with h | h <;> cases h
      simp only [ctlCmd, Plan.sent, e, taken]
      exact g2 r s e' hnd
    · exact absurd (by simp only [ctlCmd, Plan.run, e, ctlEnd]) hw

/-- C91.  Used wrongly (not exactly one command, a command that does not exist or is none of `sidctl`, a format that does not
    exist among those given), `sidctl` fails and asks the daemon nothing. -/
theorem C91_misused {w : World} {ver : Plan} {formats args : List Str}
    (h : (∀ a, args ≠ [a]) ∨ (∃ a, args = [a] ∧ a ≠ txt "version" ∧ ∀ c, ¬ Shows a c) ∨ ∃ f ∈ formats, ∀ n, ¬ Format f n) :
    (sidctl ver formats args).run w = .ended [] false ∧ (sidctl ver formats args).sent w = [] := by
  have e : sidctl ver formats args = .stop (.ended [] false) := by
    unfold sidctl
    cases hf : formatOf 0 formats with
    | none => rfl
    | some k =>
      simp only
      rcases h with h | ⟨a, rfl, h1, h2⟩ | ⟨f, hf', h⟩
      · match args with
        | [] => rfl
        | [a] => exact absurd rfl (h a)
        | _ :: _ :: _ => rfl
      · simp only
        unfold ctlRun
        have hno : ∀ c n, typeToName c = some (txt n) → c ≠ 1 → a ≠ txt n → nameToType (some a) ≠ c := by
          intro c n hc h1 hn hh
          have := name_of hh h1
          rw [hc] at this
          exact hn (Option.some.inj this).symm
        rw [if_neg (hno 6 "version" rfl (by decide) h1), if_neg]
        rintro (h | h | h | h)
        · exact hno 7 "dbdump" rfl (by decide) (fun e => h2 7 (.inl ⟨e, rfl⟩)) h
        · exact hno 8 "dbstats" rfl (by decide) (fun e => h2 8 (.inr (.inl ⟨e, rfl⟩))) h
        · exact hno 9 "resources" rfl (by decide) (fun e => h2 9 (.inr (.inr (.inl ⟨e, rfl⟩)))) h
        · exact hno 10 "devices" rfl (by decide) (fun e => h2 10 (.inr (.inr (.inr ⟨e, rfl⟩)))) h
      · obtain ⟨k', hk'⟩ := ((formatOf_iff formats).mp hf).1 f hf'
        exact absurd hk' (h k')
  rw [e]
  exact ⟨rfl, rfl⟩

/-! ### examples -/

/-- the world of the examples: a device 8:17, a daemon that sends `p` and passes a file with `q`, system calls that move up to five
    bytes, one of them interrupted -/
def exWorld (p q : List UInt8) : World :=
  ⟨[txt "SEQNUM=7", txt "MAJOR=8", txt "MINOR=17"], none, fun _ => 0, .fail .EINTR :: List.replicate 70 (.xfer 5), ⟨frame p, false⟩,
    (.fail .EAGAIN, fun _ => 0) :: List.replicate 70 (.xfer 5, fun _ => 0), .ok (frame q)⟩

def exTold : List UInt8 := (Hdr.mk 0 2 4 0).bytes ++ strings [txt ".SID_SESSION_ID=1", txt "A=b"]
def exFailed : List UInt8 := (Hdr.mk 1 2 4 0).bytes
def exOther : List UInt8 := (Hdr.mk 0 3 4 0).bytes ++ strings [txt "A=b"]

/-- the hypotheses of the C90 and C91 theorems are met -/
theorem exWorld_calm (p q : List UInt8) : Calm (exWorld p q) := by
  constructor <;> intro e h <;> simp [exWorld] at h <;> simp [h]

theorem exWorld_numbered (p q : List UInt8) : Numbered (exWorld p q).env :=
  have h : Numbered [txt "SEQNUM=7", txt "MAJOR=8", txt "MINOR=17"] :=
    ⟨7, 8, 17, by decide, by decide, by decide, by decide +kernel, by decide +kernel, by decide +kernel⟩
  h

theorem exWorld_sends {p : List UInt8} (q : List UInt8) (h : 12 ≤ p.length) (h' : p.length + 4 < 2 ^ 32) : Sends (exWorld p q) p :=
  ⟨rfl, h, h', [], by simp [exWorld]⟩

example : Says (exWorld exTold []) (usid (exWorld exTold []).env ⟨0, 0, 9⟩ [txt "scan"])
    (txt ".SID_SESSION_ID=1\nA=b\nSID_STATUS=active\n") true := by
  have := C90_told (v := ⟨0, 0, 9⟩) (l := [txt ".SID_SESSION_ID=1", txt "A=b"]) (exWorld_numbered exTold []) (.inl rfl)
    (exWorld_calm _ _) (exWorld_sends _ (by decide) (by decide)) (by decide) (by decide) (by decide) (by decide) (by decide)
  exact this

example : (usid (exWorld exTold []).env ⟨0, 0, 9⟩ [txt "scan"]).run (exWorld exTold []) =
    .ended (txt ".SID_SESSION_ID=1\nA=b\nSID_STATUS=active\n") true := by decide +kernel

example : (usid (exWorld exFailed []).env ⟨0, 0, 9⟩ [txt "checkpoint", txt "c", txt "MAJOR"]).run (exWorld exFailed []) =
    .ended (txt "SID_STATUS=incompatible\n") false ∧ ¬ Success exFailed ∧ Sends (exWorld exFailed []) exFailed :=
  ⟨by decide +kernel, by decide, exWorld_sends _ (by decide) (by decide)⟩

example : (usid (exWorld exOther []).env ⟨0, 0, 9⟩ [txt "scan"]).run (exWorld exOther []) =
    .ended (txt "A=b\nSID_STATUS=incompatible\n") true ∧ ¬ SameProtocol exOther ∧ Sends (exWorld exOther []) exOther :=
  ⟨by decide +kernel, by decide, exWorld_sends _ (by decide) (by decide)⟩

/-- the checkpoint's reply: a bare header -/
example : (usid (exWorld (Hdr.mk 0 2 4 0).bytes []).env ⟨0, 0, 9⟩ [txt "checkpoint", txt "c"]).run (exWorld (Hdr.mk 0 2 4 0).bytes []) =
    .ended (txt "SID_STATUS=incompatible\n") true ∧ Success (Hdr.mk 0 2 4 0).bytes ∧ payload (Hdr.mk 0 2 4 0).bytes = [] :=
  ⟨by decide +kernel, by decide, by decide⟩

example : (usid [] ⟨0, 0, 9⟩ [txt "version"]).run { exWorld [] [] with env := [], refused := some .ECONNREFUSED } =
    .ended (txt "USID_IFC_PROTOCOL=2\nUSID_MAJOR=0\nUSID_MINOR=0\nUSID_RELEASE=9\nSID_STATUS=inactive\n") true := by decide +kernel

example : (usid [] ⟨0, 0, 9⟩ [txt "active"]).run { exWorld exTold [] with env := [] } =
    .ended (txt "SID_STATUS=active\n") true := by decide +kernel

/-- the bound of `C90_ends` is met by long enough schedules -/
example : movesIn (exWorld exTold []).rsched = 70 ∧ movesOut (exWorld exTold []).wsched = 70 ∧ exTold.length + 4 ≤ 70 := by decide +kernel

/-- a scan in which the session identifier and a variable are set -/
example : ∃ db log keys o, Spec.Reply.Serve dev80 Ubr.Db.empty db log ∧ Spec.Sync.Entries db keys ∧
    Spec.Reply.lastOf log (txt ".SID_SESSION_ID") = some (some (txt "1")) ∧
    Ubr.exportLoop { db := db } keys = some o ∧ (Hdr.mk 0 2 4 0).bytes ++ Ubr.replyText o.udev = exTold ∧
    Sends (exWorld exTold []) exTold := by
  have hs : Ubr.kvSet Ubr.Db.empty dev80 (txt "/m") ⟨.udev, txt ".SID_SESSION_ID", Spec.Reply.bytes (some (txt "1")), 0⟩ = some (0, _) := rfl
  have hs2 := fun db (h : Ubr.kvSet Ubr.Db.empty dev80 (txt "/m") ⟨.udev, txt ".SID_SESSION_ID", Spec.Reply.bytes (some (txt "1")), 0⟩ =
      some (0, db)) => show Ubr.kvSet db dev80 (txt "/m") ⟨.udev, txt "A", Spec.Reply.bytes (some (txt "b")), 0⟩ = some (0, _) from by
    cases h; rfl
  refine ⟨_, _, [txt "::U:8_0:::.SID_SESSION_ID", txt "::U:8_0:::A"], _, .accepted (.accepted .start ?_ hs ?_) ?_ (hs2 _ hs) ?_, ?_, ?_, rfl,
    by decide +kernel, exWorld_sends _ (by decide) (by decide)⟩
  · intro t ht; cases ht; decide
  · exact Ubr.holds_of (by decide) rfl rfl
  · intro t ht; cases ht; decide
  · exact Ubr.holds_of (by decide) rfl rfl
  · refine ⟨by decide, fun k => ?_⟩
    constructor
    · intro h
      rcases List.mem_cons.mp h with rfl | h
      · rfl
      · rw [List.mem_singleton.mp h]; rfl
    · intro h
      rcases Ubr.writeRec_idx _ _ _ _ h with h | h
      · rw [h]; decide +kernel
      · rcases Ubr.writeRec_idx _ _ _ _ h with h | h
        · rw [h]; decide +kernel
        · cases h
  · decide +kernel

def exText : List UInt8 := (Hdr.mk 0 2 4 1).bytes ++ txt "{}" ++ [0]

example : Shows (txt "devices") 10 ∧ Chosen [txt "Table", txt "JSON"] 1 ∧ Sends (exWorld exText []) exText ∧ Success exText ∧
    payload exText = txt "{}" ++ [0] ∧
    (sidctl (.stop (.ended [] true)) [txt "Table", txt "JSON"] [txt "devices"]).run (exWorld exText []) = .ended (txt "{}") true := by
  refine ⟨.inr (.inr (.inr ⟨rfl, rfl⟩)), ⟨?_, .inr ⟨_, rfl, .inr (.inl ⟨by unfold Spec.Event.SameWord; decide, rfl⟩)⟩⟩,
    exWorld_sends _ (by decide) (by decide), by decide, by decide, by decide +kernel⟩
  intro g hg
  rcases List.mem_cons.mp hg with rfl | hg
  · exact ⟨0, .inl ⟨by unfold Spec.Event.SameWord; decide, rfl⟩⟩
  · rw [List.mem_singleton.mp hg]
    exact ⟨1, .inr (.inl ⟨by unfold Spec.Event.SameWord; decide, rfl⟩)⟩

example : Passes (exWorld exTold (txt "[]" ++ [0])) (txt "[]" ++ [0]) ∧
    (sidctl (.stop (.ended [] true)) [] [txt "dbdump"]).run (exWorld exTold (txt "[]" ++ [0])) = .ended (txt "[]") true :=
  ⟨⟨by decide, [], by simp [exWorld]⟩, by decide +kernel⟩

example : (sidctl (.stop (.ended [] true)) [] [txt "dbstats"]).run (exWorld exFailed []) = .ended [] false := by decide +kernel

example : (∀ n, ¬ Format (txt "xml") n) ∧ ∀ c, ¬ Shows (txt "scan") c := by
  constructor
  · intro n h
    have := getFormat_iff.mpr h
    rw [show getFormat (txt "xml") = none by decide +kernel] at this
    cases this
  · rintro c (⟨h, -⟩ | ⟨h, -⟩ | ⟨h, -⟩ | ⟨h, -⟩) <;> exact absurd h (by decide)

end Sid.Props
