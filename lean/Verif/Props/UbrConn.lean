import Verif.Proof.UbrConn
/-
C43: which requests of a client are executed, for all byte streams, fragmentations, credentials and failures.
-/
namespace Sid.Props
open Sid.Conn Sid.Spec.Conn Sid.Spec.Frame
open Sid.LBuf (Buf IoEv Stream)

/-- Whatever bytes a client sends, however they arrive: a command is created only for a message with a whole header, the right
    version of the protocol and a known command, and only if the command is open to everybody or the client is root (a client whose
    identity the kernel does not report is not root). -/
theorem C43_executed_only_if_allowed (uid : Option Nat) (inp : Stream) (fresh : Nat → UInt8) (c c' : Conn) (l : List Ev)
    (hi : Conn.init inp fresh = some c) (h : Conn.run uid c l = some c') (m : List UInt8) (hm : m ∈ c'.started) : Allowed uid m := by
  obtain ⟨b, hb, rfl⟩ := init_some hi
  exact (run_started (uid := uid) (c := ⟨b, inp, [], [], true⟩) nofun h m hm).1

/-- A client sending any messages one after the other, arriving in any pieces: there is a point up to which the messages were
    handled; the messages executed are exactly the acceptable ones among these, each once, in order (if nothing else fails).
    Missing: the answer to the other ones (see `C43_counterexample_no_answer`, `C43_counterexample_unknown_command`,
    `C43_counterexample_short_header`). -/
theorem C43_executed_exactly_partial (uid : Option Nat) (ps : List (List UInt8)) (closed : Bool) (fresh : Nat → UInt8) (c c' : Conn)
    (l : List Ev) (hps : ∀ p ∈ ps, p.length + 4 < 2 ^ 32) (hi : Conn.init ⟨frames ps, closed⟩ fresh = some c)
    (hok : ∀ e ∈ l, e.ok = true) (h : Conn.run uid c l = some c') :
    ∃ done todo, ps = done ++ todo ∧ c'.started = done.filter fun m => decide (Acceptable uid m) := by
  obtain ⟨done, todo, h1, -, -, h2, -⟩ := (run_framed (init_framed (uid := uid) (ok := true) hps hi) (fun _ => hok) h).ex
  exact ⟨done, todo, h1, h2 rfl⟩

/-- Whatever else fails: no message is executed twice or out of order. -/
theorem C43_executed_in_order (uid : Option Nat) (ps : List (List UInt8)) (closed : Bool) (fresh : Nat → UInt8) (c c' : Conn)
    (l : List Ev) (hps : ∀ p ∈ ps, p.length + 4 < 2 ^ 32) (hi : Conn.init ⟨frames ps, closed⟩ fresh = some c)
    (h : Conn.run uid c l = some c') : c'.started.Sublist ps := by
  obtain ⟨done, todo, h1, h2, -, -, -⟩ := (run_framed (init_framed (uid := uid) (ok := false) hps hi) nofun h).ex
  rw [h1]
  exact h2.trans (List.sublist_append_left _ _)

/-- C43 as stated is false: a refused request is never answered, whatever the client sends. -/
theorem C43_counterexample_no_answer (uid : Option Nat) (ps : List (List UInt8)) (closed : Bool) (fresh : Nat → UInt8) (c c' : Conn)
    (l : List Ev) (hps : ∀ p ∈ ps, p.length + 4 < 2 ^ 32) (hi : Conn.init ⟨frames ps, closed⟩ fresh = some c)
    (h : Conn.run uid c l = some c') : c'.out = [] :=
  (run_framed (init_framed (uid := uid) (ok := false) hps hi) nofun h).out

/-- C43 as stated is false: every request with an unknown command number, of any client, is undefined behaviour of the worker (the
    check replaces the number, the use does not). -/
theorem C43_counterexample_unknown_command (uid : Option Nat) (ok : Bool) (m : List UInt8) (cmd : UInt8) (hl : 12 ≤ m.length)
    (hc : m[9]? = some cmd) (hb : lastCommand < cmd) : createCmd uid ok m = none := by
  match h : createCmd uid ok m with
  | none => rfl
  | some b =>
    exfalso
    match hd : Ifc.hdrOf m with
    | none => have := hdrOf_none hd; omega
    | some hh =>
      obtain ⟨-, p, c, -, h9, -, hcm⟩ := hdrOf_some hd
      rw [h9] at hc
      cases hc
      have hnone : getReg hh.cmd = none := by
        rw [hcm]
        match hr : getReg cmd.toNat with
        | none => rfl
        | some r =>
          have h1 := (getReg_some hr).1
          exact absurd (UInt8.lt_of_lt_of_le hb h1) (UInt8.lt_irrefl _)
      have hcap : capable uid (sanitized hh.cmd) = some true := by
        have : ∀ c : UInt8, lastCommand < c → sanitized c.toNat = 1 := forall_u8 (by decide +kernel)
        rw [hcm, this cmd hb]
        unfold capable
        split <;> rfl
      unfold createCmd checkMsg at h
      simp only [hd, hcap, createChecked, hnone] at h
      cases h

/-- Behind a request shorter than a header no request is executed. -/
theorem C43_nothing_behind_short_header (uid : Option Nat) (pre post : List (List UInt8)) (p : List UInt8) (closed : Bool)
    (fresh : Nat → UInt8) (c c' : Conn) (l : List Ev) (hps : ∀ q ∈ pre ++ p :: post, q.length + 4 < 2 ^ 32) (hp : p.length < 12)
    (hi : Conn.init ⟨frames (pre ++ p :: post), closed⟩ fresh = some c) (h : Conn.run uid c l = some c') :
    c'.started.Sublist pre := by
  obtain ⟨done, todo, h1, h2, h3, -, -⟩ := (run_framed (init_framed (uid := uid) (ok := false) hps hi) nofun h).ex
  refine h2.trans ?_
  rcases List.append_eq_append_iff.mp h1 with ⟨a, ha, hb⟩ | ⟨a, ha, hb⟩
  · cases a with
    | nil => rw [ha]; simp
    | cons x a =>
      simp only [List.cons_append, List.cons.injEq] at hb
      have := h3 x (by rw [ha]; simp)
      rw [← hb.1] at this
      omega
  · rw [ha]
    exact List.sublist_append_left _ _

namespace ConnExample

/-- reads of up to 100 bytes, memory filled with 7, everything else works -/
def ev : Ev := ⟨.xfer 100, fun _ => 7, [.xfer 100], true⟩
/-- a request: header and data -/
def req (prot cmd : UInt8) (data : List UInt8) : List UInt8 := [9, 0, 0, 0, 0, 0, 0, 0, prot, cmd, 0, 0] ++ data
/-- device number and a variable `A=1` -/
def env : List UInt8 := [0, 8, 0, 0, 0, 0, 0, 0, 65, 61, 49, 0]

/-- what comes of messages: those executed, the bytes written to the client, whether the connection is still served -/
def outcome (uid : Option Nat) (ps : List (List UInt8)) (n : Nat) : Option (List (List UInt8) × List UInt8 × Bool) :=
  (Conn.init ⟨frames ps, false⟩ fun _ => 7).bind fun c =>
    (Conn.run uid c (List.replicate n ev)).map fun c => (c.started, c.out, c.served)

/-- C43 as stated is false: the refusal of a request shorter than a header reads behind the end of the buffer. -/
theorem C43_counterexample_short_header : outcome (some 1000) [[2]] 2 = none := by decide +kernel

/-- root: version, scan and again version -/
example : outcome (some 0) [req 2 6 [], req 2 5 env, req 2 6 []] 6 = some ([req 2 6 [], req 2 5 env, req 2 6 []], [], true) := by
  decide +kernel

/-- a user: the scan is refused silently, the other commands are executed -/
example : outcome (some 1000) [req 2 6 [], req 2 5 env, req 2 6 []] 6 = some ([req 2 6 [], req 2 6 []], [], true) := by decide +kernel

/-- an older protocol: refused, not answered, and the client waits for ever -/
example : outcome (some 0) [req 1 6 []] 2 = some ([], [], true) := by decide +kernel

/-- a newer protocol: the connection is closed -/
example : outcome (some 0) [req 3 6 [], req 2 6 []] 4 = some ([], [], false) := by decide +kernel

/-- an unknown command of a user -/
example : outcome (some 1000) [req 2 11 []] 2 = none := by decide +kernel
example : createCmd (some 1000) true (req 2 200 []) = none :=
  C43_counterexample_unknown_command _ _ _ 200 (by decide) (by decide) (by decide)

/-- four reads -/
def four : List Ev := [ev, ev, ev, ev]

/-- a case of the theorems -/
example : ∃ c c', Conn.init ⟨frames [req 2 5 env, req 2 6 []], false⟩ (fun _ => 7) = some c ∧
    Conn.run (some 1000) c (four) = some c' ∧ c'.started = [req 2 6 []] ∧ ∀ m ∈ c'.started, Allowed (some 1000) m := by
  match hi : Conn.init ⟨frames [req 2 5 env, req 2 6 []], false⟩ (fun _ => 7) with
  | none => exact absurd hi (by decide +kernel)
  | some c =>
    match hr : Conn.run (some 1000) c (four) with
    | none =>
      exfalso
      have : (Conn.init ⟨frames [req 2 5 env, req 2 6 []], false⟩ fun _ => 7).bind
        (fun c => (Conn.run (some 1000) c (four)).map fun c => c.started) ≠ none := by decide +kernel
      rw [hi] at this
      simp [hr] at this
    | some c' =>
      refine ⟨c, c', rfl, hr, ?_, fun m hm => C43_executed_only_if_allowed _ _ _ _ _ _ hi hr m hm⟩
      have : (Conn.init ⟨frames [req 2 5 env, req 2 6 []], false⟩ fun _ => 7).bind
        (fun c => (Conn.run (some 1000) c (four)).map fun c => c.started) = some [req 2 6 []] := by decide +kernel
      rw [hi] at this
      simpa [hr] using this

end ConnExample
end Sid.Props
