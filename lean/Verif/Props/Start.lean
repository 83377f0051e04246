import Verif.Proof.Start
/-
C105: start of the daemon.
-/
namespace Sid.Props
open Sid.Start Sid.Spec.Start
open Sid.Ifc (txt)

/-- C105: whatever is in the environment and among the descriptors when sid is started, and whatever fails meanwhile: if it comes to serve
    requests, in the foreground or in the background, it does so on a listening stream socket with the daemon's address. -/
theorem C105_serves (foreground : Bool) (os : Os) (env : Env) (p q : Proc) (fd st : Nat)
    (h : (main foreground os env p).fate = .serves q fd st) : Listens q.fds fd := by
  have key : ∀ p, serve os env p = .serves q fd st → Listens q.fds fd := by
    intro p h
    obtain ⟨-, -, -, h1⟩ := serve_serves h
    obtain ⟨ep, h2, h3⟩ := createSid_some h1
    rcases setUpSocket_ok h3 with ⟨rfl, h4, -, h5⟩ | ⟨-, -, -, h4⟩
    · refine isSocketUnix_yes ?_ h5
      rw [h4]
      intro hn
      exact withLoop_three h2 ((map_file_none (listenFds_file env (withLoop p ep) 3)).1 hn)
    · refine ⟨true, ?_⟩
      rw [h4]
      unfold put
      rw [if_pos rfl]
      rfl
  unfold main at h
  by_cases hl : os.log
  · rw [if_pos hl] at h
    by_cases hf : foreground
    · rw [if_pos hf] at h
      exact key _ h
    · rw [if_neg hf] at h
      generalize becomeDaemon os p = x at h
      obtain ⟨s, r⟩ := x
      cases r with
      | error e => cases h
      | ok q' => exact key _ h
  · rw [if_neg hl] at h
    cases h

/-- C105: a socket it makes itself is not inherited by programs it runs (for one passed in: `C105_activated`). -/
theorem C105_not_inherited (foreground : Bool) (os : Os) (env : Env) (p q : Proc) (fd st : Nat) (he : env.pid = none)
    (h : (main foreground os env p).fate = .serves q fd st) : ∃ f, q.fds fd = some f ∧ f.cloexec = true := by
  have key : ∀ p, serve os env p = .serves q fd st → ∃ f, q.fds fd = some f ∧ f.cloexec = true := by
    intro p h
    obtain ⟨-, -, -, h1⟩ := serve_serves h
    obtain ⟨ep, h2, h3⟩ := createSid_some h1
    have hz : (listenFds env (withLoop p ep)).2 = 0 := by
      unfold listenFds
      rw [he]
    rcases setUpSocket_ok h3 with ⟨-, -, h5, -⟩ | ⟨-, -, -, h4⟩
    · exact absurd hz h5
    · rw [h4]
      unfold put
      rw [if_pos rfl]
      exact ⟨_, rfl, rfl⟩
  unfold main at h
  split at h
  · split at h
    · exact key _ h
    · split at h
      · cases h
      · exact key _ h
  · cases h

/-- a start in the background that comes to serve -/
theorem background_serves {os : Os} {env : Env} {p q : Proc} {fd st : Nat} (h : (main false os env p).fate = .serves q fd st) :
    ∃ d, becomeDaemon os p = (0, .ok d) ∧ serve os env d = .serves q fd st ∧ (main false os env p).caller = some 0 := by
  unfold main at h ⊢
  by_cases hl : os.log
  · rw [if_pos hl] at h ⊢
    rw [if_neg (by decide)] at h ⊢
    have hb : ∀ s d, becomeDaemon os p = (s, .ok d) → s = 0 := by
      intro s d hb
      unfold becomeDaemon at hb
      split at hb
      · cases hb
      · dsimp only at hb
        split at hb
        · cases hb
        · split at hb
          · injection hb with hb _; exact hb.symm
          · cases hb
    generalize hx : becomeDaemon os p = x at h ⊢
    obtain ⟨s, r⟩ := x
    cases r with
    | error e => cases h
    | ok d =>
      cases hb s d hx
      exact ⟨d, rfl, h, rfl⟩
  · rw [if_neg hl] at h
    cases h

/-- the descriptors of a daemon in the background -/
theorem background_own {os : Os} {env : Env} {d q : Proc} {fd st : Nat} (hq : serve os env d = .serves q fd st) (h3 : 3 < os.limit → d.fds 3 = none) :
    ∃ ep, lowest os d.fds 3 = some ep ∧ os.taken = false ∧ lowest os (listenFds env (withLoop d ep)).1 0 = some fd ∧
      q = { d with fds := put (listenFds env (withLoop d ep)).1 fd (some ownFd) } := by
  obtain ⟨-, -, h4, h5⟩ := serve_serves hq
  obtain ⟨ep, h6, h7⟩ := createSid_some h5
  have hep : ep = 3 := by
    obtain ⟨y1, y2, y3, y4⟩ := lowest_some h6
    by_cases e : ep = 3
    · exact e
    · exact absurd (h3 (by omega)) (y4 3 (Nat.le_refl _) (by omega))
  rcases setUpSocket_ok h7 with ⟨rfl, h8, -, h9⟩ | ⟨h8, h9, h10, h11⟩
  · exfalso
    have := listenFds_file env (withLoop d ep) 3
    rw [← h8] at this
    have e : (withLoop d ep).fds 3 = some { file := .loop, cloexec := true } := by
      unfold withLoop put
      dsimp only
      rw [if_pos hep.symm]
    rw [e] at this
    unfold isSocketUnix at h9
    cases e2 : q.fds 3 with
    | none => rw [e2] at this; cases this
    | some f =>
      rw [e2] at this h9
      obtain ⟨fl, c⟩ := f
      cases this
      exact h9 rfl
  · refine ⟨ep, h6, h8, h10, ?_⟩
    rw [h4, h11]
    rfl

/-- C105: in the background it is a process on its own: no terminal and no way to get one, in the root directory, files it makes are for
    its user only, standard streams are /dev/null, nothing its caller had open is open any more; and it uses its own socket.
    Partial: standard streams are open when it is started (`C105_counterexample_streams`), `setsid` succeeds
    (`C105_counterexample_session`), and no descriptor at or above the limit on descriptors is open (`C105_counterexample_limit`). -/
theorem C105_background_partial (os : Os) (env : Env) (p q : Proc) (fd st : Nat) (hp : NewPids os p)
    (hs : os.setsid = true) (ho : ∀ i, i < 3 → p.fds i ≠ none) (hl : ∀ i, os.limit ≤ i → p.fds i = none)
    (h : (main false os env p).fate = .serves q fd st) : Background p q fd := by
  obtain ⟨d, hd, hq, -⟩ := background_serves h
  obtain ⟨c, n, e, h1, h2, h3, rfl⟩ := becomeDaemon_ok hd
  obtain ⟨x1, -, x3, -⟩ := lowest_some h3
  have he : 3 ≤ e := by
    by_cases hh : e < 3
    · exact absurd x3 (ho e hh)
    · omega
  obtain ⟨ep, h6, h8, h10, h11⟩ := background_own hq (fun hh => by dsimp only [detached]; rw [if_pos (by omega)])
  obtain ⟨y1, y2, y3, y4⟩ := lowest_some h6
  obtain ⟨p1, p2, p3, p4, p5⟩ := hp c n h1 h2
  have hfile := listenFds_file env (withLoop (detached os p c n e) ep)
  have hlow : ∀ i, i < 3 → (listenFds env (withLoop (detached os p c n e) ep)).1 i = some { file := .null } := by
    intro i hi
    rw [listenFds_low _ _ _ hi]
    unfold withLoop put detached
    dsimp only
    rw [if_neg (by omega), if_neg (by omega), if_neg (by omega), if_pos hi]
  obtain ⟨z1, -, z3, -⟩ := lowest_some h10
  have hfd : 3 ≤ fd := by
    by_cases hh : fd < 3
    · rw [hlow fd hh] at z3; cases z3
    · omega
  rw [h11]
  refine ⟨?_, ?_, ?_, rfl, rfl, ?_, ?_, hfd⟩
  · dsimp only [withLoop, detached]; rw [if_pos hs]; exact p2
  · dsimp only [withLoop, detached]; rw [if_pos hs]
  · dsimp only [withLoop, detached]; rw [if_pos hs]; exact fun hh => p3 hh.symm
  · intro i hi
    dsimp only [put]
    rw [if_neg (by omega)]
    exact hlow i hi
  · intro i f hi hf
    dsimp only [put] at hf
    by_cases e1 : i = fd
    · exact .inr e1
    · rw [if_neg e1] at hf
      left
      have := hfile i
      rw [hf] at this
      unfold withLoop put detached at this
      dsimp only at this
      by_cases e2 : i = ep
      · rw [if_pos e2] at this
        simpa using this
      · rw [if_neg e2] at this
        by_cases e3 : i < os.limit
        · rw [if_pos (by omega)] at this; cases this
        · rw [if_neg (by omega), if_neg (by omega), if_neg (by omega), hl i (by omega)] at this; cases this

/-- C105, counterexample: if standard input is closed when it is started in the background, it is closed again after it was made
    /dev/null, and the next descriptor takes its place: the daemon serves requests on descriptor 0. -/
theorem C105_counterexample_streams (os : Os) (env : Env) (p q : Proc) (fd st : Nat) (h0 : p.fds 0 = none)
    (h : (main false os env p).fate = .serves q fd st) : fd = 0 ∧ q.fds 0 ≠ some { file := .null } := by
  obtain ⟨d, hd, hq, -⟩ := background_serves h
  obtain ⟨c, n, e, h1, h2, h3, rfl⟩ := becomeDaemon_ok hd
  obtain ⟨x1, -, x3, x4⟩ := lowest_some h3
  have he : e = 0 := by
    by_cases hh : e = 0
    · exact hh
    · exact absurd h0 (x4 0 (Nat.le_refl _) (by omega))
  obtain ⟨ep, h6, h8, h10, h11⟩ := background_own hq (fun hh => by dsimp only [detached]; rw [if_pos (by omega)])
  obtain ⟨y1, y2, y3, y4⟩ := lowest_some h6
  obtain ⟨z1, -, z3, z4⟩ := lowest_some h10
  have hfd : fd = 0 := by
    by_cases hh : fd = 0
    · exact hh
    · refine absurd ?_ (z4 0 (Nat.le_refl _) (by omega))
      rw [listenFds_low _ _ _ (by omega)]
      unfold withLoop put detached
      dsimp only
      rw [if_neg (by omega), if_neg (by omega), if_pos he.symm]
  refine ⟨hfd, ?_⟩
  rw [h11, hfd]
  dsimp only [put]
  rw [if_pos rfl]
  decide

/-- C105, counterexample: a failure of `setsid` goes unnoticed: the daemon serves requests in the session and at the terminal of its
    caller. -/
theorem C105_counterexample_session (os : Os) (env : Env) (p q : Proc) (fd st : Nat) (hs : os.setsid = false)
    (h : (main false os env p).fate = .serves q fd st) : q.session = p.session ∧ q.tty = p.tty := by
  obtain ⟨d, hd, hq, -⟩ := background_serves h
  obtain ⟨c, n, e, h1, h2, h3, rfl⟩ := becomeDaemon_ok hd
  obtain ⟨-, -, h4, -⟩ := serve_serves hq
  rw [h4]
  dsimp only [detached]
  rw [hs]
  exact ⟨rfl, rfl⟩

/-- C105, counterexample: a descriptor at or above the limit, opened before the limit was lowered, stays open in the background. -/
theorem C105_counterexample_limit (os : Os) (env : Env) (p q : Proc) (fd st i : Nat) (f : Fd) (hi : os.limit ≤ i) (h3 : 3 ≤ i)
    (hf : p.fds i = some f) (h : (main false os env p).fate = .serves q fd st) : (q.fds i).map Fd.file = some f.file := by
  obtain ⟨d, hd, hq, -⟩ := background_serves h
  obtain ⟨c, n, e, h1, h2, h3', rfl⟩ := becomeDaemon_ok hd
  obtain ⟨x1, -, -, -⟩ := lowest_some h3'
  obtain ⟨ep, h6, h8, h10, h11⟩ := background_own hq (fun hh => by dsimp only [detached]; rw [if_pos (by omega)])
  obtain ⟨y1, -, -, -⟩ := lowest_some h6
  obtain ⟨z1, -, -, -⟩ := lowest_some h10
  rw [h11]
  dsimp only [put]
  rw [if_neg (by omega), listenFds_file]
  dsimp only [withLoop, put, detached]
  rw [if_neg (by omega), if_neg (by omega), if_neg (by omega), if_neg (by omega), hf]
  rfl

/-- what `sd_listen_fds` answers if descriptors are passed -/
theorem listenFds_passed {env : Env} {p q : Proc} {n : Nat} (hp : Passed env p n) (hq : q.pid = p.pid)
    (ho : ∀ i, p.fds i ≠ none → q.fds i = p.fds i) :
    (listenFds env q).2 = n ∧ ∃ f, p.fds 3 = some f ∧ (listenFds env q).1 3 = some { f with cloexec := true } := by
  obtain ⟨c, hc⟩ := hp.first
  have h1 := cloexecFrom_all q.fds 3 n fun j hj => by
    have := hp.opened j hj
    rw [ho (3 + j) (fun hh => by rw [hh] at this; cases this)]
    exact this
  have h2 : (cloexecFrom q.fds 3 n).1 3 = (p.fds 3).map fun f => { f with cloexec := true } := by
    obtain ⟨m, hm⟩ : ∃ m, n = m + 1 := ⟨n - 1, by have := hp.some; omega⟩
    rw [hm]
    unfold cloexecFrom
    rw [ho 3 (by rw [hc]; simp), hc]
    dsimp only
    rw [cloexecFrom_below _ _ _ _ (by omega)]
    unfold put
    rw [if_pos rfl]
    rfl
  unfold listenFds
  rw [hp.pid, hp.fds]
  dsimp only
  rw [if_pos hq.symm, if_neg (by have := hp.range; omega)]
  generalize cloexecFrom q.fds 3 n = x at h1 h2
  obtain ⟨t, b⟩ := x
  dsimp only at h1 h2
  subst h1
  refine ⟨rfl, _, hc, ?_⟩
  dsimp only
  rw [h2, hc]
  rfl

/-- C105: if the service manager passes the socket to a sid in the foreground, sid serves that socket, and programs it runs do not inherit
    it; this whether or not the address is in use, and it makes no socket.  It does so whenever its log, its event loop and what is
    around the socket can be set up. -/
theorem C105_activated (os : Os) (env : Env) (p : Proc) (n : Nat) (hp : Passed env p n) (h1 : os.log = true) (h2 : 0 ≤ os.atfork)
    (h3 : os.loop = true) (h4 : ∃ i, 3 ≤ i ∧ i < os.limit ∧ p.fds i = none) (h5 : os.early = true) (h6 : os.late = true) :
    ∃ q st f, main true os env p = { caller := none, fate := .serves q 3 st } ∧ p.fds 3 = some f ∧
      q.fds 3 = some { f with cloexec := true } ∧
      ∀ i s, (q.fds i).map Fd.file = some (.sock s) → (p.fds i).map Fd.file = some (.sock s) := by
  obtain ⟨i, hi1, hi2, hi3⟩ := h4
  obtain ⟨ep, he⟩ := lowest_of hi2 hi1 hi3
  obtain ⟨y1, y2, y3, y4⟩ := lowest_some he
  obtain ⟨x1, f, x2, x3⟩ := listenFds_passed (q := withLoop p ep) hp rfl (fun i hn => by
    unfold withLoop put
    dsimp only
    exact if_neg (fun hh : i = ep => hn (by rw [hh]; exact y3)))
  obtain ⟨c, hc⟩ := hp.first
  have hs : setUpSocket os env (withLoop p ep) = ((listenFds env (withLoop p ep)).1, .ok 3) := by
    unfold setUpSocket
    generalize hg : listenFds env (withLoop p ep) = l at x1 x3
    obtain ⟨t, r⟩ := l
    dsimp only at x1 x3 ⊢
    rw [if_pos (by have := hp.some; omega), hp.type]
    dsimp only
    rw [if_neg (by simp)]
    rw [if_neg]
    unfold isSocketUnix
    rw [x3]
    rw [hc] at x2
    cases x2
    simp [address]
  have hcr : createSid os env p = ((listenFds env (withLoop p ep)).1, some 3) := by
    unfold createSid
    rw [if_pos h3, he]
    change (match initUbridge os env (withLoop p ep) with | (t, none) => (put t ep none, none) | (t, some fd) => (t, some fd)) = _
    unfold initUbridge
    rw [if_pos h5, hs]
    dsimp only
    rw [if_pos h6]
  refine ⟨{ p with fds := (listenFds env (withLoop p ep)).1 }, exitStatus os, f, ?_, x2, x3, ?_⟩
  · unfold main
    rw [if_pos h1, if_pos rfl]
    unfold serve
    rw [if_neg (by omega), hcr]
  · intro j s hj
    dsimp only at hj
    rw [listenFds_file] at hj
    unfold withLoop put at hj
    dsimp only at hj
    split at hj
    · cases hj
    · exact hj

/-- C105, counterexample: in the background it does not use the socket it is passed; as the service manager has the address in use, it
    never serves requests, while the caller is told that all went well. -/
theorem C105_counterexample_activated (os : Os) (env : Env) (p : Proc) (ht : os.taken = true) (c : Nat) (hl : os.log = true)
    (hc : os.fork1 = some c) : (∀ q fd st, (main false os env p).fate ≠ .serves q fd st) ∧ (main false os env p).caller = some 0 := by
  refine ⟨fun q fd st h => ?_, ?_⟩
  · obtain ⟨d, hd, hq, -⟩ := background_serves h
    obtain ⟨c, n, e, h1, h2, h3, rfl⟩ := becomeDaemon_ok hd
    obtain ⟨ep, h6, h8, -, -⟩ := background_own hq (fun hh => by dsimp only [detached]; rw [if_pos (by omega)])
    rw [ht] at h8
    cases h8
  · unfold main
    rw [if_pos hl, if_neg (by decide)]
    have : (becomeDaemon os p).1 = 0 := by
      unfold becomeDaemon
      rw [hc]
      dsimp only
      split
      · rfl
      · split <;> rfl
    generalize becomeDaemon os p = x at this
    obtain ⟨s, r⟩ := x
    cases this
    cases r <;> rfl

/-- C105: no second sid: while the address is in use and no socket is passed, a sid does not come to serve requests. -/
theorem C105_single (foreground : Bool) (os : Os) (env : Env) (p : Proc) (ht : os.taken = true) (he : env.pid = none) (q : Proc)
    (fd st : Nat) : (main foreground os env p).fate ≠ .serves q fd st := by
  have key : ∀ p, serve os env p ≠ .serves q fd st := by
    intro p h
    obtain ⟨-, -, -, h1⟩ := serve_serves h
    obtain ⟨ep, h2, h3⟩ := createSid_some h1
    have hz : (listenFds env (withLoop p ep)).2 = 0 := by
      unfold listenFds
      rw [he]
    rcases setUpSocket_ok h3 with ⟨-, -, h4, -⟩ | ⟨h4, -⟩
    · exact h4 hz
    · rw [ht] at h4; cases h4
  intro h
  unfold main at h
  split at h
  · split at h
    · exact key _ h
    · split at h
      · cases h
      · exact key _ h
  · cases h

/-- C105: if the daemon cannot be set up, no descriptor is left open: those that are open then were open before, and refer to the same. -/
theorem C105_no_leak (os : Os) (env : Env) (p : Proc) (t : Fds) (h : createSid os env p = (t, none)) (i : Nat) (f : Fd)
    (hf : t i = some f) : (p.fds i).map Fd.file = some f.file := by
  unfold createSid at h
  split at h
  · cases h; rw [hf]; rfl
  · rename_i ep hep
    have hw : ∀ i, i ≠ ep → (withLoop p ep).fds i = p.fds i := fun i hi => by
      unfold withLoop put
      dsimp only
      rw [if_neg hi]
    change (match initUbridge os env (withLoop p ep) with | (t, none) => (put t ep none, none) | (t, some fd) => (t, some fd)) = _ at h
    generalize hg : initUbridge os env (withLoop p ep) = x at h
    obtain ⟨t1, r⟩ := x
    cases r with
    | some fd => cases h
    | none =>
      cases h
      unfold put at hf
      by_cases hi : i = ep
      · rw [if_pos hi] at hf; cases hf
      · rw [if_neg hi] at hf
        rw [← hw i hi, ← hf_file hg hf]

/-- C105: if what is done before the daemon's resources are created fails, of the log or of becoming a daemon, the process that fails ends
    with exit status 1; and the exit status of a sid that served tells whether its event loop failed.
    Partial: failures to set up the daemon itself are not told (`C105_counterexample_status`). -/
theorem C105_status_partial (os : Os) (env : Env) (p : Proc) :
    (os.log = false → ∀ foreground, main foreground os env p = { caller := none, fate := .ends 1 }) ∧
    (os.fork1 = none → os.log = true → main false os env p = { caller := some 1, fate := .ends 1 }) ∧
    (os.fork2 = none ∨ os.chdir = false ∨ os.devNull = false ∨ (∃ i, i < 3 ∧ os.dup i = false) → (main false os env p).fate = .ends 1) ∧
    (∀ foreground q fd st, (main foreground os env p).fate = .serves q fd st → os.run ≠ -10 → (st = 0 ↔ 0 ≤ os.run)) := by
  refine ⟨fun h fg => ?_, fun h hl => ?_, fun h => ?_, fun fg q fd st h hr => ?_⟩
  · unfold main
    rw [if_neg (by rw [h]; decide)]
  · unfold main
    rw [if_pos hl, if_neg (by decide)]
    unfold becomeDaemon
    rw [h]
  · have hst : os.devNull = false ∨ (∃ i, i < 3 ∧ os.dup i = false) → ∀ p, streams os p = .error 1 := by
      intro hh p
      unfold streams dup3
      by_cases hd : os.devNull = true
      · rcases hh with hh | ⟨i, hi, hh⟩
        · rw [hh] at hd; cases hd
        · rw [if_pos hd]
          split
          · rfl
          · rw [if_neg]
            have : i = 0 ∨ i = 1 ∨ i = 2 := by omega
            rcases this with rfl | rfl | rfl <;> simp [hh]
      · rw [if_neg hd]
    have hb : ∃ s, becomeDaemon os p = (s, .error 1) := by
      unfold becomeDaemon
      split
      · exact ⟨_, rfl⟩
      · dsimp only
        split
        · exact ⟨_, rfl⟩
        · rename_i h2
          rcases h with h | h | h
          · rw [h] at h2; cases h2
          · rw [if_neg (by rw [h]; decide)]
            exact ⟨_, rfl⟩
          · split
            · rw [hst h]; exact ⟨_, rfl⟩
            · exact ⟨_, rfl⟩
    obtain ⟨s, hb⟩ := hb
    unfold main
    split
    · rw [if_neg (by decide), hb]
    · rfl
  · have key : ∀ p, serve os env p = .serves q fd st → (st = 0 ↔ 0 ≤ os.run) := by
      intro p h
      obtain ⟨-, h2, -, -⟩ := serve_serves h
      rw [h2]
      unfold exitStatus
      rw [if_neg hr]
      dsimp only
      split <;> omega
    unfold main at h
    split at h
    · split at h
      · exact key _ h
      · split at h
        · cases h
        · exact key _ h
    · cases h

/-- C105, counterexample: a sid in the foreground that cannot be set up, say as another sid is running, ends with exit status 0. -/
theorem C105_counterexample_status (os : Os) (env : Env) (p : Proc) (hl : os.log = true) (ha : os.atfork = 0) (st : Nat)
    (h : (main true os env p).fate = .ends st) : st = 0 := by
  unfold main at h
  rw [if_pos hl, if_pos rfl] at h
  unfold serve at h
  rw [if_neg (by omega)] at h
  split at h
  · rw [if_neg (by omega)] at h
    cases h
    rfl
  · cases h

theorem serve_well {os : Os} {env : Env} {p : Proc} (ho : AllWell os) (he : env.pid = none) (i j : Nat) (h1 : 3 ≤ i) (h2 : i < j)
    (h3 : j < os.limit) (h4 : p.fds i = none) (h5 : p.fds j = none) : ∃ q fd, serve os env p = .serves q fd (exitStatus os) := by
  obtain ⟨ep, hep⟩ := lowest_of (os := os) (Nat.lt_trans h2 h3) h1 h4
  obtain ⟨y1, y2, y3, y4⟩ := lowest_some hep
  have hle : ep ≤ i := by
    by_cases hh : ep ≤ i
    · exact hh
    · exact absurd h4 (y4 i h1 (by omega))
  have hl : listenFds env (withLoop p ep) = ((withLoop p ep).fds, 0) := by
    unfold listenFds
    rw [he]
  obtain ⟨fd, hfd⟩ := lowest_of (os := os) (t := (withLoop p ep).fds) (a := 0) h3 (Nat.zero_le _) (by
    unfold withLoop put
    dsimp only
    rw [if_neg (by omega)]
    exact h5)
  have hs : ∃ t, setUpSocket os env (withLoop p ep) = (t, .ok fd) := by
    unfold setUpSocket unixCreate
    rw [hl]
    dsimp only
    rw [if_neg (by decide), if_neg (by decide), if_pos ho.sock, hfd]
    dsimp only
    have b2 : ¬(os.taken = true ∨ ¬os.bind = true) := by simp [ho.taken, ho.bind]
    rw [if_neg b2, if_pos (by decide), if_pos ho.listen]
    exact ⟨_, rfl⟩
  obtain ⟨t, ht⟩ := hs
  have hc : createSid os env p = (t, some fd) := by
    unfold createSid
    rw [if_pos ho.loop, hep]
    change (match initUbridge os env (withLoop p ep) with | (t, none) => (put t ep none, none) | (t, some fd) => (t, some fd)) = _
    unfold initUbridge
    rw [if_pos ho.early, ht]
    dsimp only
    rw [if_pos ho.late]
  unfold serve
  have := ho.atfork
  rw [if_neg (by omega), hc]
  exact ⟨_, _, rfl⟩

/-- C105: if no socket is passed, all it asks for succeeds and two descriptors are free, sid in the foreground comes to serve requests. -/
theorem C105_starts_foreground (os : Os) (env : Env) (p : Proc) (ho : AllWell os) (he : env.pid = none) (i j : Nat) (h1 : 3 ≤ i)
    (h2 : i < j) (h3 : j < os.limit) (h4 : p.fds i = none) (h5 : p.fds j = none) :
    ∃ q fd st, main true os env p = { caller := none, fate := .serves q fd st } := by
  obtain ⟨q, fd, h⟩ := serve_well ho he i j h1 h2 h3 h4 h5
  refine ⟨q, fd, exitStatus os, ?_⟩
  unfold main
  rw [if_pos ho.log, if_pos rfl, h]

/-- C105: likewise in the background, if a descriptor is free and five are allowed; the caller gets exit status 0. -/
theorem C105_starts_background (os : Os) (env : Env) (p : Proc) (ho : AllWell os) (he : env.pid = none) (i : Nat) (hi : i < os.limit)
    (hf : p.fds i = none) (h5 : 5 ≤ os.limit) (c d : Nat) (h1 : os.fork1 = some c) (h2 : os.fork2 = some d) (h3 : os.chdir = true)
    (h4 : os.devNull = true) (h6 : ∀ i, os.dup i = true) :
    ∃ q fd st, main false os env p = { caller := some 0, fate := .serves q fd st } := by
  obtain ⟨e, hl⟩ := lowest_of (os := os) hi (Nat.zero_le _) hf
  have hd : ∃ q, becomeDaemon os p = (0, .ok q) := by
    unfold becomeDaemon
    rw [h1, h2]
    dsimp only
    rw [if_pos h3]
    have e1 : (newSession os { p with pid := c }).fds = p.fds := by unfold newSession; split <;> rfl
    generalize newSession os { p with pid := c } = r at e1
    unfold streams dup3
    dsimp only
    rw [if_pos h4, e1, hl, h6, h6, h6]
    exact ⟨_, rfl⟩
  obtain ⟨q, hq⟩ := hd
  obtain ⟨c', d', e', -, -, h7, h8⟩ := becomeDaemon_ok hq
  have hn : ∀ k, 3 ≤ k → k < 5 → q.fds k = none := by
    intro k hk hk'
    rw [h8]
    dsimp only [detached]
    rw [if_pos (by omega)]
  obtain ⟨q', fd, hs⟩ := serve_well (p := q) ho he 3 4 (by omega) (by omega) (by omega) (hn 3 (by omega) (by omega)) (hn 4 (by omega) (by omega))
  refine ⟨q', fd, exitStatus os, ?_⟩
  unfold main
  rw [if_pos ho.log, if_neg (by decide), hq]
  dsimp only
  rw [hs]

/-- an operating system where all succeeds -/
def okOs : Os :=
  { limit := 1024, fork1 := some 101, setsid := true, fork2 := some 102, chdir := true, devNull := true, dup := fun _ => true, log := true,
    atfork := 0, early := true, loop := true, sock := true, taken := false, bind := true, listen := true, late := true, run := 0,
    worker := none }

/-- a shell's process: three streams and one more descriptor -/
def okProc : Proc :=
  { pid := 100, session := 50, tty := true, cwd := txt "/home", umask := 0o022, fds := fun i => if i < 4 then some { file := .other i } else none }

/-- no socket is passed -/
def okEnv : Env := { pid := none, fds := none, type := none }

/-- the service manager's process, with the socket -/
def actProc : Proc :=
  { okProc with fds := fun i => if i = 3 then some { file := .sock { unix := true, stream := true, listening := true, addr := address } }
                                else okProc.fds i }

/-- the environment the service manager sets -/
def actEnv : Env := { pid := some (some 100), fds := some (some 1), type := some (txt "FD_PRELOAD") }

theorem okOs_well (b : Bool) : AllWell { okOs with setsid := b } := ⟨rfl, by simp [okOs], rfl, rfl, rfl, rfl, rfl, rfl, rfl⟩

example : ∃ q fd st, main true okOs okEnv okProc = { caller := none, fate := .serves q fd st } :=
  C105_starts_foreground _ _ _ (okOs_well true) rfl 4 5 (by decide) (by decide) (by decide) rfl rfl

/-- `C105_background_partial` -/
example : ∃ q fd st, (main false okOs okEnv okProc).fate = .serves q fd st ∧ NewPids okOs okProc ∧ (∀ i, i < 3 → okProc.fds i ≠ none) ∧
    (∀ i, okOs.limit ≤ i → okProc.fds i = none) := by
  obtain ⟨q, fd, st, h⟩ := C105_starts_background okOs okEnv okProc (okOs_well true) rfl 4 (by decide) rfl (by decide) 101 102 rfl rfl rfl
    rfl (fun _ => rfl)
  refine ⟨q, fd, st, by rw [h], ?_, ?_, ?_⟩
  · intro c d hc hd
    cases hc; cases hd
    decide
  · intro i hi
    simp [okProc]
    omega
  · intro i hi
    have : (1024 : Nat) ≤ i := hi
    simp [okProc]
    omega

/-- the counterexamples: no new session; standard input closed; descriptor 5000 open -/
example : ∃ q fd st, (main false { okOs with setsid := false } okEnv okProc).fate = .serves q fd st := by
  obtain ⟨q, fd, st, h⟩ := C105_starts_background { okOs with setsid := false } okEnv okProc (okOs_well false) rfl 4 (by decide) rfl
    (by decide) 101 102 rfl rfl rfl rfl (fun _ => rfl)
  exact ⟨q, fd, st, by rw [h]⟩

example : ∃ q fd st, (main false okOs okEnv { okProc with fds := put okProc.fds 0 none }).fate = .serves q fd st := by
  obtain ⟨q, fd, st, h⟩ := C105_starts_background okOs okEnv { okProc with fds := put okProc.fds 0 none } (okOs_well true) rfl 4 (by decide)
    rfl (by decide) 101 102 rfl rfl rfl rfl (fun _ => rfl)
  exact ⟨q, fd, st, by rw [h]⟩

example : ∃ q fd st, (main false okOs okEnv { okProc with fds := put okProc.fds 5000 (some { file := .other 7 }) }).fate =
    .serves q fd st := by
  obtain ⟨q, fd, st, h⟩ := C105_starts_background okOs okEnv { okProc with fds := put okProc.fds 5000 (some { file := .other 7 }) }
    (okOs_well true) rfl 4 (by decide) rfl (by decide) 101 102 rfl rfl rfl rfl (fun _ => rfl)
  exact ⟨q, fd, st, by rw [h]⟩

example : Passed actEnv actProc 1 :=
  ⟨rfl, rfl, rfl, by decide, by decide, fun i hi => by obtain rfl : i = 0 := by omega
                                                       rfl, ⟨false, rfl⟩⟩

example : ∃ i, 3 ≤ i ∧ i < okOs.limit ∧ actProc.fds i = none := ⟨4, by decide, by decide, rfl⟩

example : (main true { okOs with taken := true } okEnv okProc).fate = .ends 0 := by
  cases h : (main true { okOs with taken := true } okEnv okProc).fate with
  | ends st => rw [C105_counterexample_status _ _ _ rfl rfl st h]
  | serves q fd st => exact absurd h (C105_single _ _ _ _ rfl rfl _ _ _)

/-- `C105_no_leak`: the address is in use -/
example : ∃ t, createSid { okOs with taken := true } okEnv okProc = (t, none) := by
  generalize h : createSid { okOs with taken := true } okEnv okProc = x
  obtain ⟨t, r⟩ := x
  cases r with
  | none => exact ⟨t, rfl⟩
  | some fd =>
    exfalso
    refine C105_single true { okOs with taken := true } okEnv okProc rfl rfl { okProc with fds := t } fd (exitStatus okOs) ?_
    unfold main serve
    rw [h]
    rfl

end Sid.Props
