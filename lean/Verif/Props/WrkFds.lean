import Verif.Proof.WrkFds
/-
C98, C99: file descriptors of workers.
-/
namespace Sid.Props
open Sid.WrkFds Sid.Spec.WrkFds

/-! ### C98: a worker gets its ends of its channels, and an external program nothing else -/

/-- The two processes have, beside what the caller had, opposite ends of the same wires, and neither has an end of the other's. -/
theorem C98_ends_of_channels {limit : Nat} {t : Table} {n : Nat} {specs : List ChanSpec} {b : Bool} {f : Forked}
    (h : getNewWorker limit t n specs b = .inr f) :
    MadeAll n specs f.proxy f.own ∧ Plus t (entries f.proxy) f.parent ∧ Plus t (entries f.own) f.child :=
  ⟨(forked h).1, (forked h).2.1, (forked h).2.2.1⟩

/-- Without a worker, whatever failed, nothing has changed for the caller. -/
theorem C98_failure_leaves_nothing {limit : Nat} {t : Table} {n : Nat} {specs : List ChanSpec} {b : Bool} {t' : Table}
    (h : getNewWorker limit t n specs b = .inl t') : Same t t' := not_forked h

/-- If there are descriptors enough and the fork succeeds there is a worker. -/
theorem C98_created_if_room {limit : Nat} {t : Table} {n : Nat} {specs : List ChanSpec} (h : t.length + 2 * specs.length ≤ limit) :
    ∃ f, getNewWorker limit t n specs true = .inr f := by
  obtain ⟨t', r, h1⟩ := room specs t n [] h
  exact ⟨_, by simp only [getNewWorker, h1, if_true]; rfl⟩

theorem made_redirs : ∀ {n : Nat} {specs : List ChanSpec} {ps cs : List Chan}, MadeAll n specs ps cs →
    cs.filterMap (·.spec.redir) = targets specs ∧ cs.map (·.spec) = specs ∧
      ∀ c ∈ cs, c.to.cloexec = true ↔ c.spec.wire = .socket
  | _, [], [], [], _ => by simp [targets]
  | n, spec :: specs, p :: ps, c :: cs, ⟨h1, h2⟩ => by
    obtain ⟨g1, g2, g3⟩ := made_redirs h2
    have hc := h1.cspec
    refine ⟨?_, by simp [hc, g2], ?_⟩
    · simp only [targets] at g1 ⊢
      simp only [List.filterMap_cons, hc, g1]
    · intro d hd
      rcases List.mem_cons.mp hd with rfl | hd
      · rw [h1.cend, hc]; simp
      · exact g3 d hd
  | _, [], _ :: _, _, h => by simp [MadeAll] at h
  | _, [], [], _ :: _, h => by simp [MadeAll] at h
  | _, _ :: _, [], _, h => by simp [MadeAll] at h
  | _, _ :: _, _ :: _, [], h => by simp [MadeAll] at h

/-- An external program has its channels as asked for and nothing else.  Missing from the full statement: the descriptors asked for are ones
    the caller has open (as stdin, stdout and stderr usually are), see `C98_closed_stdin_counterexample`. -/
theorem C98_external_program_partial {limit : Nat} {t : Table} {n : Nat} {specs : List ChanSpec} {b : Bool} {f : Forked}
    (h : getNewWorker limit t n specs b = .inr f) (hne : specs ≠ []) (hd : (targets specs).Nodup)
    (ho : ∀ r ∈ targets specs, r < limit ∧ look t r ≠ none) :
    ∃ t', runExternal limit f = some t' ∧ ProgramFds f.own t' := by
  obtain ⟨g1, _, g3, g4⟩ := forked h
  obtain ⟨m1, m2, m3⟩ := made_redirs g1
  have hopen : ∀ c ∈ f.own, look f.child c.fd = some c.to := fun c hc =>
    (g3.iff c.fd c.to).mpr (.inr (List.mem_map_of_mem (f := fun c : Chan => (c.fd, c.to)) hc))
  -- a descriptor for the directory
  have hroom : freeFd f.child < limit := by
    cases hp : f.proxy with
    | nil =>
      cases specs with
      | nil => exact absurd rfl hne
      | cons s ss => rw [hp] at g1; simp [MadeAll] at g1
    | cons p ps =>
      obtain ⟨k1, k2⟩ := g4 p (by rw [hp]; simp)
      exact Nat.lt_of_le_of_lt (free_le k2) k1
  have hcn : ∃ t1, closeNonChannel limit f.child f.own = some t1 := ⟨_, by simp only [closeNonChannel, if_pos hroom]; rfl⟩
  obtain ⟨t1, h1⟩ := hcn
  have hl := look_nonChannel (fun c hc => by rw [hopen c hc]; simp) h1
  have hnd : (f.own.map (·.fd)).Nodup := by rw [← entries_fst]; exact g3.nodup
  have hred : ∀ c ∈ f.own, ∀ r, c.spec.redir = some r → r < limit ∧ look t1 r = none := by
    intro c hc r hr
    obtain ⟨k1, k2⟩ := ho r (by rw [← m1]; exact List.mem_filterMap.mpr ⟨c, hc, hr⟩)
    refine ⟨k1, ?_⟩
    rw [hl, if_neg]
    intro hm
    obtain ⟨d, hd, e⟩ := List.mem_map.mp hm
    have := g3.free (d.fd, d.to) (List.mem_map_of_mem (f := fun c : Chan => (c.fd, c.to)) hd)
    simp only [e] at this
    exact k2 this
  obtain ⟨t2, cs2, h2, h3⟩ := setup_spec (limit := limit) f.own t1
    (fun c hc => by rw [hl, if_pos (List.mem_map_of_mem (f := Chan.fd) hc)]; exact hopen c hc) hnd (by rw [m1]; exact hd) hred
  refine ⟨exec t2, by simp [runExternal, h1, h2], ?_⟩
  intro i x
  rw [look_exec, Option.filter_eq_some_iff, h3]
  constructor
  · rintro ⟨(⟨e1, e2⟩ | ⟨c, hc, rfl, rfl⟩), hx⟩
    · rw [hl, if_neg e2] at e1; cases e1
    · refine ⟨c, hc, ?_⟩
      have hm := m3 c hc
      simp only [finalTo] at hx ⊢
      simp only [finalFd]
      cases hr : c.spec.redir with
      | some r => simp
      | none =>
        simp only [hr, Bool.not_eq_true'] at hx
        refine ⟨?_, .inr ⟨rfl, rfl, fun e => ?_⟩⟩
        · show c.to = _
          rw [← hx]
        · rw [hm.mpr e] at hx; cases hx
  · rintro ⟨c, hc, rfl, (hr | ⟨hr, rfl, hw⟩)⟩
    · exact ⟨.inr ⟨c, hc, by simp [finalFd, hr], by simp [finalTo, hr]⟩, rfl⟩
    · refine ⟨.inr ⟨c, hc, by simp [finalFd, hr], ?_⟩, rfl⟩
      have hx : c.to.cloexec = false := by
        cases e : c.to.cloexec with
        | false => rfl
        | true => exact absurd ((m3 c hc).mp e) hw
      simp only [finalTo, hr]
      rw [← hx]

/-- a daemon with stdin, stdout and stderr and a socket of its own -/
def fdsTable : Table := [some ⟨.other 1, false⟩, some ⟨.other 2, false⟩, some ⟨.other 2, false⟩, some ⟨.other 3, true⟩]

/-- an external program that gets its input and output through pipes, and a socket that is not redirected -/
def fdsSpecs : List ChanSpec := [⟨.pipeToWrk, some 0⟩, ⟨.pipeToPrx, some 1⟩, ⟨.pipeToPrx, none⟩, ⟨.socket, none⟩]

/-- the hypotheses are met: the program has the pipes as 0 and 1, the third one as 9, and nothing else -/
example : (match getNewWorker 1024 fdsTable 7 fdsSpecs true with
    | .inr f => runExternal 1024 f
    | .inl _ => none) =
    some [some ⟨.wire 7 .rd, false⟩, some ⟨.wire 8 .wr, false⟩, none, none, none, none, none, none, none, some ⟨.wire 9 .wr, false⟩, none, none] := by
  decide

example : (targets fdsSpecs).Nodup ∧ ∀ r ∈ targets fdsSpecs, r < 1024 ∧ look fdsTable r ≠ none := by decide

/-- the descriptors run out at the third channel: what was created is closed again -/
example : getNewWorker 9 fdsTable 7 fdsSpecs true = .inl (fdsTable ++ [none, none, none, none]) := by decide

/-- the fork fails -/
example : getNewWorker 1024 fdsTable 7 [⟨.socket, none⟩] false = .inl (fdsTable ++ [none, none]) := by decide

/-- The descriptor asked for is free in the caller, and the lowest one: the program runs without it, and without anything else. -/
theorem C98_closed_stdin_counterexample {limit : Nat} {t : Table} {n r : Nat} {b : Bool} {f : Forked} (hr : freeFd t = r)
    (h : getNewWorker limit t n [⟨.pipeToWrk, some r⟩] b = .inr f) :
    ∃ t', runExternal limit f = some t' ∧ (∀ i, look t' i = none) ∧ ¬ ProgramFds f.own t' := by
  obtain ⟨g1, _, g3, g4⟩ := forked h
  -- the worker's channel has this very descriptor
  have hown : ∃ p, f.own = [⟨⟨.pipeToWrk, some r⟩, r, ⟨.wire n .rd, false⟩⟩] ∧ f.proxy = [p] := by
    cases hc : createChannel limit t n ⟨.pipeToWrk, some r⟩ with
    | none => simp [getNewWorker, createChannels, hc] at h
    | some v =>
      obtain ⟨t', p, c⟩ := v
      cases b
      · simp [getNewWorker, createChannels, hc] at h
      · simp only [getNewWorker, createChannels, hc, if_true, Sum.inr.injEq] at h
        subst h
        rw [channel_toWrk hc, hr]
        exact ⟨p, rfl, rfl⟩
  obtain ⟨p, hown, hp⟩ := hown
  obtain ⟨k1, k2⟩ := g4 p (by rw [hp]; simp)
  have hroom : freeFd f.child < limit := Nat.lt_of_le_of_lt (free_le k2) k1
  have hopen : look f.child r = some ⟨.wire n .rd, false⟩ := (g3.iff r _).mpr (.inr (by simp [entries, hown]))
  have hcn : ∃ t1, closeNonChannel limit f.child f.own = some t1 := ⟨_, by simp only [closeNonChannel, if_pos hroom]; rfl⟩
  obtain ⟨t1, h1⟩ := hcn
  have hl := look_nonChannel (fun c hc => by rw [hown] at hc; simp only [List.mem_singleton] at hc; subst hc; rw [hopen]; simp) h1
  simp only [hown, List.map_cons, List.map_nil, List.mem_singleton] at hl
  have hr1 : look t1 r = some ⟨.wire n .rd, false⟩ := by rw [hl, if_pos rfl, hopen]
  have hrl : r < limit := by
    have := (getNewWorker_limit h)
    rw [hr] at this
    exact this
  have hs : setupChannels limit t1 f.own = some (closeFd t1 r, [⟨⟨.pipeToWrk, some r⟩, r, ⟨.wire n .rd, false⟩⟩]) := by
    simp [hown, setupChannels, redirect, dup2, hr1, hrl]
  have hnone : ∀ i, look (exec (closeFd t1 r)) i = none := by
    intro i
    rw [look_exec, look_close, hl]
    by_cases e : i = r <;> simp [e]
  refine ⟨exec (closeFd t1 r), by simp [runExternal, h1, hs], hnone, ?_⟩
  intro hpf
  have := (hpf r ⟨.wire n .rd, false⟩).mpr ⟨_, by rw [hown]; exact List.mem_singleton.mpr rfl, rfl, .inl rfl⟩
  rw [hnone] at this
  cases this

/-- with stdin closed -/
example : (match getNewWorker 1024 [none, some ⟨.other 2, false⟩, some ⟨.other 2, false⟩] 0 [⟨.pipeToWrk, some 0⟩] true with
    | .inr f => runExternal 1024 f
    | .inl _ => none) = some [none, none, none, none] := by decide

/-! ### C99: an end of a channel is held by its process only, and no descriptors pile up -/

/-- Whatever workers were created, failed to be created, began to run, ended and were noticed to have ended: the daemon has the descriptors it
    started with and those of the proxies of workers not yet noticed to have ended, and no others. -/
theorem C99_daemon_descriptors {limit : Nat} (t0 : Table) (n0 : Nat) (evs : List Ev) :
    Plus t0 (entries (proxies (run limit ⟨t0, n0, []⟩ evs).ws)) (run limit ⟨t0, n0, []⟩ evs).daemon := by
  obtain ⟨F, h⟩ := Inv.run (limit := limit) evs (inv_init t0 n0)
  exact h.daemon

/-- If all have been noticed, the daemon has the descriptors it started with. -/
theorem C99_no_leak {limit : Nat} (t0 : Table) (n0 : Nat) (evs : List Ev) (h : ∀ w ∈ (run limit ⟨t0, n0, []⟩ evs).ws, w.proxy = none) :
    Same t0 (run limit ⟨t0, n0, []⟩ evs).daemon := by
  have hd := C99_daemon_descriptors (limit := limit) t0 n0 evs
  have : proxies (run limit ⟨t0, n0, []⟩ evs).ws = [] := by
    refine List.flatMap_eq_nil_iff.mpr fun w hw => ?_
    rw [h w hw]; rfl
  rw [this] at hd
  exact hd.empty

/-- A worker that runs has its own channels and what the daemon started with, and nothing of other workers. -/
theorem C99_worker_descriptors {limit : Nat} (t0 : Table) (n0 : Nat) (evs : List Ev) {w : Wrk} {t : Table}
    (hw : w ∈ (run limit ⟨t0, n0, []⟩ evs).ws) (ht : w.table = some t) (hs : w.copies = none) : Plus t0 (entries w.own) t := by
  obtain ⟨F, h⟩ := Inv.run (limit := limit) evs (inv_init t0 n0)
  have := h.table w hw t ht
  rw [hs] at this
  simpa [entries] using this

/-- The proxy of a worker has the opposite ends of the worker's wires. -/
theorem C99_proxy_paired {limit : Nat} (t0 : Table) (n0 : Nat) (evs : List Ev) {w : Wrk} {q : List Chan}
    (hw : w ∈ (run limit ⟨t0, n0, []⟩ evs).ws) (hq : w.proxy = some q) : ∃ m specs, MadeAll m specs q w.own := by
  obtain ⟨F, h⟩ := Inv.run (limit := limit) evs (inv_init t0 n0)
  exact h.pair w hw q hq

/-- A worker's end of a channel is held by the worker and by no other process, running or not, so that the daemon sees the end of the stream
    as soon as the worker has closed it or has ended. -/
theorem C99_worker_end_private {limit : Nat} (t0 : Table) (n0 : Nat) (hb : Below t0 n0) (evs : List Ev) {i : Nat} {w : Wrk}
    (hw : (run limit ⟨t0, n0, []⟩ evs).ws[i]? = some w) {c : Chan} (hc : c ∈ w.own) :
    ¬ Holds (run limit ⟨t0, n0, []⟩ evs).daemon c.to.to ∧
    ∀ (j : Nat) v t, (run limit ⟨t0, n0, []⟩ evs).ws[j]? = some v → v.table = some t → Holds t c.to.to → j = i := by
  obtain ⟨F, h⟩ := Inv.run (limit := limit) evs (inv_init t0 n0)
  generalize run limit ⟨t0, n0, []⟩ evs = s at *
  have hwm : w ∈ s.ws := List.mem_of_getElem? hw
  have hce : c.to.to ∈ endsC w.own := List.mem_map_of_mem (f := fun c : Chan => c.to.to) hc
  have hco : c.to.to ∈ owns s.ws := List.mem_flatMap.mpr ⟨w, hwm, hce⟩
  have hnd := List.nodup_append.mp h.nodup
  have hF : c.to.to ∉ F := fun hf => hnd.2.2 _ hco _ hf rfl
  obtain ⟨k, side, e, hk, _⟩ := h.range c.to.to (List.mem_append_left _ hco)
  refine ⟨?_, ?_⟩
  · intro hh
    rw [e] at hh
    have := holds_plus h.daemon hb hk hh
    rw [← e] at this
    obtain ⟨d, hd, ed⟩ := List.mem_map.mp this
    exact hF (ed ▸ h.proxy d hd)
  · intro j v t hv ht hh
    have hvm : v ∈ s.ws := List.mem_of_getElem? hv
    have hp := h.table v hvm t ht
    have hp' : Plus t0 (entries (v.own ++ (v.copies.getD []).flatten)) t := by simpa [entries] using hp
    rw [e] at hh
    have hm := holds_plus hp' hb hk hh
    rw [← e] at hm
    simp only [endsC, List.map_append, List.mem_append] at hm
    rcases hm with hm | hm
    · -- an end of two workers
      exact nodup_flatMap_index (g := fun w : Wrk => endsC w.own) hnd.1 hv hw hm hce
    · obtain ⟨d, hd, ed⟩ := List.mem_map.mp hm
      exact absurd (ed ▸ h.copies v hvm d hd) hF

/-- After a worker has ended nobody holds an end of its channels but the proxy's. -/
theorem C99_ended_worker_noticed {limit : Nat} (t0 : Table) (n0 : Nat) (hb : Below t0 n0) (evs : List Ev) {i : Nat} {w : Wrk}
    (hw : (run limit ⟨t0, n0, []⟩ evs).ws[i]? = some w) (hended : w.table = none) {c : Chan} (hc : c ∈ w.own) :
    ¬ Holds (run limit ⟨t0, n0, []⟩ evs).daemon c.to.to ∧
    ∀ v ∈ (run limit ⟨t0, n0, []⟩ evs).ws, ∀ t, v.table = some t → ¬ Holds t c.to.to := by
  obtain ⟨h1, h2⟩ := C99_worker_end_private (limit := limit) t0 n0 hb evs hw hc
  refine ⟨h1, ?_⟩
  intro v hv t ht hh
  obtain ⟨j, hj⟩ := List.mem_iff_getElem?.mp hv
  have := h2 j v t hj ht hh
  subst this
  rw [hw] at hj
  simp only [Option.some.injEq] at hj
  subst hj
  rw [hended] at ht
  cases ht

/-- The daemon's end of a channel is held by no worker that runs, so that a worker sees the end of the stream when the daemon closes it or
    ends.  Missing from the full statement: workers that have been forked and do not run yet, see
    `C99_new_worker_holds_counterexample`. -/
theorem C99_proxy_end_private_partial {limit : Nat} (t0 : Table) (n0 : Nat) (hb : Below t0 n0) (evs : List Ev) {c : Chan}
    (hc : c ∈ proxies (run limit ⟨t0, n0, []⟩ evs).ws) :
    ∀ v ∈ (run limit ⟨t0, n0, []⟩ evs).ws, ∀ t, v.table = some t → v.copies = none → ¬ Holds t c.to.to := by
  intro v hv t ht hs hh
  have hp := C99_worker_descriptors (limit := limit) t0 n0 evs hv ht hs
  obtain ⟨F, h⟩ := Inv.run (limit := limit) evs (inv_init t0 n0)
  have hF := h.proxy c hc
  obtain ⟨k, side, e, hk, _⟩ := h.range c.to.to (List.mem_append_right _ hF)
  rw [e] at hh
  have hm := holds_plus hp hb hk hh
  rw [← e] at hm
  exact (List.nodup_append.mp h.nodup).2.2 _ (List.mem_flatMap.mpr ⟨v, hv, hm⟩) _ hF rfl

/-- the daemon's workers have one socket each (src/resource/ubr.c:7060-7062) -/
def fdsHist : List Ev := [.spawn [⟨.socket, none⟩] true, .start 0, .spawn [⟨.socket, none⟩] true]

/-- The second worker, until it begins to run, holds the daemon's end of the first one's channel. -/
theorem C99_new_worker_holds_counterexample :
    ∃ v ∈ (run 1024 ⟨fdsTable, 0, []⟩ fdsHist).ws, ∃ t, v.table = some t ∧ Holds t (.wire 0 .left) ∧
      ∃ c ∈ proxies (run 1024 ⟨fdsTable, 0, []⟩ fdsHist).ws, c.to.to = .wire 0 .left := by
  refine ⟨_, List.mem_of_getElem? (i := 1) rfl, _, rfl, ⟨4, ⟨.wire 0 .left, true⟩, by decide, rfl⟩, ?_⟩
  exact ⟨⟨⟨.socket, none⟩, 4, ⟨.wire 0 .left, true⟩⟩, by decide, rfl⟩

/-- the hypotheses are met -/
example : Below fdsTable 0 := by
  rintro k side ⟨i, x, h1, h2⟩
  simp only [look, fdsTable] at h1
  match i with
  | 0 | 1 | 2 | 3 => simp at h1; subst h1; cases h2
  | i + 4 => simp at h1

/-- two workers; the first one ends and is noticed, then the second one -/
def fdsLong : List Ev := fdsHist ++ [.start 1, .ends 0, .reap 0, .spawn [⟨.socket, none⟩, ⟨.pipeToPrx, none⟩] true, .ends 1, .reap 1]

example : (run 1024 ⟨fdsTable, 0, []⟩ fdsLong).daemon =
    fdsTable ++ [some ⟨.wire 2 .left, true⟩, none, none, some ⟨.wire 3 .rd, false⟩, none] := by decide

example : (run 1024 ⟨fdsTable, 0, []⟩ (fdsLong ++ [.ends 2, .reap 2])).daemon = fdsTable ++ [none, none, none, none, none] := by decide

example : ((run 1024 ⟨fdsTable, 0, []⟩ (fdsLong ++ [.start 2])).ws.map (·.table)) =
    [none, none, some (fdsTable ++ [none, none, some ⟨.wire 2 .right, true⟩, none, some ⟨.wire 3 .wr, false⟩])] := by decide

end Sid.Props
