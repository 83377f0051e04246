import Verif.Proof.SrvLnk3
/-
C47 (service links and their groups), C73 (what systemd is told).
-/
namespace Sid.Props
open Sid.Srv Sid.Spec.SrvLnk
open Sid.Ifc (txt)

/-- C47: after any history of correct calls, the next correct call is carried out without undefined behaviour (given enough
    rounds of its loops) and memory then again shows exactly what the calls were to do: every link has the settings in `s'`,
    and going through a group gives its members in order. -/
theorem C47_history (w0 w : World) (s s' : State) (op : Op) (h : Hist w0 w s) (hs : Step s op s') :
    ∃ fuel0, ∀ fuel, fuel0 ≤ fuel → ∃ w', exec fuel w op = some w' ∧ Hist w0 w' s' := by
  obtain ⟨f0, hf⟩ := exec_ok (hist_rep h) hs
  refine ⟨f0, fun fuel hl => ?_⟩
  obtain ⟨w', e, -⟩ := hf fuel hl
  exact ⟨w', e, .call h hs e⟩

/-- what memory shows after any history of calls: the settings of all links, each link's own group, and the members of each
    group in order, from the first to the last and back -/
theorem C47_memory (w0 w : World) (s : State) (h : Hist w0 w s) :
    (∀ a, (w.links a).map (fun l => Info.mk l.name l.kind l.notif l.flags l.data) = s.info a) ∧
    (∀ a l g, w.links a = some l → (l.group = some g ↔ ∃ xs, (g, xs) ∈ s.groups ∧ a ∈ xs)) ∧
    ∀ g xs, (g, xs) ∈ s.groups → ∀ fuel, xs.length ≤ fuel →
      Lst.walk w.heap g fuel (w.heap.n g) = some xs ∧ Lst.walkBack w.heap g fuel (w.heap.p g) = some xs.reverse := by
  have R := hist_rep h
  refine ⟨R.link, fun a l g hl => R.group a l hl g, fun g xs hg fuel hf => ?_⟩
  have hr := ring_of R hg
  exact ⟨Lst.walk_seg hr.1 hr.2 fuel hf, Lst.walkBack_seg hr.1 hr.2 fuel hf⟩

/-- removing a link from a group it is not in is refused with -EINVAL and changes nothing; removing a member succeeds -/
theorem C47_remove (w0 w : World) (s : State) (h : Hist w0 w s) (g a : Nat) (xs : List Nat) (hg : (g, xs) ∈ s.groups)
    (ha : s.info a ≠ none) : ∃ w', grpDel w g a = some (if a ∈ xs then 0 else -22, w') ∧ (a ∉ xs → w' = w) := by
  obtain ⟨w', e, -⟩ := grpDel_ok (hist_rep h) hg ha
  refine ⟨w', e, fun hn => ?_⟩
  rw [if_neg hn] at e
  unfold grpDel at e
  obtain ⟨l, hl, -⟩ := info_some (hist_rep h) ha
  rw [hl] at e
  simp only [Option.bind_some] at e
  split at e
  · rw [Option.map_eq_some_iff] at e
    obtain ⟨_, -, e⟩ := e
    simp at e
  · simp only [Option.some.injEq, Prod.mk.injEq] at e
    exact e.2.symm

/-- C47: a notification sent to a group, after any history of calls, reaches exactly the members whose mask has a kind of
    notification in common with it, each once and in order; each does what its type asks for; the result is the last error
    systemd gave, 0 if there was none.  Missing: a message with arguments that more than one link has to format, or one link
    twice (see `C47_counterexample_arguments`), and no message where a logger has to show one. -/
theorem C47_notify_partial (sd : Nat → Int) (w0 w : World) (s : State) (h : Hist w0 w s) (g : Nat) (xs : List Nat)
    (hg : (g, xs) ∈ s.groups) (n : Notif) (m : Msg) (fuel : Nat) (hf : xs.length ≤ fuel)
    (h1 : m.text = none → ∀ e ∈ takers s n xs, e.2.kind = .logger → uses e.2 n = 0)
    (h2 : m.args = true → ((takers s n xs).map fun e => uses e.2 n).sum ≤ 1) :
    ∃ t, grpNotify sd fuel w g n m = some t ∧
      t.reached = (takers s n xs).map (fun e => (e.1, does e.2 n (m.text.getD []))) ∧ t.result = lastError sd (takers s n xs) :=
  grpNotify_ok (hist_rep h) hg hf h1 h2

/-- who is among `takers`: the members with a common bit, in their order -/
theorem C47_takers (s : State) (n : Notif) (xs : List Nat) :
    (∀ x i, (x, i) ∈ takers s n xs ↔ x ∈ xs ∧ s.info x = some i ∧ ∃ k, i.notif.getLsbD k = true ∧ n.getLsbD k = true) ∧
    ((takers s n xs).map Prod.fst).Sublist xs := by
  constructor
  · intro x i
    simp only [takers, List.mem_filterMap, Option.bind_eq_some_iff]
    constructor
    · rintro ⟨y, hy, j, hj, h⟩
      split at h
      · rename_i ht
        simp only [Option.some.injEq, Prod.mk.injEq] at h
        obtain ⟨rfl, rfl⟩ := h
        obtain ⟨k, h1, h2⟩ := of_decide_eq_true ht
        exact ⟨hy, hj, k, h1, h2⟩
      · cases h
    · rintro ⟨hx, hi, k, h1, h2⟩
      have hk : k < 64 := BitVec.lt_of_getLsbD h1
      refine ⟨x, hx, i, hi, ?_⟩
      rw [if_pos]
      exact decide_eq_true ⟨⟨k, hk⟩, h1, h2⟩
  · induction xs with
    | nil => simp [takers]
    | cons x xs ih =>
      simp only [takers, List.filterMap_cons] at ih ⊢
      split
      · exact ih.cons x
      · rename_i b hb
        simp only [Option.bind_eq_some_iff] at hb
        obtain ⟨i, -, hb⟩ := hb
        split at hb
        · simp only [Option.some.injEq] at hb
          subst hb
          exact ih.cons_cons x
        · cases hb

/-- the same for one link -/
theorem C47_notify_link_partial (rc : Int) (w0 w : World) (s : State) (h : Hist w0 w s) (a : Nat) (i : Info) (hi : s.info a = some i)
    (n : Notif) (m : Msg) (h1 : m.text = none → i.kind = .logger → uses i n = 0) (h2 : m.args = true → uses i n ≤ 1) :
    notify rc w a n m = some (if takes i n then does i n (m.text.getD []) else [],
      if takes i n ∧ i.kind = .systemd then rc else 0) := notify_ok (hist_rep h) hi h1 h2

/-- C47 is false if a message has arguments and they are needed more than once: the second use of the argument list is
    undefined behaviour, whatever the group, the message and the rest of the members -/
theorem C47_counterexample_arguments (sd : Nat → Int) (w0 w : World) (s : State) (h : Hist w0 w s) (g : Nat) (xs : List Nat)
    (hg : (g, xs) ∈ s.groups) (n : Notif) (t : Str) (h2 : 2 ≤ ((takers s n xs).map fun e => uses e.2 n).sum) (fuel : Nat) :
    grpNotify sd fuel w g n { text := some t, args := true } = none := by
  have R := hist_rep h
  unfold grpNotify
  cases hgn : w.groups g with
  | none => rfl
  | some nm =>
    simp only [Option.bind_some]
    rw [ring_first R hg]
    exact tour_ub R rfl rfl xs [] fuel {} hg (by simpa using h2)

/-- C47: merging works if the source has no members: the source is gone, all else is as before.  Missing: a source with members
    (see `C47_counterexample_merge`). -/
theorem C47_merge_partial (w0 w : World) (s1 s2 : List (Nat × List Nat)) (info : Nat → Option Info) (dest src : Nat)
    (h : Hist w0 w ⟨s1 ++ (src, []) :: s2, info⟩) (fuel : Nat) :
    ∃ w', grpMerge fuel w dest src = some w' ∧ Hist w0 w' ⟨s1 ++ s2, info⟩ := by
  have R := hist_rep h
  have hn : w.heap.n src = src := ring_first R (xs := []) (by simp)
  have hm : mergeLoop dest src fuel w src (w.heap.n src) = some w := by cases fuel <;> simp [mergeLoop]
  obtain ⟨w', e, -⟩ := grpDestroy_ok R (fuel := fuel) (by simp)
  cases hgn : w.groups src with
  | none => exact absurd hgn (R.alive (src, []) (by simp))
  | some nm =>
    refine ⟨w', ?_, .call (fuel := fuel) h Step.grpDestroy e⟩
    unfold grpMerge
    rw [hgn]
    simp only [Option.bind_some]
    rw [hn, hm]
    exact e

/-- C47 is false for merging: whatever was done before, merging a group with members into another one is undefined behaviour.
    (Members are linked into the destination without being unlinked from the source; destroying the source then goes on from
    its last member to the head of the destination and writes there as if it were a link.) -/
theorem C47_counterexample_merge (w0 w : World) (s : State) (h : Hist w0 w s) (dest src : Nat) (ds xs : List Nat)
    (hd : (dest, ds) ∈ s.groups) (hs : (src, xs) ∈ s.groups) (hne : dest ≠ src) (hx : xs ≠ []) (fuel : Nat) :
    grpMerge fuel w dest src = none := grpMerge_ub (hist_rep h) hd hs hne hx fuel

/-- C47: a new resource gets a group of its own with copies of the links of its parent that may be copied, in their order and
    with all their settings, followed by the links defined for it with the settings of their definitions (up to the first
    definition of no type); nothing else changes. -/
theorem C47_resource (w0 w : World) (s : State) (h : Hist w0 w s) (p g : Nat) (xs clones new : List Nat) (name : Str)
    (defs : List Def) (hp : (p, xs) ∈ s.groups) (hnd : (g :: (clones ++ new)).Nodup) (hfr : ∀ a ∈ g :: (clones ++ new), ¬ s.Used a)
    (hc : clones.length = (cloneable s xs).length) (hn : new.length = (defs.takeWhile fun d => d.kind ≠ .none).length)
    (fuel : Nat) (hf : xs.length ≤ fuel) :
    ∃ w', resLinks fuel w (some p) g name (some defs) clones new = some (some g, w') ∧
      (∀ a, (w'.links a).map (fun l => Info.mk l.name l.kind l.notif l.flags l.data) =
        ((new.zip (defs.takeWhile fun d => d.kind ≠ .none)).lookup a).elim
          (((clones.zip (cloneable s xs)).lookup a).elim (s.info a) s.info) fun d => some (ofDef d)) ∧
      ∀ g' ys, (g', ys) ∈ (g, clones ++ new) :: s.groups → Lst.walk w'.heap g' (ys.length) (w'.heap.n g') = some ys := by
  have R := hist_rep h
  have hnd1 : (g :: clones).Nodup := hnd.sublist ((List.sublist_append_left _ _).cons_cons _)
  have hnd2 : (clones ++ new).Nodup := (List.nodup_cons.mp hnd).2
  obtain ⟨w1, e1, R1⟩ := grpClone_ok (name := some name) R hp hnd1
    (fun a ha => hfr a (by simp only [List.mem_cons, List.mem_append] at ha ⊢; rcases ha with h | h; exact Or.inl h; exact Or.inr (Or.inl h)))
    hc hf
  obtain ⟨w2, e2, R2⟩ := fromDefs_ok defs new clones _ w1 R1 (List.nodup_append.mp hnd2).2.1 (by
    intro a ha hu
    have hag : a ≠ g := fun e => (List.nodup_cons.mp hnd).1 (by simp [← e, ha])
    have hac : a ∉ clones := fun hm => (List.nodup_append.mp hnd2).2.2 a hm a ha rfl
    refine hfr a (by simp [ha]) ?_
    rcases hu with hu | ⟨m, h1, h2⟩
    · left
      simp only [lookup_zip_none hac, Option.elim_none] at hu
      exact hu
    · rcases List.mem_cons.mp h1 with e | h1
      · subst e
        rcases h2 with h2 | h2
        · exact absurd h2 hag
        · exact absurd h2 hac
      · exact Or.inr ⟨m, h1, h2⟩) hn
  refine ⟨w2, ?_, R2.link, fun g' ys hg => ?_⟩
  · simp only [resLinks, e1, Option.bind_some, e2, Option.map_some]
  · have hr := ring_of R2 hg
    exact Lst.walk_seg hr.1 hr.2 _ (Nat.le_refl _)

/-- C73: the lines of the string given to systemd are exactly those the notification asks for -/
theorem C73_lines (n : Notif) (t : Str) : linesOf (systemdText n (some t)) = sdLines n t := by
  rw [systemdText_lines, linesOf_flat (sdLines_no_nl n t)]

/-- C73: whatever the text of the message is, systemd is told that the daemon is ready, is reloading, is stopping or that its
    watchdog is alive or has triggered if and only if the notification says so -/
theorem C73_states (n : Notif) (t : Str) :
    (txt "READY=1" ∈ linesOf (systemdText n (some t)) ↔ n.getLsbD 3 = true) ∧
    (txt "RELOADING=1" ∈ linesOf (systemdText n (some t)) ↔ n.getLsbD 4 = true) ∧
    (txt "STOPPING=1" ∈ linesOf (systemdText n (some t)) ↔ n.getLsbD 5 = true) ∧
    (txt "WATCHDOG=1" ∈ linesOf (systemdText n (some t)) ↔ n.getLsbD 6 = true) ∧
    (txt "WATCHDOG=trigger" ∈ linesOf (systemdText n (some t)) ↔ n.getLsbD 7 = true) := by
  simp only [C73_lines]
  have h1 : (txt "READY=1" = txt "RELOADING=1") = False := eq_false (by decide)
  have h2 : (txt "READY=1" = txt "STOPPING=1") = False := eq_false (by decide)
  have h3 : (txt "READY=1" = txt "WATCHDOG=1") = False := eq_false (by decide)
  have h4 : (txt "READY=1" = txt "WATCHDOG=trigger") = False := eq_false (by decide)
  have h5 : (txt "RELOADING=1" = txt "READY=1") = False := eq_false (by decide)
  have h6 : (txt "RELOADING=1" = txt "STOPPING=1") = False := eq_false (by decide)
  have h7 : (txt "RELOADING=1" = txt "WATCHDOG=1") = False := eq_false (by decide)
  have h8 : (txt "RELOADING=1" = txt "WATCHDOG=trigger") = False := eq_false (by decide)
  have h9 : (txt "STOPPING=1" = txt "READY=1") = False := eq_false (by decide)
  have h10 : (txt "STOPPING=1" = txt "RELOADING=1") = False := eq_false (by decide)
  have h11 : (txt "STOPPING=1" = txt "WATCHDOG=1") = False := eq_false (by decide)
  have h12 : (txt "STOPPING=1" = txt "WATCHDOG=trigger") = False := eq_false (by decide)
  have h13 : (txt "WATCHDOG=1" = txt "READY=1") = False := eq_false (by decide)
  have h14 : (txt "WATCHDOG=1" = txt "RELOADING=1") = False := eq_false (by decide)
  have h15 : (txt "WATCHDOG=1" = txt "STOPPING=1") = False := eq_false (by decide)
  have h16 : (txt "WATCHDOG=1" = txt "WATCHDOG=trigger") = False := eq_false (by decide)
  have h17 : (txt "WATCHDOG=trigger" = txt "READY=1") = False := eq_false (by decide)
  have h18 : (txt "WATCHDOG=trigger" = txt "RELOADING=1") = False := eq_false (by decide)
  have h19 : (txt "WATCHDOG=trigger" = txt "STOPPING=1") = False := eq_false (by decide)
  have h20 : (txt "WATCHDOG=trigger" = txt "WATCHDOG=1") = False := eq_false (by decide)
  refine ⟨?_, ?_, ?_, ?_, ?_⟩ <;>
    (rw [mem_sdLines _ _ _ (by decide) (by decide)]
     simp only [h1, h2, h3, h4, h5, h6, h7, h8, h9, h10, h11, h12, h13, h14, h15, h16, h17, h18, h19, h20,
       and_false, and_true, false_or, or_false])

/-- C73: nothing but these and the lines STATUS= and ERRNO= is ever said, and each of those at most once -/
theorem C73_nothing_else (n : Notif) (t l : Str) (h : l ∈ linesOf (systemdText n (some t))) :
    (n.getLsbD 1 = true ∧ ∃ v, valueOf (txt "STATUS=") (linesOf t) = some v ∧ l = txt "STATUS=" ++ v) ∨
    (n.getLsbD 2 = true ∧ ∃ v, valueOf (txt "ERRNO=") (linesOf t) = some v ∧ l = txt "ERRNO=" ++ v) ∨
    l ∈ [txt "READY=1", txt "RELOADING=1", txt "STOPPING=1", txt "WATCHDOG=1", txt "WATCHDOG=trigger"] := by
  rw [C73_lines] at h
  unfold sdLines at h
  simp only [List.mem_append, mem_if, List.mem_singleton, Option.mem_toList, Option.map_eq_some_iff] at h
  rcases h with (((((⟨h1, v, h2, h3⟩ | ⟨h1, v, h2, h3⟩) | ⟨-, h⟩) | ⟨-, h⟩) | ⟨-, h⟩) | ⟨-, h⟩) | ⟨-, h⟩
  · exact Or.inl ⟨h1, v, h2, h3.symm⟩
  · exact Or.inr (Or.inl ⟨h1, v, h2, h3.symm⟩)
  all_goals (right; right; simp [h])

/-! ### cases -/

/-- nothing is there yet -/
def slNone : World := ⟨⟨fun _ => 0, fun _ => 0⟩, fun _ => none, fun _ => none⟩

/-- the calls made by the daemon for its links, at some addresses: "systemd" for READY and STATUS, "logger" for READY and MESSAGE
    that may be copied; then a second group -/
def slOps : List Op :=
  [.grpCreate 10 (txt "sid"), .create 1 .systemd (txt "systemd"), .notifAdd 1 0xA, .grpAdd 10 1,
   .create 2 .logger (txt "logger"), .setFlags 2 1, .setData 2 7, .notifAdd 2 0x108, .grpAdd 10 2, .grpCreate 20 (txt "ubr")]

/-- the state after them -/
def slState : State :=
  ⟨[(20, []), (10, [1, 2])], fun x =>
    if x = 2 then some ⟨txt "logger", .logger, 0x108, 1, 7⟩ else if x = 1 then some ⟨txt "systemd", .systemd, 0xA, 0, 0⟩ else none⟩

/-- memory after them -/
def slWorld : World := (slOps.foldlM (exec 9) slNone).getD slNone

theorem sl_hist : Hist slNone slWorld slState := by
  have u0 : ∀ a, ¬ (State.mk [] fun _ => none).Used a := fun a h => by rcases h with h | ⟨l, h, -⟩ <;> simp_all
  have h0 : Hist slNone slNone ⟨[], fun _ => none⟩ := .start (fun _ => rfl) (fun _ => rfl)
  have h1 := Hist.call (fuel := 9) (w' := grpCreate slNone 10 (txt "sid")) h0 (Step.grpCreate (g := 10) (name := txt "sid") (u0 10)) rfl
  have h2 := Hist.call (fuel := 9) h1 (Step.create (a := 1) (kind := .systemd) (name := txt "systemd") (by simp [State.Used])) rfl
  have h3 := Hist.call (fuel := 9) h2 (Step.notifAdd (a := 1) (n := 0xA) (i := { name := txt "systemd", kind := .systemd }) (by simp [State.set])) rfl
  have h4 := Hist.call (fuel := 9) h3 (Step.grpAdd (s1 := []) (s2 := []) (g := 10) (xs := []) (a := 1) (by simp) (by simp [State.Member])) rfl
  have h5 := Hist.call (fuel := 9) h4 (Step.create (a := 2) (kind := .logger) (name := txt "logger") (by simp [State.Used, State.set])) rfl
  have h6 := Hist.call (fuel := 9) h5 (Step.setFlags (a := 2) (f := 1) (i := { name := txt "logger", kind := .logger }) (by simp [State.set])) rfl
  have h7 := Hist.call (fuel := 9) h6 (Step.setData (a := 2) (d := 7) (i := { name := txt "logger", kind := .logger, flags := 1 }) (by simp [State.set])) rfl
  have h8 := Hist.call (fuel := 9) h7 (Step.notifAdd (a := 2) (n := 0x108) (i := { name := txt "logger", kind := .logger, flags := 1, data := 7 }) (by simp [State.set])) rfl
  have h9 := Hist.call (fuel := 9) h8 (Step.grpAdd (s1 := []) (s2 := []) (g := 10) (xs := [1]) (a := 2) (by simp [State.set]) (by simp [State.Member])) rfl
  have h10 := Hist.call (fuel := 9) h9 (Step.grpCreate (g := 20) (name := txt "ubr") (by simp [State.Used, State.set])) rfl
  have es : slState = { (⟨[(10, [1, 2])], slState.info⟩ : State) with groups := [(20, []), (10, [1, 2])] } := rfl
  refine cast ?_ h10
  congr 1
  simp only [slState, State.mk.injEq, true_and]
  refine ⟨rfl, ?_⟩
  funext x
  by_cases h2 : x = 2
  · simp [State.set, h2]
  · by_cases h1 : x = 1 <;> simp [State.set, h1, h2]

/-- C47_history applies: a third group is made as a copy of the first -/
example : ∃ fuel0, ∀ fuel, fuel0 ≤ fuel → ∃ w', exec fuel slWorld (.grpClone 10 30 none [3]) = some w' ∧
    Hist slNone w' ⟨[(30, [3]), (20, []), (10, [1, 2])], fun x => ((([3].zip [2]).lookup x).elim (slState.info x) slState.info)⟩ :=
  C47_history slNone slWorld slState _ _ sl_hist
    (Step.grpClone (s := slState) (xs := [1, 2]) (by simp [slState]) (by decide) (by
      intro a ha
      simp only [List.mem_cons, List.not_mem_nil, or_false] at ha
      rcases ha with rfl | rfl <;> simp [State.Used, slState]) (by decide))

/-- C47_notify_partial applies: what starting the event loop tells systemd and the log -/
example : ∃ t, grpNotify (fun _ => 0) 9 slWorld 10 0xA { text := some (txt "STATUS=Processing requests...") } = some t ∧
    t.reached = [(1, [.sdNotify false (txt "STATUS=Processing requests...\nREADY=1\n")]),
      (2, [.log 7 (txt "STATUS=Processing requests..."), .log 7 (txt "| READY |")])] ∧ t.result = 0 := by
  obtain ⟨t, h1, h2, h3⟩ := C47_notify_partial (fun _ => 0) slNone slWorld slState sl_hist 10 [1, 2] (by simp [slState]) 0xA
    { text := some (txt "STATUS=Processing requests...") } 9 (by decide) (by simp) (by simp)
  exact ⟨t, h1, h2.trans (by decide +kernel), h3.trans (by decide +kernel)⟩

/-- C47_counterexample_arguments applies: the same with a message made from arguments -/
example : grpNotify (fun _ => 0) 9 slWorld 10 0xA { text := some (txt "STATUS=7 requests"), args := true } = none :=
  C47_counterexample_arguments (fun _ => 0) slNone slWorld slState sl_hist 10 [1, 2] (by simp [slState]) 0xA _ (by decide +kernel) 9

/-- C47_counterexample_merge applies: the first group merged into the second -/
example (fuel : Nat) : grpMerge fuel slWorld 20 10 = none :=
  C47_counterexample_merge slNone slWorld slState sl_hist 20 10 [] [1, 2] (by simp [slState]) (by simp [slState]) (by decide)
    (by decide) fuel

/-- C47_merge_partial applies: the second merged into the first -/
example : ∃ w', grpMerge 9 slWorld 10 20 = some w' ∧ Hist slNone w' ⟨[(10, [1, 2])], slState.info⟩ :=
  C47_merge_partial slNone slWorld [] [(10, [1, 2])] slState.info 10 20 sl_hist 9

/-- C47_remove applies: "logger" is not in the second group -/
example : ∃ w', grpDel slWorld 20 2 = some (-22, w') ∧ w' = slWorld := by
  obtain ⟨w', e, h⟩ := C47_remove slNone slWorld slState sl_hist 20 2 [] (by simp [slState]) (by simp [slState])
  exact ⟨w', e, h (by simp)⟩

/-- C47_resource applies: a child of the daemon's resource with one link of its own gets a copy of "logger" and that link -/
example : ∃ w', resLinks 9 slWorld (some 10) 30 (txt "child") (some [⟨txt "own", .logger, 0x100, 1, 8⟩, ⟨[], .none, 0, 0, 0⟩]) [3] [4] =
    some (some 30, w') ∧ Lst.walk w'.heap 30 2 (w'.heap.n 30) = some [3, 4] := by
  obtain ⟨w', h1, -, h3⟩ := C47_resource slNone slWorld slState sl_hist 10 30 [1, 2] [3] [4] (txt "child")
    [⟨txt "own", .logger, 0x100, 1, 8⟩, ⟨[], .none, 0, 0, 0⟩] (by simp [slState]) (by decide) (by
      intro a ha
      simp only [List.cons_append, List.nil_append, List.mem_cons, List.not_mem_nil, or_false] at ha
      rcases ha with rfl | rfl | rfl <;> simp [State.Used, slState]) (by decide) (by decide) 9 (by decide)
  exact ⟨w', h1, h3 30 [3, 4] (by simp)⟩

/-- C73: a status that tries to say READY=1 does not -/
example : linesOf (systemdText 0x2 (some (txt "STATUS=x\nREADY=1\n"))) = [txt "STATUS=x"] := by
  rw [C73_lines]; decide +kernel

end Sid.Props
