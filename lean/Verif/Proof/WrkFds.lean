import Verif.Spec.WrkFds
/-
Helper lemmas for file descriptors of workers.
-/
namespace Sid.WrkFds
open Sid.Spec.WrkFds

/-! ### tables -/

theorem look_close (t : Table) (i j : Nat) : look (closeFd t i) j = if j = i then none else look t j := by
  simp only [look, closeFd, List.getElem?_set]
  by_cases h : i = j
  · subst h
    by_cases h2 : i < t.length <;> simp [h2]
  · simp [h, Ne.symm h]

theorem look_ext (t : Table) (n j : Nat) : look (t ++ List.replicate n none) j = look t j := by
  simp only [look, List.getElem?_append]
  split
  · rfl
  · rename_i h
    simp only [List.getElem?_replicate]
    rw [List.getElem?_eq_none (by omega)]
    split <;> rfl

theorem look_put (t : Table) (i j : Nat) (x : Fd) : look (put t i x) j = if j = i then some x else look t j := by
  simp only [put]
  by_cases h : j = i
  · subst h
    simp only [look, List.getElem?_set, if_true]
    rw [if_pos (by simp; omega)]
    rfl
  · rw [if_neg h]
    rw [← look_ext t (i + 1 - t.length) j]
    simp only [look, List.getElem?_set, if_neg (Ne.symm h)]

theorem look_free (t : Table) : look t (freeFd t) = none := by
  simp only [look, freeFd]
  by_cases h : t.findIdx Option.isNone < t.length
  · have := List.findIdx_getElem (w := h)
    rw [List.getElem?_eq_getElem h]
    simpa using this
  · rw [List.getElem?_eq_none (by omega)]
    rfl

theorem free_le {t : Table} {i : Nat} (h : look t i = none) : freeFd t ≤ i := by
  rw [freeFd]
  by_cases hl : i < t.length
  · refine Nat.le_of_not_lt fun hlt => ?_
    have := List.not_of_lt_findIdx hlt
    simp only [look, List.getElem?_eq_getElem hl, Option.getD_some] at h
    rw [h] at this
    cases this
  · exact Nat.le_trans List.findIdx_le_length (by omega)

/-- what closing a list of descriptors leaves -/
theorem look_closes (is : List Nat) : ∀ (t : Table) (j : Nat), look (is.foldl closeFd t) j = if j ∈ is then none else look t j := by
  induction is with
  | nil => intro t j; simp
  | cons i is ih =>
    intro t j
    rw [List.foldl_cons, ih, look_close]
    by_cases h1 : j ∈ is <;> by_cases h2 : j = i <;> simp [h1, h2]

theorem look_destroy (t : Table) (cs : List Chan) (j : Nat) :
    look (destroyChannels t cs) j = if j ∈ cs.map (·.fd) then none else look t j := by
  rw [← look_closes, List.foldl_map]
  rfl

theorem look_destroys (l : List (List Chan)) : ∀ (t : Table) (j : Nat),
    look (l.foldl destroyChannels t) j = if j ∈ l.flatten.map (·.fd) then none else look t j := by
  induction l with
  | nil => intro t j; simp
  | cons cs l ih =>
    intro t j
    rw [List.foldl_cons, ih, look_destroy, List.flatten_cons, List.map_append]
    by_cases h1 : j ∈ l.flatten.map (·.fd) <;> by_cases h2 : j ∈ cs.map (·.fd) <;> simp only [List.mem_append, h1, h2, or_true, true_or,
      or_false, if_true, if_false]

/-! ### sums of tables -/

theorem _root_.Sid.Spec.WrkFds.Plus.refl (t : Table) : Plus t [] t := ⟨by simp, by simp, by simp⟩

theorem _root_.Sid.Spec.WrkFds.Plus.perm {t t' l l'} (h : Plus t l t') (e : l.Perm l') : Plus t l' t' :=
  ⟨(e.map Prod.fst).nodup_iff.mp h.nodup, fun p hp => h.free p (e.mem_iff.mpr hp), fun i x => by rw [h.iff, e.mem_iff]⟩

theorem _root_.Sid.Spec.WrkFds.Plus.trans {t t1 t2 l1 l2} (h1 : Plus t l1 t1) (h2 : Plus t1 l2 t2) : Plus t (l1 ++ l2) t2 := by
  have hfree : ∀ p ∈ l2, look t p.1 = none := by
    intro p hp
    have := h2.free p hp
    cases e : look t p.1 with
    | none => rfl
    | some x => rw [(h1.iff p.1 x).mpr (.inl e)] at this; cases this
  refine ⟨?_, ?_, ?_⟩
  · rw [List.map_append]
    refine List.nodup_append.mpr ⟨h1.nodup, h2.nodup, ?_⟩
    intro a ha b hb e
    subst e
    obtain ⟨p, hp, rfl⟩ := List.mem_map.mp ha
    obtain ⟨q, hq, e⟩ := List.mem_map.mp hb
    have := h2.free q hq
    rw [e, (h1.iff p.1 p.2).mpr (.inr hp)] at this
    cases this
  · intro p hp
    rcases List.mem_append.mp hp with hp | hp
    · exact h1.free p hp
    · exact hfree p hp
  · intro i x
    rw [h2.iff, h1.iff, List.mem_append, or_assoc]

theorem _root_.Sid.Spec.WrkFds.Plus.add {t : Table} {i : Nat} (h : look t i = none) (x : Fd) : Plus t [(i, x)] (put t i x) := by
  refine ⟨by simp, by simpa using h, ?_⟩
  intro j y
  rw [look_put]
  by_cases e : j = i
  · subst e; simp [h, eq_comm]
  · simp [e]

theorem _root_.Sid.Spec.WrkFds.Plus.same {t t' l t''} (h : Plus t l t') (e : Same t' t'') : Plus t l t'' :=
  ⟨h.nodup, h.free, fun i x => by rw [e]; exact h.iff i x⟩

/-- closing the second part -/
theorem _root_.Sid.Spec.WrkFds.Plus.drop {t t' t'' l1 l2} (h : Plus t (l1 ++ l2) t')
    (hc : ∀ j, look t'' j = if j ∈ l2.map Prod.fst then none else look t' j) : Plus t l1 t'' := by
  have hnd := h.nodup
  rw [List.map_append, List.nodup_append] at hnd
  refine ⟨hnd.1, fun p hp => h.free p (by simp [hp]), ?_⟩
  intro i x
  rw [hc]
  by_cases hi : i ∈ l2.map Prod.fst
  · rw [if_pos hi]
    constructor
    · intro e; cases e
    · obtain ⟨p, hp, rfl⟩ := List.mem_map.mp hi
      rintro (e | e)
      · rw [h.free p (by simp [hp])] at e; cases e
      · exact absurd rfl (hnd.2.2 p.1 (List.mem_map.mpr ⟨(p.1, x), e, rfl⟩) p.1 hi)
  · rw [if_neg hi, h.iff, List.mem_append]
    constructor
    · rintro (e | e | e)
      · exact .inl e
      · exact .inr e
      · exact absurd (List.mem_map.mpr ⟨(i, x), e, rfl⟩) hi
    · rintro (e | e)
      · exact .inl e
      · exact .inr (.inl e)

theorem entries_fst (cs : List Chan) : (entries cs).map Prod.fst = cs.map (·.fd) := by
  simp [entries, Function.comp_def]

theorem _root_.Sid.Spec.WrkFds.Plus.destroy {t t' l1 cs} (h : Plus t (l1 ++ entries cs) t') : Plus t l1 (destroyChannels t' cs) :=
  h.drop fun j => by rw [look_destroy, entries_fst]

theorem _root_.Sid.Spec.WrkFds.Plus.empty {t t'} (h : Plus t [] t') : Same t t' := by
  intro i
  cases e : look t' i with
  | none =>
    cases e2 : look t i with
    | none => rfl
    | some x => rw [(h.iff i x).mpr (.inl e2)] at e; cases e
  | some x => simpa using (((h.iff i x).mp e).resolve_right (by simp)).symm

/-! ### creation -/

theorem two_spec {limit : Nat} {t : Table} {x y : Fd} {i j : Nat} {t' : Table} (h : openTwo limit t x y = some (i, j, t')) :
    Plus t [(i, x), (j, y)] t' ∧ i < limit ∧ j < limit := by
  simp only [openTwo] at h
  split at h
  · rename_i hl
    simp only [Option.some.injEq, Prod.mk.injEq] at h
    obtain ⟨rfl, rfl, rfl⟩ := h
    exact ⟨(Plus.add (look_free t) x).trans (Plus.add (look_free _) y), hl⟩
  · cases h

theorem channel_spec {limit : Nat} {t : Table} {n : Nat} {spec : ChanSpec} {t' : Table} {p c : Chan}
    (h : createChannel limit t n spec = some (t', p, c)) :
    Plus t [(p.fd, p.to), (c.fd, c.to)] t' ∧ p.fd < limit ∧ c.fd < limit ∧ Made n spec p c := by
  obtain ⟨wire, redir⟩ := spec
  simp only [createChannel] at h
  split at h
  · cases h
  · rename_i i j t1 ht
    obtain ⟨h1, h2, h3⟩ := two_spec ht
    cases wire <;> simp only [Option.some.injEq, Prod.mk.injEq] at h <;> obtain ⟨rfl, rfl, rfl⟩ := h
    · exact ⟨h1.perm (List.Perm.swap ..), h3, h2, rfl, rfl, rfl, rfl⟩
    · exact ⟨h1, h2, h3, rfl, rfl, rfl, rfl⟩
    · exact ⟨h1, h2, h3, rfl, rfl, rfl, rfl⟩

theorem created {limit : Nat} : ∀ (specs : List ChanSpec) (t : Table) (n : Nat) (done : List (Chan × Chan)) {t' ps cs},
    createChannels limit t n specs done = (t', some (ps, cs)) →
    ∃ ps' cs', ps = done.reverse.map (·.1) ++ ps' ∧ cs = done.reverse.map (·.2) ++ cs' ∧ MadeAll n specs ps' cs' ∧
      Plus t (entries ps' ++ entries cs') t' ∧ (∀ p ∈ ps', p.fd < limit) := by
  intro specs
  induction specs with
  | nil =>
    intro t n done t' ps cs h
    simp only [createChannels, Prod.mk.injEq, Option.some.injEq] at h
    obtain ⟨rfl, rfl, rfl⟩ := h
    exact ⟨[], [], by simp, by simp, trivial, Plus.refl t, by simp⟩
  | cons spec specs ih =>
    intro t n done t' ps cs h
    rw [createChannels] at h
    split at h
    · cases h
    · rename_i t1 p c hc
      obtain ⟨ps', cs', e1, e2, h1, h2, h3⟩ := ih _ _ _ h
      obtain ⟨g1, g2, _, g4⟩ := channel_spec hc
      refine ⟨p :: ps', c :: cs', by simpa using e1, by simpa using e2, ⟨g4, h1⟩, (g1.trans h2).perm ?_, ?_⟩
      · simp only [entries, List.map_cons, List.cons_append, List.nil_append]
        exact List.Perm.cons _ (List.perm_middle.symm)
      · intro q hq
        rcases List.mem_cons.mp hq with rfl | hq
        · exact g2
        · exact h3 q hq

/-- the descriptors made so far -/
def flat (done : List (Chan × Chan)) : List (Nat × Fd) := done.flatMap fun c => [(c.1.fd, c.1.to), (c.2.fd, c.2.to)]

theorem undone {t0 : Table} : ∀ (done : List (Chan × Chan)) {t : Table}, Plus t0 (flat done) t →
    Same t0 (done.foldl (fun t c => closeFd (closeFd t c.1.fd) c.2.fd) t) := by
  intro done
  induction done with
  | nil => intro t h; exact h.empty
  | cons c done ih =>
    intro t h
    rw [List.foldl_cons]
    refine ih ?_
    have h' : Plus t0 (flat done ++ [(c.1.fd, c.1.to), (c.2.fd, c.2.to)]) t := h.perm (List.perm_append_comm ..)
    refine h'.drop fun j => ?_
    rw [look_close, look_close]
    by_cases e1 : j = c.2.fd <;> by_cases e2 : j = c.1.fd <;> simp [e1, e2]

theorem not_created {limit : Nat} {t0 : Table} : ∀ (specs : List ChanSpec) (t : Table) (n : Nat) (done : List (Chan × Chan)) {t'},
    Plus t0 (flat done) t → createChannels limit t n specs done = (t', none) → Same t0 t' := by
  intro specs
  induction specs with
  | nil => intro t n done t' _ h; simp [createChannels] at h
  | cons spec specs ih =>
    intro t n done t' hp h
    rw [createChannels] at h
    split at h
    · simp only [Prod.mk.injEq, and_true] at h
      subst h
      exact undone done hp
    · rename_i t1 p c hc
      refine ih _ _ _ ?_ h
      exact (hp.trans (channel_spec hc).1).perm (List.perm_append_comm ..)

/-- a new worker -/
theorem forked {limit : Nat} {t : Table} {n : Nat} {specs : List ChanSpec} {b : Bool} {f : Forked}
    (h : getNewWorker limit t n specs b = .inr f) :
    MadeAll n specs f.proxy f.own ∧ Plus t (entries f.proxy) f.parent ∧ Plus t (entries f.own) f.child ∧
      (∀ p ∈ f.proxy, p.fd < limit ∧ look f.child p.fd = none) := by
  simp only [getNewWorker] at h
  split at h
  · cases h
  · rename_i t' ps cs hc
    split at h
    · simp only [Sum.inr.injEq] at h
      subst h
      obtain ⟨ps', cs', rfl, rfl, h1, h2, h3⟩ := created specs t n [] hc
      simp only [List.reverse_nil, List.map_nil, List.nil_append]
      refine ⟨h1, h2.destroy, (h2.perm List.perm_append_comm).destroy, fun p hp => ⟨h3 p hp, ?_⟩⟩
      rw [look_destroy, if_pos (List.mem_map_of_mem (f := Chan.fd) hp)]
    · cases h

theorem not_forked {limit : Nat} {t : Table} {n : Nat} {specs : List ChanSpec} {b : Bool} {t' : Table}
    (h : getNewWorker limit t n specs b = .inl t') : Same t t' := by
  simp only [getNewWorker] at h
  split at h
  · rename_i t1 hc
    simp only [Sum.inl.injEq] at h
    subst h
    exact not_created specs t n [] (Plus.refl t) hc
  · rename_i t1 ps cs hc
    split at h
    · cases h
    · simp only [Sum.inl.injEq] at h
      subst h
      obtain ⟨ps', cs', rfl, rfl, h1, h2, h3⟩ := created specs t n [] hc
      refine Plus.empty (Plus.destroy (l1 := []) ?_)
      rw [List.nil_append]
      exact (h2.perm List.perm_append_comm).destroy

/-- there is room -/
theorem free_length (t : Table) : freeFd t ≤ t.length := List.findIdx_le_length

theorem put_length {t : Table} (x : Fd) : (put t (freeFd t) x).length ≤ t.length + 1 := by
  have := free_length t
  simp [put]
  omega

theorem room {limit : Nat} : ∀ (specs : List ChanSpec) (t : Table) (n : Nat) (done : List (Chan × Chan)),
    t.length + 2 * specs.length ≤ limit → ∃ t' r, createChannels limit t n specs done = (t', some r) := by
  intro specs
  induction specs with
  | nil => intro t n done _; exact ⟨_, _, rfl⟩
  | cons spec specs ih =>
    intro t n done h
    simp only [List.length_cons] at h
    rw [createChannels]
    have hx : ∀ x y : Fd, ∃ i j t', openTwo limit t x y = some (i, j, t') ∧ t'.length ≤ t.length + 2 := by
      intro x y
      have h1 := free_length t
      have h2 := put_length (t := t) x
      have h3 := free_length (put t (freeFd t) x)
      have h4 := put_length (t := put t (freeFd t) x) y
      refine ⟨_, _, _, if_pos ⟨by omega, by omega⟩, by omega⟩
    obtain ⟨i, j, t1, h1, h2⟩ := hx (endsOf spec.wire n).1 (endsOf spec.wire n).2
    have : ∃ p c, createChannel limit t n spec = some (t1, p, c) := by
      simp only [createChannel, h1]
      cases spec.wire <;> exact ⟨_, _, rfl⟩
    obtain ⟨p, c, hc⟩ := this
    rw [hc]
    exact ih _ _ _ (by omega)

/-! ### external programs -/

theorem look_nonChannel {limit : Nat} {t : Table} {cs : List Chan} {t' : Table} (hc : ∀ c ∈ cs, look t c.fd ≠ none)
    (h : closeNonChannel limit t cs = some t') (j : Nat) : look t' j = if j ∈ cs.map (·.fd) then look t j else none := by
  simp only [closeNonChannel] at h
  split at h
  · simp only [Option.some.injEq] at h
    subst h
    have hd : freeFd t ∉ cs.map (·.fd) := by
      intro hm
      obtain ⟨c, h1, h2⟩ := List.mem_map.mp hm
      exact hc c h1 (by rw [h2]; exact look_free t)
    rw [look_close]
    by_cases e : j = freeFd t
    · rw [if_pos e, if_neg (by rw [e]; exact hd)]
    · rw [if_neg e]
      have : look ((put t (freeFd t) ⟨.other 0, true⟩).mapIdx fun i x => if i = freeFd t ∨ i ∈ cs.map (·.fd) then x else none) j =
          if j = freeFd t ∨ j ∈ cs.map (·.fd) then look (put t (freeFd t) ⟨.other 0, true⟩) j else none := by
        simp only [look, List.getElem?_mapIdx]
        cases (put t (freeFd t) ⟨.other 0, true⟩)[j]? with
        | none => simp
        | some x => simp
      rw [this, look_put, if_neg e]
      simp only [e, false_or]
  · cases h

theorem look_exec (t : Table) (j : Nat) : look (exec t) j = (look t j).filter fun y => !y.cloexec := by
  simp only [look, exec, List.getElem?_map]
  cases t[j]? <;> rfl

/-- the descriptor a channel of a worker ends up as -/
def finalFd (c : Chan) : Nat := c.spec.redir.getD c.fd

/-- what it is then -/
def finalTo (c : Chan) : Fd := match c.spec.redir with
  | none => c.to
  | some _ => { c.to with cloexec := false }

theorem setup_spec {limit : Nat} : ∀ (cs : List Chan) (t : Table), (∀ c ∈ cs, look t c.fd = some c.to) → (cs.map (·.fd)).Nodup →
    (cs.filterMap (·.spec.redir)).Nodup → (∀ c ∈ cs, ∀ r, c.spec.redir = some r → r < limit ∧ look t r = none) →
    ∃ t' cs', setupChannels limit t cs = some (t', cs') ∧
      ∀ i x, look t' i = some x ↔ (look t i = some x ∧ i ∉ cs.map (·.fd)) ∨ ∃ c ∈ cs, i = finalFd c ∧ x = finalTo c := by
  intro cs
  induction cs with
  | nil => intro t _ _ _ _; exact ⟨t, [], rfl, by simp⟩
  | cons c cs ih =>
    intro t h1 h2 h3 h4
    have h2' := List.nodup_cons.mp h2
    have hc := h1 c (by simp)
    cases hr : c.spec.redir with
    | none =>
      have h3' : (cs.filterMap (·.spec.redir)).Nodup := by simpa [hr] using h3
      obtain ⟨t', cs', g1, g2⟩ := ih t (fun d hd => h1 d (by simp [hd])) h2'.2 h3' (fun d hd => h4 d (by simp [hd]))
      refine ⟨t', c :: cs', by simp [setupChannels, redirect, hr, g1], ?_⟩
      intro i x
      rw [g2]
      simp only [List.map_cons, List.mem_cons, not_or, exists_eq_or_imp, finalFd, finalTo, hr, Option.getD_none]
      constructor
      · rintro (⟨e1, e2⟩ | e)
        · by_cases hi : i = c.fd
          · subst hi
            rw [hc] at e1
            exact .inr (.inl ⟨rfl, (Option.some.inj e1).symm⟩)
          · exact .inl ⟨e1, hi, e2⟩
        · exact .inr (.inr e)
      · rintro (⟨e1, _, e2⟩ | ⟨rfl, rfl⟩ | e)
        · exact .inl ⟨e1, e2⟩
        · exact .inl ⟨hc, h2'.1⟩
        · exact .inr e
    | some r =>
      obtain ⟨hlim, hfree⟩ := h4 c (by simp) r hr
      have hne : c.fd ≠ r := by rintro e; rw [e] at hc; rw [hfree] at hc; cases hc
      simp only [List.filterMap_cons, hr, List.nodup_cons] at h3
      have hd : dup2 limit t c.fd r = some (put t r { c.to with cloexec := false }) := by
        simp [dup2, hc, hlim, hne]
      have hl : ∀ j, look (closeFd (put t r { c.to with cloexec := false }) c.fd) j =
          if j = c.fd then none else if j = r then some { c.to with cloexec := false } else look t j := by
        intro j; rw [look_close, look_put]
      have hdr : ∀ d ∈ cs, d.fd ≠ r := by
        rintro d hd e
        have := h1 d (by simp [hd])
        rw [e, hfree] at this
        cases this
      have hrc : r ∉ cs.map (·.fd) := by
        intro hm
        obtain ⟨d, hd, e⟩ := List.mem_map.mp hm
        exact hdr d hd e
      obtain ⟨t', cs', g1, g2⟩ := ih (closeFd (put t r { c.to with cloexec := false }) c.fd)
        (by
          intro d hd
          have : d.fd ≠ c.fd := fun e => h2'.1 (List.mem_map.mpr ⟨d, hd, e⟩)
          rw [hl, if_neg this, if_neg (hdr d hd)]
          exact h1 d (by simp [hd]))
        h2'.2 h3.2
        (by
          intro d hdm r' hr'
          obtain ⟨k1, k2⟩ := h4 d (by simp [hdm]) r' hr'
          refine ⟨k1, ?_⟩
          rw [hl]
          have e2 : r' ≠ r := by
            rintro rfl
            exact h3.1 (List.mem_filterMap.mpr ⟨d, hdm, hr'⟩)
          rw [if_neg e2, k2, ite_self])
      refine ⟨t', { c with fd := r } :: cs', by simp [setupChannels, redirect, hr, hd, g1], ?_⟩
      intro i x
      rw [g2, hl]
      simp only [List.map_cons, List.mem_cons, not_or, exists_eq_or_imp, finalFd, finalTo, hr, Option.getD_some]
      by_cases e1 : i = c.fd
      · subst e1
        simp [hne]
      · by_cases e2 : i = r
        · subst e2
          simp [e1, hrc, hfree, eq_comm]
        · simp [e1, e2]

/-! ### the daemon -/

/-- ends of channels -/
def endsC (cs : List Chan) : List End := cs.map fun c => c.to.to

theorem made_range : ∀ {n : Nat} {specs : List ChanSpec} {ps cs : List Chan}, MadeAll n specs ps cs →
    (endsC cs ++ endsC ps).Nodup ∧ ∀ e ∈ endsC cs ++ endsC ps, ∃ k side, e = .wire k side ∧ n ≤ k ∧ k < n + specs.length
  | n, [], [], [], _ => by simp [endsC]
  | n, spec :: specs, p :: ps, c :: cs, ⟨h1, h2⟩ => by
    obtain ⟨g1, g2⟩ := made_range h2
    have hp : p.to.to = .wire n (proxySide spec.wire) := by rw [h1.pend]
    have hc : c.to.to = .wire n (workerSide spec.wire) := by rw [h1.cend]
    have hpc : c.to.to ≠ p.to.to := by rw [hp, hc]; cases spec.wire <;> simp [proxySide, workerSide]
    have hnew : ∀ e ∈ endsC cs ++ endsC ps, e ≠ p.to.to ∧ e ≠ c.to.to := by
      intro e he
      obtain ⟨k, side, rfl, hk, _⟩ := g2 e he
      rw [hp, hc]
      simp only [ne_eq, End.wire.injEq, not_and]
      exact ⟨fun e => by omega, fun e => by omega⟩
    have hperm : (endsC (c :: cs) ++ endsC (p :: ps)).Perm (c.to.to :: p.to.to :: (endsC cs ++ endsC ps)) := by
      simp only [endsC, List.map_cons, List.cons_append]
      exact List.Perm.cons _ List.perm_middle
    refine ⟨hperm.nodup_iff.mpr ?_, ?_⟩
    · refine List.nodup_cons.mpr ⟨?_, List.nodup_cons.mpr ⟨?_, g1⟩⟩
      · intro hm
        rcases List.mem_cons.mp hm with e | hm
        · exact hpc e
        · exact (hnew _ hm).2 rfl
      · intro hm; exact (hnew _ hm).1 rfl
    · intro e he
      rcases List.mem_cons.mp (hperm.mem_iff.mp he) with rfl | he
      · exact ⟨n, _, hc, Nat.le_refl _, by simp⟩
      · rcases List.mem_cons.mp he with rfl | he
        · exact ⟨n, _, hp, Nat.le_refl _, by simp⟩
        · obtain ⟨k, side, rfl, hk, hk'⟩ := g2 e he
          exact ⟨k, side, rfl, by omega, by simp; omega⟩
  | _, [], _ :: _, _, h => by simp [MadeAll] at h
  | _, [], [], _ :: _, h => by simp [MadeAll] at h
  | _, _ :: _, [], _, h => by simp [MadeAll] at h
  | _, _ :: _, _ :: _, [], h => by simp [MadeAll] at h

/-- the ends of all workers -/
def owns (ws : List Wrk) : List End := ws.flatMap fun w => endsC w.own

/-- what a history leaves; `F`: the ends of all proxies that ever were -/
structure Inv (t0 : Table) (n0 : Nat) (s : Sys) (F : List End) : Prop where
  le : n0 ≤ s.next
  daemon : Plus t0 (entries (proxies s.ws)) s.daemon
  table : ∀ w ∈ s.ws, ∀ t, w.table = some t → Plus t0 (entries w.own ++ entries (w.copies.getD []).flatten) t
  nodup : (owns s.ws ++ F).Nodup
  range : ∀ e ∈ owns s.ws ++ F, ∃ k side, e = .wire k side ∧ n0 ≤ k ∧ k < s.next
  proxy : ∀ c ∈ proxies s.ws, c.to.to ∈ F
  copies : ∀ w ∈ s.ws, ∀ c ∈ (w.copies.getD []).flatten, c.to.to ∈ F
  pair : ∀ w ∈ s.ws, ∀ q, w.proxy = some q → ∃ m specs, MadeAll m specs q w.own

theorem proxies_filterMap (ws : List Wrk) : (ws.filterMap (·.proxy)).flatten = proxies ws := by
  induction ws with
  | nil => rfl
  | cons w ws ih =>
    simp only [proxies, List.flatMap_cons] at ih ⊢
    cases h : w.proxy with
    | none => simp [h, ih]
    | some p => simp [h, ih]

theorem mem_modify {f : Wrk → Wrk} : ∀ {ws : List Wrk} {i : Nat} {w : Wrk}, w ∈ ws.modify i f → ∃ w0 ∈ ws, w = w0 ∨ w = f w0
  | [], i, w, h => by cases i <;> simp at h
  | v :: ws, 0, w, h => by
    simp only [List.modify_zero_cons, List.mem_cons] at h
    rcases h with rfl | h
    · exact ⟨v, by simp, .inr rfl⟩
    · exact ⟨w, by simp [h], .inl rfl⟩
  | v :: ws, i + 1, w, h => by
    simp only [List.modify_succ_cons, List.mem_cons] at h
    rcases h with rfl | h
    · exact ⟨w, by simp, .inl rfl⟩
    · obtain ⟨w0, h1, h2⟩ := mem_modify h
      exact ⟨w0, by simp [h1], h2⟩

theorem flatMap_modify {α : Type} {f : Wrk → Wrk} {g : Wrk → List α} (hg : ∀ w, g (f w) = g w) : ∀ (ws : List Wrk) (i : Nat),
    (ws.modify i f).flatMap g = ws.flatMap g
  | [], i => by cases i <;> rfl
  | v :: ws, 0 => by simp [hg]
  | v :: ws, i + 1 => by
    simp only [List.modify_succ_cons, List.flatMap_cons]
    rw [flatMap_modify hg ws i]

theorem start_own (w : Wrk) : (startWrk w).own = w.own ∧ (startWrk w).proxy = w.proxy := by
  simp only [startWrk]; split <;> exact ⟨rfl, rfl⟩

theorem Inv.step {limit : Nat} {t0 : Table} {n0 : Nat} {s : Sys} {F : List End} (h : Inv t0 n0 s F) (ev : Ev) :
    ∃ F', Inv t0 n0 (step limit s ev) F' := by
  cases ev with
  | spawn specs forks =>
    simp only [WrkFds.step, spawn]
    cases hg : getNewWorker limit s.daemon s.next specs forks with
    | inl t =>
      refine ⟨F, Nat.le_trans h.le (Nat.le_add_right _ _), h.daemon.same (not_forked hg), h.table, h.nodup, ?_, h.proxy, h.copies, h.pair⟩
      intro e he
      obtain ⟨k, side, rfl, h1, h2⟩ := h.range e he
      exact ⟨k, side, rfl, h1, by show k < s.next + _; omega⟩
    | inr f =>
      obtain ⟨g1, g2, g3, _⟩ := forked hg
      obtain ⟨r1, r2⟩ := made_range g1
      have hpx : proxies (s.ws ++ [⟨some f.child, f.own, some f.proxy, some (s.ws.filterMap (·.proxy))⟩]) = proxies s.ws ++ f.proxy := by
        simp [proxies]
      have hown : owns (s.ws ++ [⟨some f.child, f.own, some f.proxy, some (s.ws.filterMap (·.proxy))⟩]) = owns s.ws ++ endsC f.own := by
        simp [owns]
      have hperm : ((owns s.ws ++ endsC f.own) ++ (F ++ endsC f.proxy)).Perm ((owns s.ws ++ F) ++ (endsC f.own ++ endsC f.proxy)) := by
        simp only [List.append_assoc]
        refine List.Perm.append_left _ ?_
        simp only [← List.append_assoc]
        exact List.Perm.append_right _ List.perm_append_comm
      refine ⟨F ++ endsC f.proxy, ⟨Nat.le_trans h.le (Nat.le_add_right _ _), ?_, ?_, ?_, ?_, ?_, ?_, ?_⟩⟩
      · simp only [hpx]
        have := h.daemon.trans g2
        simpa [entries] using this
      · intro w hw t ht
        simp only [List.mem_append, List.mem_singleton] at hw
        rcases hw with hw | rfl
        · exact h.table w hw t ht
        · simp only [Option.some.injEq] at ht
          subst ht
          simp only [Option.getD_some, proxies_filterMap]
          exact (h.daemon.trans g3).perm List.perm_append_comm
      · simp only [hown]
        refine hperm.nodup_iff.mpr (List.nodup_append.mpr ⟨h.nodup, r1, ?_⟩)
        rintro e he e' he' rfl
        obtain ⟨k, side, rfl, _, h2⟩ := h.range e he
        obtain ⟨k', side', e', h3, _⟩ := r2 _ he'
        simp only [End.wire.injEq] at e'
        omega
      · intro e he
        simp only [hown] at he
        rcases List.mem_append.mp (hperm.mem_iff.mp he) with he | he
        · obtain ⟨k, side, rfl, h1, h2⟩ := h.range e he
          exact ⟨k, side, rfl, h1, by show k < s.next + _; omega⟩
        · obtain ⟨k, side, rfl, h1, h2⟩ := r2 e he
          have := h.le
          exact ⟨k, side, rfl, by omega, h2⟩
      · intro c hc
        simp only [hpx, List.mem_append] at hc ⊢
        rcases hc with hc | hc
        · exact .inl (h.proxy c hc)
        · exact .inr (List.mem_map_of_mem (f := fun c : Chan => c.to.to) hc)
      · intro w hw c hc
        simp only [List.mem_append, List.mem_singleton] at hw ⊢
        rcases hw with hw | rfl
        · exact .inl (h.copies w hw c hc)
        · simp only [Option.getD_some, proxies_filterMap] at hc
          exact .inl (h.proxy c hc)
      · intro w hw q hq
        simp only [List.mem_append, List.mem_singleton] at hw
        rcases hw with hw | rfl
        · exact h.pair w hw q hq
        · simp only [Option.some.injEq] at hq
          subst hq
          exact ⟨_, _, g1⟩
  | start i =>
    have hpx : proxies (s.ws.modify i startWrk) = proxies s.ws := flatMap_modify (fun w => by rw [(start_own w).2]) _ _
    have hown : owns (s.ws.modify i startWrk) = owns s.ws := flatMap_modify (fun w => by rw [(start_own w).1]) _ _
    refine ⟨F, h.le, ?_, ?_, ?_, ?_, ?_, ?_, ?_⟩
    · simp only [WrkFds.step, hpx]; exact h.daemon
    · intro w hw t ht
      obtain ⟨w0, h1, h2⟩ := mem_modify hw
      rcases h2 with rfl | rfl
      · exact h.table _ h1 t ht
      · simp only [startWrk] at ht ⊢
        split at ht
        · rename_i t1 cs e1 e2
          simp only [Option.some.injEq] at ht
          subst ht
          have := h.table w0 h1 t1 e1
          rw [e2] at this
          simp only [Option.getD_none, List.flatten_nil, entries, List.map_nil, List.append_nil]
          refine this.drop fun j => ?_
          rw [look_destroys, Option.getD_some, entries_fst]
        · exact h.table w0 h1 t ht
    · simp only [WrkFds.step, hown]; exact h.nodup
    · simp only [WrkFds.step, hown]; exact h.range
    · simp only [WrkFds.step, hpx]; exact h.proxy
    · intro w hw c hc
      obtain ⟨w0, h1, h2⟩ := mem_modify hw
      rcases h2 with rfl | rfl
      · exact h.copies _ h1 c hc
      · simp only [startWrk] at hc
        split at hc
        · simp at hc
        · exact h.copies _ h1 c hc
    · intro w hw q hq
      obtain ⟨w0, h1, h2⟩ := mem_modify hw
      rcases h2 with rfl | rfl
      · exact h.pair _ h1 q hq
      · rw [(start_own w0).2] at hq
        rw [(start_own w0).1]
        exact h.pair _ h1 q hq
  | ends i =>
    have hpx : proxies (s.ws.modify i endWrk) = proxies s.ws := flatMap_modify (f := endWrk) (g := fun w => w.proxy.getD []) (fun _ => rfl) _ _
    have hown : owns (s.ws.modify i endWrk) = owns s.ws := flatMap_modify (f := endWrk) (g := fun w => endsC w.own) (fun _ => rfl) _ _
    refine ⟨F, h.le, ?_, ?_, ?_, ?_, ?_, ?_, ?_⟩
    · simp only [WrkFds.step, hpx]; exact h.daemon
    · intro w hw t ht
      obtain ⟨w0, h1, h2⟩ := mem_modify hw
      rcases h2 with rfl | rfl
      · exact h.table _ h1 t ht
      · cases ht
    · simp only [WrkFds.step, hown]; exact h.nodup
    · simp only [WrkFds.step, hown]; exact h.range
    · simp only [WrkFds.step, hpx]; exact h.proxy
    · intro w hw c hc
      obtain ⟨w0, h1, h2⟩ := mem_modify hw
      rcases h2 with rfl | rfl <;> exact h.copies _ h1 c hc
    · intro w hw q hq
      obtain ⟨w0, h1, h2⟩ := mem_modify hw
      rcases h2 with rfl | rfl <;> exact h.pair _ h1 q hq
  | reap i =>
    simp only [WrkFds.step]
    cases hw : s.ws[i]? with
    | none => exact ⟨F, h⟩
    | some w =>
      simp only [reapWrk]
      split
      · rename_i ps ht hp
        obtain ⟨hi, hwi⟩ := List.getElem?_eq_some_iff.mp hw
        have hsplit : s.ws = s.ws.take i ++ w :: s.ws.drop (i + 1) := by
          rw [← hwi, List.getElem_cons_drop, List.take_append_drop]
        have hset : s.ws.set i { w with proxy := none } = s.ws.take i ++ { w with proxy := none } :: s.ws.drop (i + 1) := by
          rw [List.set_eq_take_append_cons_drop, if_pos hi]
        have hmem : ∀ v ∈ s.ws.set i { w with proxy := none }, v ∈ s.ws ∨ v = { w with proxy := none } := by
          intro v hv
          exact List.mem_or_eq_of_mem_set hv
        have hwm : w ∈ s.ws := by rw [← hwi]; exact List.getElem_mem hi
        have hown : owns (s.ws.set i { w with proxy := none }) = owns s.ws := by
          rw [hset]
          conv => rhs; rw [hsplit]
          simp only [owns, List.flatMap_append, List.flatMap_cons]
        have hpx : (proxies s.ws).Perm (proxies (s.ws.set i { w with proxy := none }) ++ ps) := by
          rw [hset]
          conv => lhs; rw [hsplit]
          simp only [proxies, List.flatMap_append, List.flatMap_cons, hp, Option.getD_some, Option.getD_none, List.nil_append,
            List.append_assoc]
          exact List.Perm.append_left _ List.perm_append_comm
        refine ⟨F, h.le, ?_, ?_, ?_, ?_, ?_, ?_, ?_⟩
        · refine Plus.destroy (h.daemon.perm ?_)
          have := hpx.map fun c : Chan => (c.fd, c.to)
          simpa only [entries, List.map_append] using this
        · intro v hv t hvt
          rcases hmem v hv with hv | rfl
          · exact h.table v hv t hvt
          · rw [ht] at hvt; cases hvt
        · simp only [hown]; exact h.nodup
        · simp only [hown]; exact h.range
        · intro c hc
          exact h.proxy c (hpx.mem_iff.mpr (List.mem_append_left _ hc))
        · intro v hv c hc
          rcases hmem v hv with hv | rfl
          · exact h.copies v hv c hc
          · exact h.copies w hwm c hc
        · intro v hv q hq
          rcases hmem v hv with hv | rfl
          · exact h.pair v hv q hq
          · cases hq
      · have : s.ws.set i w = s.ws := by
          obtain ⟨hi, hwi⟩ := List.getElem?_eq_some_iff.mp hw
          rw [← hwi, List.set_getElem_self]
        rw [this]
        exact ⟨F, h⟩

theorem Inv.run {limit : Nat} {t0 : Table} {n0 : Nat} : ∀ (evs : List Ev) {s : Sys} {F : List End}, Inv t0 n0 s F →
    ∃ F', Inv t0 n0 (run limit s evs) F'
  | [], _, F, h => ⟨F, h⟩
  | ev :: evs, _, _, h => by
    obtain ⟨F1, h1⟩ := h.step (limit := limit) ev
    exact Inv.run evs h1

theorem inv_init (t0 : Table) (n0 : Nat) : Inv t0 n0 ⟨t0, n0, []⟩ [] :=
  ⟨Nat.le_refl _, Plus.refl t0, by simp, by simp [owns], by simp [owns], by simp [proxies], by simp, by simp⟩

/-- a process with these descriptors holds nothing but what it had and these -/
theorem holds_plus {t0 t : Table} {cs : List Chan} {n0 k : Nat} {side : Side} (h : Plus t0 (entries cs) t) (hb : Below t0 n0) (hk : n0 ≤ k)
    (hh : Holds t (.wire k side)) : .wire k side ∈ endsC cs := by
  obtain ⟨i, x, h1, h2⟩ := hh
  rcases (h.iff i x).mp h1 with h3 | h3
  · have := hb k side ⟨i, x, h3, h2⟩
    omega
  · obtain ⟨c, hc, e⟩ := List.mem_map.mp h3
    simp only [Prod.mk.injEq] at e
    rw [← h2, ← e.2]
    exact List.mem_map_of_mem (f := fun c : Chan => c.to.to) hc

theorem nodup_flatMap_index {α β : Type} {g : α → List β} {e : β} {v w : α} : ∀ {l : List α} {j i : Nat}, (l.flatMap g).Nodup →
    l[j]? = some v → l[i]? = some w → e ∈ g v → e ∈ g w → j = i
  | [], j, i, _, hv, _, _, _ => by simp at hv
  | a :: l, 0, 0, _, _, _, _, _ => rfl
  | a :: l, 0, i + 1, h, hv, hw, ev, ew => by
    simp only [List.flatMap_cons, List.nodup_append] at h
    simp only [List.getElem?_cons_zero, Option.some.injEq] at hv
    simp only [List.getElem?_cons_succ] at hw
    subst hv
    exact absurd rfl (h.2.2 e ev e (List.mem_flatMap.mpr ⟨w, List.mem_of_getElem? hw, ew⟩))
  | a :: l, j + 1, 0, h, hv, hw, ev, ew => by
    simp only [List.flatMap_cons, List.nodup_append] at h
    simp only [List.getElem?_cons_zero, Option.some.injEq] at hw
    simp only [List.getElem?_cons_succ] at hv
    subst hw
    exact absurd rfl (h.2.2 e ew e (List.mem_flatMap.mpr ⟨v, List.mem_of_getElem? hv, ev⟩))
  | a :: l, j + 1, i + 1, h, hv, hw, ev, ew => by
    simp only [List.flatMap_cons, List.nodup_append] at h
    simp only [List.getElem?_cons_succ] at hv hw
    rw [nodup_flatMap_index h.2.1 hv hw ev ew]

theorem channel_toWrk {limit : Nat} {t : Table} {n : Nat} {r : Option Nat} {t' : Table} {p c : Chan}
    (h : createChannel limit t n ⟨.pipeToWrk, r⟩ = some (t', p, c)) : c = ⟨⟨.pipeToWrk, r⟩, freeFd t, ⟨.wire n .rd, false⟩⟩ := by
  simp only [createChannel] at h
  split at h
  · cases h
  · rename_i i j t1 ht
    simp only [Option.some.injEq, Prod.mk.injEq] at h
    obtain ⟨_, _, rfl⟩ := h
    simp only [openTwo] at ht
    split at ht
    · simp only [Option.some.injEq, Prod.mk.injEq] at ht
      rw [← ht.1]; rfl
    · cases ht

theorem getNewWorker_limit {limit : Nat} {t : Table} {n : Nat} {spec : ChanSpec} {specs : List ChanSpec} {b : Bool} {f : Forked}
    (h : getNewWorker limit t n (spec :: specs) b = .inr f) : freeFd t < limit := by
  by_cases hl : freeFd t < limit
  · exact hl
  · have hc : createChannel limit t n spec = none := by
      simp only [createChannel, openTwo]
      rw [if_neg (fun h => hl h.1)]
    simp only [getNewWorker, createChannels, hc] at h
    cases h

end Sid.WrkFds
