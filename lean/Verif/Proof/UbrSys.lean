import Verif.Spec.UbrSys
import Verif.Proof.UbrCmd
/-
Lemmas about the main process and the workers together (Model/UbrSys).
-/
namespace Sid.Sys
open Sid.Cmd Sid.Spec.Cmd Sid.Spec.Sys

/-! ### what a command shows -/

/-- the command shows something more, and no message came in -/
def Grows (c c' : Cmd) : Prop := ∃ new, c'.log = new ++ c.log ∧ ∀ x ∈ new, x ≠ .acked ∧ x ≠ .answered ∧ x ≠ .nextStage

theorem Grows.same {c c' : Cmd} (h : c'.log = c.log) : Grows c c' := ⟨[], h, by simp⟩

theorem Grows.trans {a b c : Cmd} (h : Grows a b) (h' : Grows b c) : Grows a c := by
  obtain ⟨n, h, hn⟩ := h
  obtain ⟨n', h', hn'⟩ := h'
  refine ⟨n' ++ n, by rw [h', h, List.append_assoc], fun x hx => ?_⟩
  rcases List.mem_append.1 hx with hx | hx
  · exact hn' x hx
  · exact hn x hx

theorem Grows.see {c : Cmd} {x : Obs} (h : x ≠ .acked ∧ x ≠ .answered ∧ x ≠ .nextStage) : Grows c (c.see x) :=
  ⟨[x], rfl, by simpa using h⟩

theorem change_log (reg : Reg) (t : Bool) (c : Cmd) (s : St) : (change reg t c s).2.log = c.log := by
  unfold change
  split
  · rfl
  · split
    · rfl
    · split <;> rfl
    · split <;> rfl
    · rfl

/-- the result of a step inside the handler shows something more -/
def GPost (c : Cmd) (r : R) : Prop := ∀ b c', r = some (b, c') → Grows c c'

theorem GPost.andThen {c : Cmd} {r : R} {f : Cmd → R} (h : GPost c r) (hf : ∀ d, GPost d (f d)) : GPost c (r.andThen f) := by
  intro b c' e
  match r, h, e with
  | some (false, d), h, e => exact h _ _ e
  | some (true, d), h, e => exact (h _ _ rfl).trans (hf d _ _ e)

theorem GPost.change {c d : Cmd} (reg : Reg) (t : Bool) (s : St) (h : Grows c d) : GPost c (some (change reg t d s)) := by
  intro b c' e
  have : (Cmd.change reg t d s).2 = c' := by
    have := Option.some.inj e
    rw [this]
  rw [← this]
  exact h.trans (Grows.same (change_log ..))

theorem GPost.pure {c d : Cmd} {b : Bool} (h : Grows c d) : GPost c (some (b, d)) := by
  intro b c' e
  cases e
  exact h

theorem start_grows (reg : Reg) (o : Outcome) (c : Cmd) : GPost c (start reg o c) := by
  unfold start
  split
  · exact .pure (.same rfl)
  · split
    · exact .pure (.same rfl)
    · split
      · refine GPost.andThen (.change _ _ _ (.same rfl)) fun d => ?_
        split
        · exact .change _ _ _ (.same rfl)
        · split
          · exact .change _ _ _ (.see (by simp))
          · exact .change _ _ _ ((Grows.see (x := .exec) (by simp)).trans (.see (by simp)))
          · exact .pure (.see (by simp))
      · split
        · exact .change _ _ _ (.same rfl)
        · exact .pure (.same rfl)

theorem build_grows (reg : Reg) (o : Outcome) (c : Cmd) : GPost c (build reg o c) := by
  unfold build
  split
  · exact .pure (.same rfl)
  · split
    · intro b c' e; cases e
    · split
      · exact .pure (.same rfl)
      · exact .change _ _ _ (.same rfl)

theorem sendExp_grows (reg : Reg) (o : Outcome) (c : Cmd) : Grows c (sendExp reg o c).2 := by
  unfold sendExp
  split
  · exact .same rfl
  · split
    · exact .see (by simp)
    · split
      · exact .same rfl
      · exact .see (by simp)
    · exact .same rfl

theorem sendRes_grows (reg : Reg) (o : Outcome) (c : Cmd) : Grows c (sendRes reg o c).2 := by
  unfold sendRes
  split
  · exact .same rfl
  · split
    · exact .same rfl
    · split
      · exact ⟨[.replied], rfl, by simp⟩
      · exact .same rfl

theorem sendFirst_grows (reg : Reg) (o : Outcome) (c : Cmd) : GPost c (sendFirst reg o c) := by
  unfold sendFirst
  split
  · have := sendExp_grows reg o c
    split
    · next h => rw [h] at this; exact .pure this
    · next h => rw [h] at this; exact .change _ _ _ this
    · next h => rw [h] at this; exact .change _ _ _ this
  · split
    · refine GPost.andThen ?_ fun d => .change _ _ _ (.same rfl)
      exact GPost.pure (b := (sendRes reg o c).1) (sendRes_grows reg o c)
    · exact .pure (.same rfl)

theorem endStage_grows (reg : Reg) (o : Outcome) (c d : Cmd) (h : Grows c d) : GPost c (endStage reg o d) := .change _ _ _ h

theorem sendLast_grows (reg : Reg) (o : Outcome) (c : Cmd) : GPost c (sendLast reg o c) := by
  unfold sendLast
  split
  · refine GPost.andThen ?_ fun d => endStage_grows _ _ _ _ (.same rfl)
    exact GPost.pure (b := (sendRes reg o c).1) (sendRes_grows reg o c)
  · split
    · have := sendExp_grows reg o c
      split
      · next h => rw [h] at this; exact .pure this
      · next h => rw [h] at this; exact endStage_grows _ _ _ _ this
    · exact .pure (.same rfl)

theorem finish_grows (reg : Reg) (r : Bool × Cmd) : Grows r.2 (finish reg r) := by
  have h1 : Grows r.2 (failed reg r) := by
    unfold failed
    split
    · exact .same rfl
    · exact .same (change_log ..)
  have h2 : Grows (failed reg r) (yieldIf (failed reg r)) := by
    unfold yieldIf
    split
    · exact .see (by simp)
    · exact .same rfl
  exact (h1.trans h2).trans (.same rfl)

theorem handler_grows {reg : Reg} {o : Outcome} {c c' : Cmd} (h : handler reg o c = some c') : Grows c c' := by
  unfold handler at h
  obtain ⟨r, hr, h⟩ := Option.map_eq_some_iff.1 h
  have := (((start_grows reg o c).andThen (build_grows reg o)).andThen (sendFirst_grows reg o)).andThen (sendLast_grows reg o)
  rw [← h]
  exact (this r.1 r.2 hr).trans (finish_grows reg r)

theorem run_grows {reg : Reg} {o : Outcome} {c c' : Cmd} (h : Cmd.step reg c (.run o) = some c') : Grows c c' := by
  simp only [Cmd.step] at h
  split at h
  · cases h; exact .same rfl
  · exact Grows.trans (b := { c with due := false }.see .ran) ⟨[.ran], rfl, by simp⟩ (handler_grows h)

theorem timeout_grows {reg : Reg} {c c' : Cmd} (h : Cmd.step reg c .timeout = some c') : Grows c c' := by
  simp only [Cmd.step] at h
  split at h
  · cases h; exact .same rfl
  · cases h; exact .same (change_log ..)

theorem newObs_of {c c' : Cmd} {new : List Obs} (h : c'.log = new ++ c.log) : newObs c c' = new := by
  unfold newObs
  rw [h]
  simp

/-! ### commands of a worker -/

theorem Kind.id_inj {k k' : Kind} (h : k.id = k'.id) : k = k' := by
  cases k <;> cases k' <;> first | rfl | (exfalso; revert h; decide)

theorem Kind.ok (k : Kind) : RegOk k.reg := by
  cases k <;> exact ⟨by decide, by decide⟩

/-- what is seen of the command of a kind -/
def logOf (l : List Entry) (k : Kind) : List Obs := ((l.find? (·.kind = k)).map (·.cmd.log)).getD []

theorem logOf_nil (k : Kind) : logOf [] k = [] := rfl

theorem logOf_cons (e : Entry) (l : List Entry) (k : Kind) : logOf (e :: l) k = if e.kind = k then e.cmd.log else logOf l k := by
  unfold logOf
  by_cases h : e.kind = k
  · simp [h]
  · simp [h]

theorem logOf_none {l : List Entry} {k : Kind} (h : k ∉ l.map (·.kind)) : logOf l k = [] := by
  induction l with
  | nil => rfl
  | cons e l ih =>
    simp only [List.map_cons, List.mem_cons, not_or] at h
    rw [logOf_cons, if_neg (fun h' => h.1 h'.symm), ih h.2]

theorem logOf_get {l : List Entry} {n : Nat} {e : Entry} (hn : (l.map (·.kind)).Nodup) (h : l[n]? = some e) :
    logOf l e.kind = e.cmd.log := by
  induction l generalizing n with
  | nil => simp at h
  | cons a l ih =>
    simp only [List.map_cons, List.nodup_cons] at hn
    rw [logOf_cons]
    cases n with
    | zero =>
      simp at h; subst h; simp
    | succ n =>
      simp only [List.getElem?_cons_succ] at h
      have : e.kind ∈ l.map (·.kind) := List.mem_map.2 ⟨e, List.mem_of_getElem? h, rfl⟩
      have hne : a.kind ≠ e.kind := fun h' => hn.1 (by rw [h']; exact this)
      rw [if_neg hne, ih hn.2 h]

theorem map_kind_set {l : List Entry} {n : Nat} {e : Entry} {c : Cmd} (h : l[n]? = some e) :
    (l.set n { e with cmd := c }).map (·.kind) = l.map (·.kind) := by
  induction l generalizing n with
  | nil => simp
  | cons a l ih =>
    cases n with
    | zero => simp at h; subst h; simp
    | succ n => simp only [List.getElem?_cons_succ] at h; simp [ih h]

theorem logOf_set {l : List Entry} {n : Nat} {e : Entry} {c : Cmd} (hn : (l.map (·.kind)).Nodup) (h : l[n]? = some e) (k : Kind) :
    logOf (l.set n { e with cmd := c }) k = if e.kind = k then c.log else logOf l k := by
  induction l generalizing n with
  | nil => simp at h
  | cons a l ih =>
    simp only [List.map_cons, List.nodup_cons] at hn
    cases n with
    | zero =>
      simp at h; subst h
      rw [List.set_cons_zero, logOf_cons, logOf_cons]
      by_cases hk : a.kind = k
      · simp [hk]
      · simp [hk]
    | succ n =>
      simp only [List.getElem?_cons_succ] at h
      have : e.kind ∈ l.map (·.kind) := List.mem_map.2 ⟨e, List.mem_of_getElem? h, rfl⟩
      rw [List.set_cons_succ, logOf_cons, logOf_cons, ih hn.2 h]
      have hne : a.kind ≠ e.kind := fun h' => hn.1 (by rw [h']; exact this)
      by_cases hk : e.kind = k
      · subst hk; simp [hne]
      · simp [hk]

theorem logOf_append_new (l : List Entry) (k k' : Kind) (hk : k ∉ l.map (·.kind)) :
    logOf (l ++ [⟨k, Cmd.init k.reg⟩]) k' = logOf l k' := by
  induction l with
  | nil =>
    rw [List.nil_append, logOf_cons, logOf_nil]
    split <;> rfl
  | cons a l ih =>
    simp only [List.map_cons, List.mem_cons, not_or] at hk
    rw [List.cons_append, logOf_cons, logOf_cons, ih hk.2]

/-! ### counting messages -/

theorem count_sync (k k' : Kind) (l : List Obs) :
    (l.filterMap (upOf k)).count (.sync k'.id) = if k = k' ∧ k.reg.toMain = true then times .exported l else 0 := by
  induction l with
  | nil => simp [times]
  | cons x l ih =>
    simp only [times] at ih ⊢
    by_cases hk : k = k'
    · subst hk
      cases x <;> simp only [List.filterMap_cons, upOf, List.count_cons] <;>
        cases hm : k.reg.toMain <;> simp_all
    · have hi : k.id ≠ k'.id := fun h => hk (Kind.id_inj h)
      cases x <;> simp only [List.filterMap_cons, upOf, List.count_cons] <;>
        cases hm : k.reg.toMain <;> simp_all

theorem count_res (k k' : Kind) (l : List Obs) :
    (l.filterMap (upOf k)).count (.resources k'.id) = if k = k' then times .asked l else 0 := by
  induction l with
  | nil => simp [times]
  | cons x l ih =>
    simp only [times] at ih ⊢
    by_cases hk : k = k'
    · subst hk
      cases x <;> simp only [List.filterMap_cons, upOf, List.count_cons] <;>
        cases hm : k.reg.toMain <;> simp_all
    · have hi : k.id ≠ k'.id := fun h => hk (Kind.id_inj h)
      cases x <;> simp only [List.filterMap_cons, upOf, List.count_cons] <;>
        cases hm : k.reg.toMain <;> simp_all

theorem count_udev (i : Nat) (k : Kind) (l : List Obs) :
    (l.filterMap (udevOf i k)).count i = if k = .scan then times .replied l else 0 := by
  induction l with
  | nil => simp [times]
  | cons x l ih =>
    simp only [times] at ih ⊢
    cases x <;> simp only [List.filterMap_cons, udevOf, List.count_cons] <;> by_cases hk : k = .scan <;> simp_all

theorem count_udev_ne (i j : Nat) (k : Kind) (l : List Obs) (h : i ≠ j) : (l.filterMap (udevOf i k)).count j = 0 := by
  induction l with
  | nil => simp
  | cons x l ih =>
    cases x <;> simp only [List.filterMap_cons, udevOf] <;> by_cases hk : k = .scan <;> simp_all

theorem times_append (x : Obs) (a b : List Obs) : times x (a ++ b) = times x a + times x b := by simp [times]

/-! ### what is seen of a worker -/

/-- of a worker -/
def about (i : Nat) : GObs → Bool
  | .cmd j _ _ => i = j
  | .merged j _ => i = j
  | .told j => i = j

/-- of the command of a kind -/
def proj (k : Kind) : GObs → Option Obs
  | .cmd _ k' x => if k' = k then some x else none
  | _ => none

/-- what is seen of a command, among what is seen of its worker -/
abbrev seen (t : List GObs) (k : Kind) : List Obs := t.filterMap (proj k)

theorem seen_append (a b : List GObs) (k : Kind) : seen (a ++ b) k = seen a k ++ seen b k := List.filterMap_append

theorem seen_map (i : Nat) (k k' : Kind) (l : List Obs) : seen (l.map (.cmd i k)) k' = if k = k' then l else [] := by
  induction l with
  | nil => simp
  | cons x l ih =>
    simp only [List.map_cons, List.filterMap_cons, proj]
    by_cases h : k = k'
    · simp_all
    · simp_all

theorem count_merged_map (i j : Nat) (k : Kind) (id : String) (l : List Obs) : (l.map (GObs.cmd i k)).count (.merged j id) = 0 := by
  induction l with
  | nil => rfl
  | cons x l ih => simp [ih]

theorem count_told_map (i j : Nat) (k : Kind) (l : List Obs) : (l.map (GObs.cmd i k)).count (.told j) = 0 := by
  induction l with
  | nil => rfl
  | cons x l ih => simp [ih]

/-- exports that go to the main process -/
def sent (k : Kind) (l : List Obs) : Nat := if k.reg.toMain = true then times .exported l else 0

theorem sent_append (k : Kind) (a b : List Obs) : sent k (a ++ b) = sent k a + sent k b := by
  unfold sent
  split
  · exact times_append ..
  · rfl

/-- what is seen of a worker at any time -/
structure Order (i : Nat) (t : List GObs) : Prop where
  ack : ∀ k, times .acked (seen t k) ≤ t.count (.merged i k.id)
  mrg : ∀ k, t.count (.merged i k.id) ≤ sent k (seen t k)
  next : ∀ k, times .nextStage (seen t k) ≤ if k = .scan then t.count (.told i) else 0
  told : t.count (.told i) ≤ times .replied (seen t .scan)

/-- holds for a worker: `n` its sessions with udev, `t` what is seen of it; `exact` no message was lost -/
structure WInv (exact : Prop) (i : Nat) (w : Wrk) (n : Nat) (t : List GObs) : Prop where
  nodup : (w.cmds.map (·.kind)).Nodup
  life : ∀ e ∈ w.cmds, Life e.kind.reg e.cmd
  awake : w.gone = false → ∀ e ∈ w.cmds, e.cmd.gone = false
  prox : w.gone = false → w.proxy = true
  empty : w.proxy = false → w.up = []
  log : ∀ k, seen t k = logOf w.cmds k
  mrg : ∀ k, t.count (.merged i k.id) + w.up.count (.sync k.id) = sent k (logOf w.cmds k)
  ack : ∀ k, w.down.count (.sync k.id) + times .acked (logOf w.cmds k) ≤ t.count (.merged i k.id)
  ack' : exact → w.gone = false → ∀ k, t.count (.merged i k.id) ≤ w.down.count (.sync k.id) + times .acked (logOf w.cmds k)
  ans : ∀ k, w.up.count (.resources k.id) + w.down.count (.resources k.id) + times .answered (logOf w.cmds k) ≤
    times .asked (logOf w.cmds k)
  ans' : exact → w.gone = false → ∀ k,
    times .asked (logOf w.cmds k) ≤ w.up.count (.resources k.id) + w.down.count (.resources k.id) + times .answered (logOf w.cmds k)
  next : w.down.count .umonitor + times .nextStage (logOf w.cmds .scan) ≤ t.count (.told i)
  other : ∀ k, k ≠ .scan → times .nextStage (logOf w.cmds k) = 0
  told : t.count (.told i) + n ≤ times .replied (logOf w.cmds .scan)
  next' : exact → w.gone = false → times .replied (logOf w.cmds .scan) ≤ w.down.count .umonitor + times .nextStage (logOf w.cmds .scan) + n
  order : ∀ later earlier, t = later ++ earlier → Order i earlier

theorem order_nil (i : Nat) : Order i [] :=
  ⟨fun _ => Nat.le_refl _, fun _ => Nat.zero_le _, fun _ => Nat.zero_le _, Nat.le_refl _⟩

theorem order_cons {i : Nat} {x : GObs} {t : List GObs} (h : ∀ later earlier, t = later ++ earlier → Order i earlier)
    (hx : Order i (x :: t)) : ∀ later earlier, x :: t = later ++ earlier → Order i earlier := by
  intro later earlier e
  cases later with
  | nil => rw [List.nil_append] at e; exact e ▸ hx
  | cons y l => simp only [List.cons_append, List.cons.injEq] at e; exact h l earlier e.2

/-- the order is kept when commands show something that is no message -/
theorem order_grow {i : Nat} {k : Kind} {new : List Obs} {t : List GObs} (h : ∀ later earlier, t = later ++ earlier → Order i earlier)
    (hn : ∀ x ∈ new, x ≠ .acked ∧ x ≠ .answered ∧ x ≠ .nextStage) :
    ∀ later earlier, new.map (.cmd i k) ++ t = later ++ earlier → Order i earlier := by
  induction new with
  | nil => exact h
  | cons x new ih =>
    have ih := ih (fun y hy => hn y (List.mem_cons_of_mem _ hy))
    have hx := hn x (List.mem_cons_self ..)
    refine order_cons ih ?_
    have o : Order i (new.map (GObs.cmd i k) ++ t) := ih [] _ rfl
    show Order i (GObs.cmd i k x :: (new.map (GObs.cmd i k) ++ t))
    generalize new.map (GObs.cmd i k) ++ t = u at o ⊢
    have hs : ∀ k', seen (.cmd i k x :: u) k' = if k = k' then x :: seen u k' else seen u k' := by
      intro k'
      simp only [List.filterMap_cons, proj]
      by_cases hk : k = k' <;> simp [hk]
    refine ⟨fun k' => ?_, fun k' => ?_, fun k' => ?_, ?_⟩
    · rw [hs k']
      have := o.ack k'
      split
      · rw [times_cons, if_neg hx.1]; simpa using this
      · simpa using this
    · rw [hs k']
      have := o.mrg k'
      split
      · have h2 := sent_append k' [x] (seen u k')
        rw [List.singleton_append] at h2
        rw [h2]
        simp
        omega
      · simpa using this
    · rw [hs k']
      have := o.next k'
      split
      · rw [times_cons, if_neg hx.2.2]; simpa using this
      · simpa using this
    · rw [hs]
      have := o.told
      split
      · rw [times_cons]; simp; omega
      · simpa using this

/-! ### the steps of a worker -/

/-- a new worker -/
theorem winv_new (exact : Prop) (i : Nat) : WInv exact i Wrk.new 0 [] := by
  constructor
  all_goals (intros; simp_all [Wrk.new, logOf_nil, times, sent])
  exact order_nil i

/-- a command comes in -/
theorem WInv.request {exact : Prop} {i : Nat} {w : Wrk} {n : Nat} {t : List GObs} (h : WInv exact i w n t) {k : Kind}
    (hk : k ∉ w.cmds.map (·.kind)) : WInv exact i { w with cmds := w.cmds ++ [⟨k, Cmd.init k.reg⟩] } n t := by
  have hl : ∀ k', logOf (w.cmds ++ [⟨k, Cmd.init k.reg⟩]) k' = logOf w.cmds k' := fun k' => logOf_append_new _ _ _ hk
  refine ⟨?_, ?_, ?_, h.prox, h.empty, ?_, ?_, ?_, ?_, ?_, ?_, ?_, ?_, ?_, ?_, h.order⟩
  · simp only [List.map_append, List.map_cons, List.map_nil]
    rw [List.nodup_append]
    refine ⟨h.nodup, by simp, ?_⟩
    intro a ha b hb
    simp at hb
    rintro rfl
    subst hb
    exact hk ha
  · intro e he
    rcases List.mem_append.1 he with he | he
    · exact h.life e he
    · simp at he; subst he; exact Life.start
  · intro hg e he
    rcases List.mem_append.1 he with he | he
    · exact h.awake hg e he
    · simp at he; subst he; rfl
  all_goals simp only [hl]
  · exact h.log
  · exact h.mrg
  · exact h.ack
  · exact h.ack'
  · exact h.ans
  · exact h.ans'
  · exact h.next
  · exact h.other
  · exact h.told
  · exact h.next'

/-- the worker ends -/
theorem WInv.stop {exact : Prop} {i : Nat} {w : Wrk} {n : Nat} {t : List GObs} (h : WInv exact i w n t) :
    WInv exact i { w with gone := true } n t :=
  ⟨h.nodup, h.life, (by intro h; cases h), (by intro h; cases h), h.empty, h.log, h.mrg, h.ack, (by intro _ h; cases h), h.ans,
    (by intro _ h; cases h), h.next, h.other, h.told, (by intro _ h; cases h), h.order⟩

/-- the proxy is removed -/
theorem WInv.reap {exact : Prop} {i : Nat} {w : Wrk} {n : Nat} {t : List GObs} (h : WInv exact i w n t) (hg : w.gone = true)
    (hu : w.up = []) : WInv exact i { w with proxy := false, down := [] } n t := by
  have hf : ¬ w.gone = false := by rw [hg]; simp
  refine ⟨h.nodup, h.life, fun h => absurd h hf, fun h => absurd h hf, fun _ => hu, h.log, h.mrg, ?_, fun _ h => absurd h hf, ?_,
    fun _ h => absurd h hf, ?_, h.other, h.told, fun _ h => absurd h hf, h.order⟩
  · intro k; have := h.ack k; simp only [List.count_nil]; omega
  · intro k; have := h.ans k; simp only [List.count_nil]; omega
  · have := h.next; simp only [List.count_nil]; omega

/-- the main process reads a message -/
theorem WInv.mainRecv {exact : Prop} {i : Nat} {w : Wrk} {n : Nat} {t : List GObs} (h : WInv exact i w n t) {u : Up} {rest : List Up}
    (hp : w.proxy = true) (hu : w.up = u :: rest) (ok : Bool) (hok : exact → ok = true) :
    WInv exact i { w with up := rest, down := w.down ++ if ok then [answer u] else [] } n (mergeObs i u ++ t) := by
  cases u with
  | sync id =>
    have hs : ∀ k, seen (mergeObs i (.sync id) ++ t) k = seen t k := by
      intro k; rfl
    have hm : ∀ k : Kind, (mergeObs i (.sync id) ++ t).count (.merged i k.id) =
        t.count (.merged i k.id) + if id = k.id then 1 else 0 := by
      intro k
      simp [mergeObs, List.count_cons]
    have ht : (mergeObs i (.sync id) ++ t).count (.told i) = t.count (.told i) := by simp [mergeObs]
    have hd : ∀ k : Kind, (w.down ++ if ok then [answer (.sync id)] else []).count (.sync k.id) =
        w.down.count (.sync k.id) + if ok = true ∧ id = k.id then 1 else 0 := by
      intro k
      cases ok <;> simp [answer, List.count_cons]
    have hd2 : ∀ k : Kind, (w.down ++ if ok then [answer (.sync id)] else []).count (.resources k.id) =
        w.down.count (.resources k.id) := by
      intro k
      cases ok <;> simp [answer]
    have hd3 : (w.down ++ if ok then [answer (.sync id)] else []).count .umonitor = w.down.count .umonitor := by
      cases ok <;> simp [answer]
    have hup : ∀ k : Kind, w.up.count (.sync k.id) = rest.count (.sync k.id) + if id = k.id then 1 else 0 := by
      intro k; rw [hu]; simp [List.count_cons]
    have hur : ∀ k : Kind, w.up.count (.resources k.id) = rest.count (.resources k.id) := by
      intro k; rw [hu]; simp
    refine ⟨h.nodup, h.life, h.awake, h.prox, (fun h => by rw [hp] at h; cases h), ?_, ?_, ?_, ?_, ?_, ?_, ?_, h.other, ?_, ?_, ?_⟩
    · intro k; rw [hs]; exact h.log k
    · intro k; have := h.mrg k; have := hup k; rw [hm]; simp only; omega
    · intro k
      have := h.ack k
      simp only [hm, hd]
      split <;> split <;> first | omega | (exfalso; simp_all)
    · intro he hg k
      have := h.ack' he hg k
      obtain rfl := hok he
      rw [hm]
      show _ ≤ List.count _ (w.down ++ if true = true then _ else _) + _
      rw [hd k]
      simp only [true_and]
      split <;> omega
    · intro k; have := h.ans k; have := hur k; simp only [hd2]; omega
    · intro he hg k; have := h.ans' he hg k; have := hur k; simp only [hd2]; omega
    · simp only [hd3, ht]; exact h.next
    · rw [ht]; exact h.told
    · intro he hg; have := h.next' he hg; simp only [hd3]; omega
    · refine order_cons h.order ?_
      have o := h.order [] t rfl
      show Order i (mergeObs i (.sync id) ++ t)
      refine ⟨fun k => ?_, fun k => ?_, fun k => ?_, ?_⟩
      · rw [hs, hm]; have := o.ack k; omega
      · rw [hs, hm]
        have h1 := h.mrg k; have h2 := hup k
        rw [h.log]
        omega
      · rw [hs, ht]; exact o.next k
      · rw [hs, ht]; exact o.told
  | resources id =>
    have hd : ∀ k : Kind, (w.down ++ if ok then [answer (.resources id)] else []).count (.resources k.id) =
        w.down.count (.resources k.id) + if ok = true ∧ id = k.id then 1 else 0 := by
      intro k
      cases ok <;> simp [answer, List.count_cons]
    have hd2 : ∀ k : Kind, (w.down ++ if ok then [answer (.resources id)] else []).count (.sync k.id) =
        w.down.count (.sync k.id) := by
      intro k
      cases ok <;> simp [answer]
    have hd3 : (w.down ++ if ok then [answer (.resources id)] else []).count .umonitor = w.down.count .umonitor := by
      cases ok <;> simp [answer]
    have hup : ∀ k : Kind, w.up.count (.resources k.id) = rest.count (.resources k.id) + if id = k.id then 1 else 0 := by
      intro k; rw [hu]; simp [List.count_cons]
    have hur : ∀ k : Kind, w.up.count (.sync k.id) = rest.count (.sync k.id) := by
      intro k; rw [hu]; simp
    show WInv exact i _ n t
    refine ⟨h.nodup, h.life, h.awake, h.prox, (fun h => by rw [hp] at h; cases h), h.log, ?_, ?_, ?_, ?_, ?_, ?_, h.other, h.told, ?_, h.order⟩
    · intro k; have := h.mrg k; have := hur k; simp only; omega
    · intro k; have := h.ack k; simp only [hd2]; omega
    · intro he hg k; have := h.ack' he hg k; simp only [hd2]; omega
    · intro k
      have := h.ans k; have := hup k
      simp only [hd]
      split <;> split at this <;> first | omega | (exfalso; simp_all)
    · intro he hg k
      have := h.ans' he hg k; have := hup k
      obtain rfl := hok he
      show _ ≤ _ + List.count _ (w.down ++ if true = true then _ else _) + _
      rw [hd k]
      simp only [true_and]
      omega
    · simp only [hd3]; exact h.next
    · intro he hg; have := h.next' he hg; simp only [hd3]; omega

/-- udev is done with an event of the worker, which is told -/
theorem WInv.tell {exact : Prop} {i : Nat} {w : Wrk} {n : Nat} {t : List GObs} (h : WInv exact i w (n + 1) t) :
    WInv exact i { w with down := w.down ++ [.umonitor] } n (.told i :: t) := by
  have hs : ∀ k, seen (.told i :: t) k = seen t k := by
    intro k; rfl
  have hm : ∀ k : Kind, (GObs.told i :: t).count (.merged i k.id) = t.count (.merged i k.id) := by
    intro k; simp
  have ht : (GObs.told i :: t).count (.told i) = t.count (.told i) + 1 := by simp
  refine ⟨h.nodup, h.life, h.awake, h.prox, h.empty, ?_, ?_, ?_, ?_, ?_, ?_, ?_, h.other, ?_, ?_, ?_⟩
  · intro k; rw [hs]; exact h.log k
  · intro k; rw [hm]; exact h.mrg k
  · intro k; rw [hm]; have := h.ack k; simpa using this
  · intro he hg k; rw [hm]; have := h.ack' he hg k; simpa using this
  · intro k; have := h.ans k; simpa using this
  · intro he hg k; have := h.ans' he hg k; simpa using this
  · rw [ht]; have := h.next; simp; omega
  · rw [ht]; have := h.told; simp only; omega
  · intro he hg; have := h.next' he hg; simp; omega
  · refine order_cons h.order ?_
    have o := h.order [] t rfl
    refine ⟨fun k => ?_, fun k => ?_, fun k => ?_, ?_⟩
    · rw [hs, hm]; exact o.ack k
    · rw [hs, hm]; exact o.mrg k
    · rw [hs, ht]; have := o.next k; split <;> simp_all; omega
    · rw [hs, ht, h.log]; have := h.told; omega

/-- udev is done with an event of the worker, which is not told -/
theorem WInv.untold {exact : Prop} {i : Nat} {w : Wrk} {n : Nat} {t : List GObs} (h : WInv exact i w (n + 1) t)
    (hw : exact → w.gone = true) : WInv exact i w n t :=
  ⟨h.nodup, h.life, h.awake, h.prox, h.empty, h.log, h.mrg, h.ack, h.ack', h.ans, h.ans', h.next, h.other, (by have := h.told; omega),
    (fun he hg => by rw [hw he] at hg; cases hg), h.order⟩

theorem times_reverse (x : Obs) (l : List Obs) : times x l.reverse = times x l := by simp [times]

theorem times_zero {x : Obs} {l : List Obs} (h : x ∉ l) : times x l = 0 := List.count_eq_zero.2 h

theorem mem_set {l : List Entry} {n : Nat} {e a : Entry} (h : a ∈ l.set n e) : a = e ∨ a ∈ l := by
  rcases List.mem_or_eq_of_mem_set h with h | h
  · exact Or.inr h
  · exact Or.inl h

/-- a command shows something that is no message -/
theorem WInv.grow {exact : Prop} {i : Nat} {w : Wrk} {n : Nat} {t : List GObs} (h : WInv exact i w n t) (hwg : w.gone = false) {p : Nat}
    {e : Entry} (he : w.cmds[p]? = some e) {c' : Cmd} (hl : Life e.kind.reg c') {new : List Obs} (hc : c'.log = new ++ e.cmd.log)
    (hn : ∀ x ∈ new, x ≠ .acked ∧ x ≠ .answered ∧ x ≠ .nextStage) :
    WInv exact i
      { w with
        cmds := w.cmds.set p { e with cmd := c' }
        up := w.up ++ new.reverse.filterMap (upOf e.kind)
        gone := w.gone || c'.gone }
      (n + (new.filterMap (udevOf i e.kind)).count i) (new.map (.cmd i e.kind) ++ t) := by
  have hk := map_kind_set (c := c') he
  have hs := fun k => logOf_set (c := c') h.nodup he k
  have hg := logOf_get h.nodup he
  have z1 : times .acked new = 0 := times_zero fun hx => (hn _ hx).1 rfl
  have z2 : times .answered new = 0 := times_zero fun hx => (hn _ hx).2.1 rfl
  have z3 : times .nextStage new = 0 := times_zero fun hx => (hn _ hx).2.2 rfl
  have hlog : ∀ k, logOf (w.cmds.set p { e with cmd := c' }) k = (if e.kind = k then new else []) ++ logOf w.cmds k := by
    intro k
    rw [hs k]
    split
    · next hk => rw [hc, ← hk, hg]
    · rfl
  have hz : ∀ (x : Obs), times x new = 0 → ∀ k, times x (logOf (w.cmds.set p { e with cmd := c' }) k) = times x (logOf w.cmds k) := by
    intro x hx k
    rw [hlog, times_append]
    split
    · rw [hx, Nat.zero_add]
    · simp [times]
  have hm : ∀ id, (new.map (GObs.cmd i e.kind) ++ t).count (.merged i id) = t.count (.merged i id) := by
    intro id; rw [List.count_append, count_merged_map, Nat.zero_add]
  have ht : (new.map (GObs.cmd i e.kind) ++ t).count (.told i) = t.count (.told i) := by
    rw [List.count_append, count_told_map, Nat.zero_add]
  have hgone : (w.gone || c'.gone) = false → w.gone = false ∧ c'.gone = false := by
    intro h; simpa using h
  have hu : times .replied (logOf (w.cmds.set p { e with cmd := c' }) .scan) =
      times .replied (logOf w.cmds .scan) + (new.filterMap (udevOf i e.kind)).count i := by
    rw [hlog, times_append, count_udev]
    split
    · omega
    · simp [times]
  have hask : ∀ k, times .asked (logOf (w.cmds.set p { e with cmd := c' }) k) =
      times .asked (logOf w.cmds k) + if e.kind = k then times .asked new else 0 := by
    intro k
    rw [hlog, times_append]
    split
    · omega
    · simp [times]
  refine ⟨?_, ?_, ?_, ?_, (fun hp => by rw [h.prox hwg] at hp; cases hp), ?_, ?_, ?_, ?_, ?_, ?_, ?_, ?_, ?_, ?_, ?_⟩
  · rw [hk]; exact h.nodup
  · intro a ha
    rcases mem_set ha with rfl | ha
    · exact hl
    · exact h.life a ha
  · intro hf a ha
    rcases mem_set ha with rfl | ha
    · exact (hgone hf).2
    · exact h.awake (hgone hf).1 a ha
  · exact fun hf => h.prox (hgone hf).1
  · intro k
    rw [seen_append, seen_map, h.log, hlog]
  · intro k
    have := h.mrg k
    rw [hm, hlog, sent_append]
    simp only [List.count_append, count_sync, times_reverse]
    unfold sent at this ⊢
    by_cases h1 : e.kind = k
    · subst h1
      cases h2 : e.kind.reg.toMain <;> simp_all <;> omega
    · simp only [h1, false_and, if_false]
      simp [times] at this ⊢
      exact this
  · intro k
    rw [hm, hz _ z1]; exact h.ack k
  · intro hx hf k
    rw [hm, hz _ z1]; exact h.ack' hx (hgone hf).1 k
  · intro k
    have := h.ans k
    rw [hz _ z2, hask]
    simp only [List.count_append, count_res, times_reverse]
    omega
  · intro hx hf k
    have := h.ans' hx (hgone hf).1 k
    rw [hz _ z2, hask]
    simp only [List.count_append, count_res, times_reverse]
    omega
  · rw [hz _ z3, ht]; exact h.next
  · intro k hk
    rw [hz _ z3]; exact h.other k hk
  · have := h.told
    rw [ht, hu]
    omega
  · intro hx hf
    have := h.next' hx (hgone hf).1
    rw [hz _ z3, hu]
    simp only
    omega
  · exact order_grow h.order hn

/-- a message is taken and not delivered -/
theorem WInv.drop {exact : Prop} {i : Nat} {w : Wrk} {n : Nat} {t : List GObs} (h : WInv exact i w n t) {d : Down} {rest : List Down}
    (hd : w.down = d :: rest) (hx : ¬ exact) : WInv exact i { w with down := rest } n t := by
  refine ⟨h.nodup, h.life, h.awake, h.prox, h.empty, h.log, h.mrg, fun k => ?_, fun h => absurd h hx, fun k => ?_, fun h => absurd h hx, ?_, h.other,
    h.told, fun h => absurd h hx, h.order⟩
  · have := h.ack k; rw [hd, List.count_cons] at this; simp only; omega
  · have := h.ans k; rw [hd, List.count_cons] at this; simp only; omega
  · have := h.next; rw [hd, List.count_cons] at this; simp only; omega

theorem find_some {w : Wrk} {id : String} {p : Nat} (h : find w id = some p) : ∃ e, w.cmds[p]? = some e ∧ e.kind.id = id := by
  unfold find at h
  rw [List.findIdx?_eq_some_iff_getElem] at h
  obtain ⟨hp, h, -⟩ := h
  exact ⟨w.cmds[p], List.getElem?_eq_getElem hp, by simpa using h⟩

theorem find_none {w : Wrk} {k : Kind} (h : find w k.id = none) : k ∉ w.cmds.map (·.kind) := by
  unfold find at h
  rw [List.findIdx?_eq_none_iff] at h
  intro hm
  obtain ⟨e, he, rfl⟩ := List.mem_map.1 hm
  simpa using h e he

/-- all messages on their way to a worker are for one of its commands -/
theorem WInv.found {exact : Prop} {i : Nat} {w : Wrk} {n : Nat} {t : List GObs} (h : WInv exact i w n t) {k : Kind} (hf : find w k.id = none) :
    w.down.count (.sync k.id) = 0 ∧ w.down.count (.resources k.id) = 0 ∧ (k = .scan → w.down.count .umonitor = 0) := by
  have hl := logOf_none (find_none hf)
  refine ⟨?_, ?_, ?_⟩
  · have h1 := h.ack k; have h2 := h.mrg k
    rw [hl] at h1 h2
    have : sent k [] = 0 := by unfold sent; split <;> rfl
    omega
  · have h1 := h.ans k
    rw [hl] at h1
    have : times .asked [] = 0 := rfl
    omega
  · rintro rfl
    have h1 := h.next; have h2 := h.told
    rw [hl] at h1 h2
    have : times .replied [] = 0 := rfl
    omega

/-- a message is taken that counts for no command -/
theorem WInv.skip {exact : Prop} {i : Nat} {w : Wrk} {n : Nat} {t : List GObs} (h : WInv exact i w n t) {d : Down} {rest : List Down}
    (hd : w.down = d :: rest) (hk : ∀ k : Kind, d ≠ .sync k.id ∧ d ≠ .resources k.id) (hu : d ≠ .umonitor) :
    WInv exact i { w with down := rest } n t := by
  have c1 : ∀ k : Kind, rest.count (.sync k.id) = w.down.count (.sync k.id) := by
    intro k; rw [hd, List.count_cons_of_ne (hk k).1]
  have c2 : ∀ k : Kind, rest.count (.resources k.id) = w.down.count (.resources k.id) := by
    intro k; rw [hd, List.count_cons_of_ne (hk k).2]
  have c3 : rest.count .umonitor = w.down.count .umonitor := by rw [hd, List.count_cons_of_ne hu]
  refine ⟨h.nodup, h.life, h.awake, h.prox, h.empty, h.log, h.mrg, ?_, ?_, ?_, ?_, ?_, h.other, h.told, ?_, h.order⟩
  · simp only [c1]; exact h.ack
  · simp only [c1]; exact h.ack'
  · simp only [c2]; exact h.ans
  · simp only [c2]; exact h.ans'
  · simp only [c3]; exact h.next
  · simp only [c3]; exact h.next'

/-- the messages a worker gets are those its commands expect -/
theorem WInv.expected {exact : Prop} {i : Nat} {w : Wrk} {n : Nat} {t : List GObs} (h : WInv exact i w n t) {d : Down} {rest : List Down}
    (hd : w.down = d :: rest) {p : Nat} {e : Entry} (he : w.cmds[p]? = some e) (hk : e.kind.id = d.target.1) :
    Expected e.kind.reg e.cmd.log d.target.2 := by
  have hg := logOf_get h.nodup he
  cases d with
  | sync id =>
    have hk : e.kind.id = id := hk
    have h1 := h.ack e.kind; have h2 := h.mrg e.kind
    rw [hd, hk, List.count_cons_self] at h1
    rw [hk] at h2
    rw [hg] at h1 h2
    show _ ∧ _
    unfold sent at h2
    split at h2
    · next hm => exact ⟨hm, by omega⟩
    · omega
  | resources id =>
    have hk : e.kind.id = id := hk
    have h1 := h.ans e.kind
    rw [hd, hk, List.count_cons_self, hg] at h1
    show _ < _
    omega
  | umonitor =>
    have hk : e.kind = .scan := Kind.id_inj hk
    have h1 := h.next; have h2 := h.told
    rw [hk] at hg
    have h3 := ((h.life e (List.mem_of_getElem? he)).inv e.kind.ok).once
    rw [hd, List.count_cons_self, hg] at h1
    rw [hg] at h2
    show _ ∧ _ ∧ _
    exact ⟨by rw [hk]; rfl, by omega, by omega⟩

/-- a message is delivered -/
theorem WInv.message {exact : Prop} {i : Nat} {w : Wrk} {n : Nat} {t : List GObs} (h : WInv exact i w n t) {d : Down} {rest : List Down}
    (hd : w.down = d :: rest) {p : Nat} {e : Entry} (he : w.cmds[p]? = some e) (hk : e.kind.id = d.target.1) {c' : Cmd}
    (hl : Life e.kind.reg c') (hc : c'.log = d.target.2.obs :: e.cmd.log) :
    WInv exact i { w with cmds := w.cmds.set p { e with cmd := c' }, down := rest, gone := w.gone || c'.gone } n
      (.cmd i e.kind d.target.2.obs :: t) := by
  have hkm := map_kind_set (c := c') he
  have hs := fun k => logOf_set (c := c') h.nodup he k
  have hg := logOf_get h.nodup he
  generalize hx : d.target.2.obs = x at hc
  have hlog : ∀ k, logOf (w.cmds.set p { e with cmd := c' }) k = (if e.kind = k then [x] else []) ++ logOf w.cmds k := by
    intro k
    rw [hs k]
    split
    · next hk => rw [hc, ← hk, hg]; rfl
    · rfl
  have hz : ∀ y k, times y (logOf (w.cmds.set p { e with cmd := c' }) k) =
      times y (logOf w.cmds k) + if e.kind = k ∧ x = y then 1 else 0 := by
    intro y k
    rw [hlog, times_append]
    by_cases h1 : e.kind = k
    · rw [if_pos h1]
      by_cases h2 : x = y
      · rw [if_pos ⟨h1, h2⟩, h2]; simp [times]; omega
      · rw [if_neg (fun h => h2 h.2)]; simp [times, h2]
    · rw [if_neg h1, if_neg (fun h => h1 h.1)]; simp [times]
  have hsee : ∀ k, seen (.cmd i e.kind x :: t) k = logOf (w.cmds.set p { e with cmd := c' }) k := by
    intro k
    rw [hlog, ← h.log k]
    simp only [seen, List.filterMap_cons, proj]
    split <;> simp_all
  have hm : ∀ id, (GObs.cmd i e.kind x :: t).count (.merged i id) = t.count (.merged i id) := by intro id; simp
  have ht : (GObs.cmd i e.kind x :: t).count (.told i) = t.count (.told i) := by simp
  have hgone : (w.gone || c'.gone) = false → w.gone = false ∧ c'.gone = false := by
    intro h; simpa using h
  have hsent : ∀ k, x ≠ .exported → sent k (logOf (w.cmds.set p { e with cmd := c' }) k) = sent k (logOf w.cmds k) := by
    intro k hne
    unfold sent
    split
    · rw [hz, if_neg (fun h => hne h.2), Nat.add_zero]
    · rfl
  have hnx : x ≠ .exported ∧ x ≠ .asked ∧ x ≠ .replied := by subst hx; cases d <;> simp [Down.target, Msg.obs]
  have c1 : ∀ k : Kind, w.down.count (.sync k.id) = rest.count (.sync k.id) + if e.kind = k ∧ x = .acked then 1 else 0 := by
    intro k
    rw [hd, List.count_cons]
    cases d with
    | sync id =>
      have hk : e.kind.id = id := hk
      have hx : Obs.acked = x := hx
      subst hx hk
      by_cases h1 : e.kind = k
      · subst h1; simp
      · have : e.kind.id ≠ k.id := fun h => h1 (Kind.id_inj h)
        simp [h1, this]
    | resources id => have hx : Obs.answered = x := hx; subst hx; simp
    | umonitor => have hx : Obs.nextStage = x := hx; subst hx; simp
  have c2 : ∀ k : Kind, w.down.count (.resources k.id) = rest.count (.resources k.id) + if e.kind = k ∧ x = .answered then 1 else 0 := by
    intro k
    rw [hd, List.count_cons]
    cases d with
    | resources id =>
      have hk : e.kind.id = id := hk
      have hx : Obs.answered = x := hx
      subst hx hk
      by_cases h1 : e.kind = k
      · subst h1; simp
      · have : e.kind.id ≠ k.id := fun h => h1 (Kind.id_inj h)
        simp [h1, this]
    | sync id => have hx : Obs.acked = x := hx; subst hx; simp
    | umonitor => have hx : Obs.nextStage = x := hx; subst hx; simp
  have c3 : w.down.count .umonitor = rest.count .umonitor + if e.kind = .scan ∧ x = .nextStage then 1 else 0 := by
    rw [hd, List.count_cons]
    cases d with
    | resources id => have hx : Obs.answered = x := hx; subst hx; simp
    | sync id => have hx : Obs.acked = x := hx; subst hx; simp
    | umonitor =>
      have hx : Obs.nextStage = x := hx
      have hk : e.kind = .scan := Kind.id_inj hk
      subst hx
      simp [hk]
  have c4 : x = .nextStage → e.kind = .scan := by
    intro hx'
    cases d with
    | resources id => have hx : Obs.answered = x := hx; rw [hx'] at hx; cases hx
    | sync id => have hx : Obs.acked = x := hx; rw [hx'] at hx; cases hx
    | umonitor => exact Kind.id_inj hk
  have nmrg : ∀ k, (GObs.cmd i e.kind x :: t).count (.merged i k.id) + w.up.count (.sync k.id) =
      sent k (logOf (w.cmds.set p { e with cmd := c' }) k) := by
    intro k; rw [hm, hsent k hnx.1]; exact h.mrg k
  have nack : ∀ k, rest.count (.sync k.id) + times .acked (logOf (w.cmds.set p { e with cmd := c' }) k) ≤
      (GObs.cmd i e.kind x :: t).count (.merged i k.id) := by
    intro k; have := h.ack k; have := c1 k; rw [hm, hz]; omega
  have nnext : rest.count .umonitor + times .nextStage (logOf (w.cmds.set p { e with cmd := c' }) .scan) ≤
      (GObs.cmd i e.kind x :: t).count (.told i) := by
    have := h.next; rw [ht, hz]; omega
  have nother : ∀ k, k ≠ .scan → times .nextStage (logOf (w.cmds.set p { e with cmd := c' }) k) = 0 := by
    intro k hk'
    rw [hz, h.other k hk', if_neg]
    rintro ⟨h1, h2⟩
    exact hk' (h1 ▸ c4 h2)
  have ntold : (GObs.cmd i e.kind x :: t).count (.told i) + n ≤ times .replied (logOf (w.cmds.set p { e with cmd := c' }) .scan) := by
    have := h.told
    rw [ht, hz, if_neg (fun h => hnx.2.2 h.2)]
    omega
  refine ⟨?_, ?_, ?_, ?_, h.empty, hsee, nmrg, nack, ?_, ?_, ?_, nnext, nother, ntold, ?_, ?_⟩
  · rw [hkm]; exact h.nodup
  · intro a ha
    rcases mem_set ha with rfl | ha
    · exact hl
    · exact h.life a ha
  · intro hf a ha
    rcases mem_set ha with rfl | ha
    · exact (hgone hf).2
    · exact h.awake (hgone hf).1 a ha
  · exact fun hf => h.prox (hgone hf).1
  · intro hx hf k; have := h.ack' hx (hgone hf).1 k; have := c1 k; rw [hm, hz]; simp only; omega
  · intro k
    have := h.ans k; have := c2 k
    rw [hz, hz, if_neg (c := _ ∧ x = .asked) (fun h => hnx.2.1 h.2)]
    simp only; omega
  · intro hx hf k
    have := h.ans' hx (hgone hf).1 k; have := c2 k
    rw [hz, hz, if_neg (c := _ ∧ x = .asked) (fun h => hnx.2.1 h.2)]
    simp only; omega
  · intro hx hf
    have := h.next' hx (hgone hf).1
    rw [hz, hz, if_neg (c := _ ∧ x = .replied) (fun h => hnx.2.2 h.2)]
    simp only; omega
  · refine order_cons h.order ⟨fun k => ?_, fun k => ?_, fun k => ?_, ?_⟩
    · rw [hsee]; have := nack k; omega
    · rw [hsee]; have := nmrg k; omega
    · rw [hsee]
      split
      · next hk => subst hk; omega
      · next hk => rw [nother k hk]; omega
    · rw [hsee]; omega

theorem message_step {reg : Reg} {c c' : Cmd} {m : Msg} (hg : c.gone = false) (h : Cmd.step reg c (.message m) = some c') :
    c'.log = m.obs :: c.log := by
  simp only [Cmd.step, hg] at h
  cases h
  exact change_log ..

/-! ### the steps of all -/

/-- holds for all workers -/
structure SInv (exact : Prop) (s : Sys) : Prop where
  wrk : ∀ i w, s.wrks[i]? = some w → WInv exact i w (s.udev.count i) (s.trace.filter (about i))
  fresh : ∀ i, s.wrks.length ≤ i → s.udev.count i = 0 ∧ s.trace.filter (about i) = []

/-- a worker has a command of a kind -/
def Has (s : Sys) (i : Nat) (k : Kind) : Prop := ∃ w, s.wrks[i]? = some w ∧ k ∈ w.cmds.map (·.kind)

/-- what holds after a step -/
def Next (exact : Prop) (s : Sys) (e : Ev) (s' : Sys) : Prop := SInv exact s' ∧ ∀ j k, Has s' j k → Has s j k ∨ e = .request j k

theorem Next.same {exact : Prop} {s : Sys} {e : Ev} (h : SInv exact s) : Next exact s e s := ⟨h, fun _ _ h => Or.inl h⟩

/-- only one worker is changed -/
theorem Next.set {exact : Prop} {s s' : Sys} {e : Ev} (h : SInv exact s) {i : Nat} {w w' : Wrk} (hi : s.wrks[i]? = some w)
    (hs : s'.wrks = s.wrks.set i w') (hu : ∀ j, j ≠ i → s'.udev.count j = s.udev.count j)
    (ht : ∀ j, j ≠ i → s'.trace.filter (about j) = s.trace.filter (about j))
    (hw : WInv exact i w' (s'.udev.count i) (s'.trace.filter (about i)))
    (hk : ∀ k, k ∈ w'.cmds.map (·.kind) → k ∈ w.cmds.map (·.kind) ∨ e = .request i k) : Next exact s e s' := by
  have hlt : i < s.wrks.length := (List.getElem?_eq_some_iff.1 hi).1
  refine ⟨⟨?_, ?_⟩, ?_⟩
  · intro j v hj
    rw [hs] at hj
    by_cases hji : j = i
    · subst hji
      rw [List.getElem?_set_self hlt] at hj
      cases hj
      exact hw
    · rw [List.getElem?_set_ne (fun h => hji h.symm)] at hj
      rw [hu j hji, ht j hji]
      exact h.wrk j v hj
  · intro j hj
    rw [hs, List.length_set] at hj
    have : j ≠ i := by omega
    rw [hu j this, ht j this]
    exact h.fresh j hj
  · rintro j k ⟨v, hj, hv⟩
    rw [hs] at hj
    by_cases hji : j = i
    · subst hji
      rw [List.getElem?_set_self hlt] at hj
      cases hj
      rcases hk k hv with h | h
      · exact Or.inl ⟨w, hi, h⟩
      · exact Or.inr h
    · rw [List.getElem?_set_ne (fun h => hji h.symm)] at hj
      exact Or.inl ⟨v, hj, hv⟩

theorem filter_map_self (i : Nat) (k : Kind) (l : List Obs) (t : List GObs) :
    (l.map (GObs.cmd i k) ++ t).filter (about i) = l.map (GObs.cmd i k) ++ t.filter (about i) := by
  rw [List.filter_append]
  congr 1
  rw [List.filter_eq_self]
  intro a ha
  obtain ⟨x, -, rfl⟩ := List.mem_map.1 ha
  simp [about]

theorem filter_map_ne {i j : Nat} (h : j ≠ i) (k : Kind) (l : List Obs) (t : List GObs) :
    (l.map (GObs.cmd i k) ++ t).filter (about j) = t.filter (about j) := by
  rw [List.filter_append]
  have : (l.map (GObs.cmd i k)).filter (about j) = [] := by
    rw [List.filter_eq_nil_iff]
    intro a ha
    obtain ⟨x, -, rfl⟩ := List.mem_map.1 ha
    simp [about, h]
  rw [this, List.nil_append]

theorem kind_mem_set {l : List Entry} {p : Nat} {e : Entry} {c : Cmd} (he : l[p]? = some e) {k : Kind}
    (h : k ∈ (l.set p { e with cmd := c }).map (·.kind)) : k ∈ l.map (·.kind) := by
  rwa [map_kind_set he] at h

/-- a run of the handler or a timeout -/
theorem cmdStep_grow {exact : Prop} {s s' : Sys} {e : Ev} (h : SInv exact s) {i : Nat} {w : Wrk} (hi : s.wrks[i]? = some w) (hwg : w.gone = false)
    {p : Nat} {ev : Cmd.Ev} (hlife : ∀ a c', Life a.kind.reg a.cmd → Cmd.step (Entry.kind a).reg a.cmd ev = some c' → Life a.kind.reg c')
    (hgrow : ∀ reg c c', Cmd.step reg c ev = some c' → Grows c c') (hs : cmdStep s i w p ev = some s') : Next exact s e s' := by
  unfold cmdStep at hs
  cases hp : w.cmds[p]? with
  | none => rw [hp] at hs; cases hs; exact .same h
  | some a =>
    rw [hp] at hs
    obtain ⟨c', hc, rfl⟩ := Option.map_eq_some_iff.1 hs
    obtain ⟨new, hl, hn⟩ := hgrow _ _ _ hc
    have hnew := newObs_of hl
    have hw := h.wrk i w hi
    refine Next.set h hi rfl ?_ ?_ ?_ fun k hk => Or.inl (kind_mem_set hp hk)
    · intro j hj
      simp only [update, List.count_append]
      rw [count_udev_ne _ _ _ _ hj.symm, Nat.add_zero]
    · intro j hj
      exact filter_map_ne hj ..
    · have := hw.grow hwg hp (hlife a c' (hw.life a (List.mem_of_getElem? hp)) hc) hl hn
      simp only [update, hnew, List.count_append, filter_map_self]
      exact this

theorem deliver_next {exact : Prop} {s s' : Sys} {e : Ev} (h : SInv exact s) {i : Nat} {w : Wrk} (hi : s.wrks[i]? = some w)
    (hg : w.gone = false) {d : Down} {rest : List Down} (hd : w.down = d :: rest) {ok : Bool} (hok : exact → ok = true)
    (hs : deliver { s with wrks := s.wrks.set i { w with down := rest } } i { w with down := rest } d ok = some s') :
    Next exact s e s' := by
  have hw := h.wrk i w hi
  have hset : ∀ w' : Wrk, w'.cmds = w.cmds → WInv exact i w' (s.udev.count i) (s.trace.filter (about i)) →
      Next exact s e { s with wrks := s.wrks.set i w' } := by
    intro w' hc hw'
    exact Next.set h hi rfl (fun _ _ => rfl) (fun _ _ => rfl) hw' fun k hk => Or.inl (hc ▸ hk)
  unfold deliver at hs
  have hfind : find { w with down := rest } d.target.1 = find w d.target.1 := rfl
  rw [hfind] at hs
  cases hf : find w d.target.1 with
  | none =>
    rw [hf] at hs
    cases hs
    refine hset _ rfl (hw.skip hd (fun k => ⟨?_, ?_⟩) ?_)
    · rintro rfl
      have := (hw.found hf).1
      rw [hd, List.count_cons_self] at this
      omega
    · rintro rfl
      have := (hw.found hf).2.1
      rw [hd, List.count_cons_self] at this
      omega
    · rintro rfl
      have := (hw.found (k := .scan) hf).2.2 rfl
      rw [hd, List.count_cons_self] at this
      omega
  | some p =>
    rw [hf] at hs
    simp only at hs
    split at hs
    · next hno =>
      cases hs
      refine hset _ rfl (hw.drop hd fun hx => ?_)
      rw [hok hx] at hno
      simp at hno
    · obtain ⟨a, hp, hk⟩ := find_some hf
      unfold cmdStep at hs
      have hp' : ({ w with down := rest } : Wrk).cmds[p]? = some a := hp
      rw [hp'] at hs
      obtain ⟨c', hc, rfl⟩ := Option.map_eq_some_iff.1 hs
      have ha := List.mem_of_getElem? hp
      have hl := message_step (hw.awake hg a ha) hc
      have hnew : newObs a.cmd c' = [d.target.2.obs] := newObs_of hl
      have hlife := Life.message _ (hw.life a ha) (hw.expected hd hp hk) hc
      have := hw.message hd hp hk hlife hl
      have hu : [d.target.2.obs].filterMap (udevOf i a.kind) = [] := by
        cases d <;> rfl
      have hup : [d.target.2.obs].reverse.filterMap (upOf a.kind) = [] := by
        cases d <;> rfl
      refine Next.set h hi (w' := { w with cmds := w.cmds.set p { a with cmd := c' }, down := rest, gone := w.gone || c'.gone }) ?_ ?_ ?_ ?_ fun k hk => Or.inl (kind_mem_set hp hk)
      · simp only [update, hnew, hup, List.append_nil, List.set_set]
      · intro j hj
        simp only [update, hnew, hu, List.append_nil]
      · intro j hj
        exact filter_map_ne hj ..
      · simp only [update, hnew, hu, List.append_nil, filter_map_self]
        exact this

theorem count_erase_ne {i j : Nat} (h : j ≠ i) (l : List Nat) : (l.erase i).count j = l.count j := by
  rw [List.count_erase_of_ne h]

/-- one thing happens -/
theorem step_next {exact : Prop} {s s' : Sys} {e : Ev} (h : SInv exact s)
    (hx : exact → (∀ i, e ≠ .mainRecv i false) ∧ (∀ i, e ≠ .wrkRecv i false) ∧ ∀ i, e ≠ .udevDone i false)
    (hr : ∀ i k, e = .request i k → ¬ Has s i k) (hs : step s e = some s') : Next exact s e s' := by
  have hset : ∀ (i : Nat) (w w' : Wrk), s.wrks[i]? = some w → w'.cmds = w.cmds →
      WInv exact i w' (s.udev.count i) (s.trace.filter (about i)) →
      Next exact s e { s with wrks := s.wrks.set i w' } := by
    intro i w w' hi hc hw'
    exact Next.set h hi rfl (fun _ _ => rfl) (fun _ _ => rfl) hw' fun k hk => Or.inl (hc ▸ hk)
  cases e with
  | spawn =>
    cases hs
    refine ⟨⟨?_, ?_⟩, ?_⟩
    · intro i w hi
      rw [List.getElem?_append] at hi
      split at hi
      · exact h.wrk i w hi
      · next hlt =>
        obtain ⟨h1, h2⟩ := h.fresh i (by omega)
        have : w = Wrk.new := by
          generalize i - s.wrks.length = m at hi
          cases m with
          | zero => simp at hi; exact hi.symm
          | succ m => simp at hi
        subst this
        show WInv exact i Wrk.new (s.udev.count i) (s.trace.filter (about i))
        rw [h1, h2]
        exact winv_new _ _
    · intro i hi
      simp only [List.length_append] at hi
      exact h.fresh i (by omega)
    · rintro j k ⟨w, hw, hk⟩
      rw [List.getElem?_append] at hw
      split at hw
      · exact Or.inl ⟨w, hw, hk⟩
      · have : w = Wrk.new := by
          generalize j - s.wrks.length = m at hw
          cases m with
          | zero => simp at hw; exact hw.symm
          | succ m => simp at hw
        subst this
        simp [Wrk.new] at hk
  | udevOther => cases hs; exact .same h
  | udevDone i ok =>
    simp only [step] at hs
    split at hs
    · next hmem =>
      cases hs
      have hpos : 0 < s.udev.count i := List.count_pos_iff.2 hmem
      have hcnt : (s.udev.erase i).count i + 1 = s.udev.count i := by rw [List.count_erase_self]; omega
      have herase : ∀ w : Wrk, WInv exact i w ((s.udev.erase i).count i + 1) (s.trace.filter (about i)) ↔
          WInv exact i w (s.udev.count i) (s.trace.filter (about i)) := fun w => by rw [hcnt]
      unfold tell
      cases hw : s.wrks[i]? with
      | none =>
        have := (h.fresh i (by simpa using hw)).1
        omega
      | some w =>
        have hwi := h.wrk i w hw
        simp only [hw]
        split
        · refine Next.set h hw rfl ?_ ?_ ?_ fun k hk => Or.inl hk
          · intro j hj; exact count_erase_ne hj _
          · intro j hj
            simp [about, hj]
          · have := ((herase w).2 hwi).tell
            simp only [List.filter_cons, about, decide_true, if_true]
            exact this
        · next hno =>
          refine Next.set h hw (w' := w) ?_ ?_ ?_ ?_ fun k hk => Or.inl hk
          · simp only
            apply List.ext_getElem?
            intro j
            by_cases hj : i = j
            · subst hj
              have hlt : i < s.wrks.length := (List.getElem?_eq_some_iff.1 hw).1
              rw [List.getElem?_set_self hlt, hw]
            · rw [List.getElem?_set_ne hj]
          · intro j hj; exact count_erase_ne hj _
          · intro j hj; rfl
          · refine ((herase w).2 hwi).untold fun he => ?_
            have h3 := (hx he).2.2 i
            cases hok : ok with
            | false => rw [hok] at h3; exact absurd rfl h3
            | true =>
              rw [hok] at hno
              cases hgo : w.gone with
              | true => rfl
              | false => rw [hwi.prox hgo] at hno; simp at hno
    · cases hs; exact .same h
  | request i k =>
    simp only [step, Ev.worker] at hs
    cases hw : s.wrks[i]? with
    | none => rw [hw] at hs; cases hs; exact .same h
    | some w =>
      rw [hw] at hs
      simp only [wstep] at hs
      split at hs
      · cases hs; exact .same h
      · cases hs
        have hk : k ∉ w.cmds.map (·.kind) := fun hm => hr i k rfl ⟨w, hw, hm⟩
        refine Next.set h hw rfl (fun _ _ => rfl) (fun _ _ => rfl) ((h.wrk i w hw).request hk) ?_
        intro k' hk'
        simp only [List.map_append, List.map_cons, List.map_nil, List.mem_append, List.mem_singleton] at hk'
        rcases hk' with hk' | rfl
        · exact Or.inl hk'
        · exact Or.inr rfl
  | handle i p o =>
    simp only [step, Ev.worker] at hs
    cases hw : s.wrks[i]? with
    | none => rw [hw] at hs; cases hs; exact .same h
    | some w =>
      rw [hw] at hs
      simp only [wstep] at hs
      split at hs
      · cases hs; exact .same h
      · next hg => exact cmdStep_grow h hw (by simpa using hg) (fun a c' hl hc => Life.run o hl hc) (fun _ _ _ hc => run_grows hc) hs
  | timeout i p =>
    simp only [step, Ev.worker] at hs
    cases hw : s.wrks[i]? with
    | none => rw [hw] at hs; cases hs; exact .same h
    | some w =>
      rw [hw] at hs
      simp only [wstep] at hs
      split at hs
      · cases hs; exact .same h
      · next hg => exact cmdStep_grow h hw (by simpa using hg) (fun a c' hl hc => Life.timeout hl hc) (fun _ _ _ hc => timeout_grows hc) hs
  | stop i =>
    simp only [step, Ev.worker] at hs
    cases hw : s.wrks[i]? with
    | none => rw [hw] at hs; cases hs; exact .same h
    | some w =>
      rw [hw] at hs
      cases hs
      exact hset i w _ hw rfl (h.wrk i w hw).stop
  | mainRecv i ok =>
    simp only [step, Ev.worker] at hs
    cases hw : s.wrks[i]? with
    | none => rw [hw] at hs; cases hs; exact .same h
    | some w =>
      rw [hw] at hs
      simp only [wstep] at hs
      split at hs
      · next u rest hp hu =>
        cases hs
        have hok : exact → ok = true := by
          intro he
          cases hok : ok with
          | true => rfl
          | false => exact absurd (by rw [hok]) ((hx he).1 i)
        refine Next.set h hw rfl (fun _ _ => rfl) ?_ ?_ fun k hk => Or.inl hk
        · intro j hj
          cases u <;> simp [Sys.mainRecv, mergeObs, about, hj]
        · have := (h.wrk i w hw).mainRecv hp hu ok hok
          have hf : (mergeObs i u ++ s.trace).filter (about i) = mergeObs i u ++ s.trace.filter (about i) := by
            cases u <;> simp [mergeObs, about]
          simp only [Sys.mainRecv]
          rw [hf]
          exact this
      · cases hs; exact .same h
  | wrkRecv i ok =>
    simp only [step, Ev.worker] at hs
    cases hw : s.wrks[i]? with
    | none => rw [hw] at hs; cases hs; exact .same h
    | some w =>
      rw [hw] at hs
      simp only [wstep] at hs
      split at hs
      · next d rest hg hd =>
        have hok : exact → ok = true := by
          intro he
          cases hok : ok with
          | true => rfl
          | false => exact absurd (by rw [hok]) ((hx he).2.1 i)
        exact deliver_next h hw hg hd hok hs
      · cases hs; exact .same h
  | reap i =>
    simp only [step, Ev.worker] at hs
    cases hw : s.wrks[i]? with
    | none => rw [hw] at hs; cases hs; exact .same h
    | some w =>
      rw [hw] at hs
      simp only [wstep] at hs
      split at hs
      · next hg =>
        cases hs
        simp only [Bool.and_eq_true] at hg
        exact hset i w _ hw rfl ((h.wrk i w hw).reap hg.1 (by simpa using hg.2))
      · cases hs; exact .same h

theorem sinv_init (exact : Prop) : SInv exact init := ⟨by intro i w h; simp [init] at h, by intro i _; simp [init]⟩

/-- a history -/
theorem run_sinv {exact : Prop} {s s' : Sys} {l : List Ev} (h : SInv exact s) (hx : exact → NoneLost l)
    (hr : ∀ i k, l.count (.request i k) ≤ 1 ∧ (Has s i k → l.count (.request i k) = 0)) (hs : run s l = some s') : SInv exact s' := by
  induction l generalizing s with
  | nil => cases hs; exact h
  | cons e l ih =>
    simp only [run] at hs
    obtain ⟨s1, h1, h2⟩ := Option.bind_eq_some_iff.1 hs
    have hn := step_next h (fun he => hx he e (List.mem_cons_self ..)) (fun i k he hh => by
      have := (hr i k).2 hh
      rw [he, List.count_cons_self] at this
      omega) h1
    refine ih hn.1 (fun he a ha => hx he a (List.mem_cons_of_mem _ ha)) (fun i k => ?_) h2
    have hc := hr i k
    rw [List.count_cons] at hc
    refine ⟨by omega, fun hh => ?_⟩
    rcases hn.2 i k hh with hh | rfl
    · have := hc.2 hh; omega
    · have := hc.1; simp at this; simpa [List.count_eq_zero] using this

theorem reaches_sinv {l : List Ev} {s : Sys} (h : Reaches l s) (ho : OneOfAKind l) : SInv (NoneLost l) s := by
  refine run_sinv (sinv_init _) id (fun i k => ⟨ho i k, ?_⟩) h
  rintro ⟨w, hw, -⟩
  simp [init] at hw

/-! ### what is seen of all -/

theorem count_filter_about {i : Nat} {x : GObs} (h : about i x = true) (t : List GObs) : (t.filter (about i)).count x = t.count x :=
  List.count_filter h

theorem times_seen (i : Nat) (k : Kind) (x : Obs) (t : List GObs) : times x (seen (t.filter (about i)) k) = t.count (.cmd i k x) := by
  induction t with
  | nil => rfl
  | cons y t ih =>
    simp only [times] at ih ⊢
    rw [List.filter_cons, List.count_cons]
    cases y with
    | cmd j k' y =>
      by_cases hj : i = j
      · subst hj
        by_cases hk : k' = k
        · subst hk
          by_cases hy : y = x
          · subst hy; simp_all [about, proj, seen]
          · simp_all [about, proj, seen]
        · simp_all [about, proj, seen]
      · have : ¬ j = i := fun h => hj h.symm
        simp_all [about, seen]
    | merged j id =>
      by_cases hj : i = j
      · simp_all [about, seen]; exact ih
      · simp_all [about, seen]
    | told j =>
      by_cases hj : i = j
      · simp_all [about, seen]; exact ih
      · simp_all [about, seen]

/-- what is seen of a worker is in order, at any time -/
theorem SInv.order {exact : Prop} {s : Sys} (h : SInv exact s) {later earlier : List GObs} (ht : s.trace = later ++ earlier) (i : Nat) :
    Order i (earlier.filter (about i)) := by
  cases hw : s.wrks[i]? with
  | some w =>
    refine (h.wrk i w hw).order (later.filter (about i)) _ ?_
    rw [ht, List.filter_append]
  | none =>
    have := (h.fresh i (by simpa using hw)).2
    rw [ht, List.filter_append] at this
    rw [(List.append_eq_nil_iff.1 this).2]
    exact order_nil i

theorem Kind.stages_two {k : Kind} (h : k.reg.stages = 2) : k = .scan := by
  cases k <;> first | rfl | (exfalso; revert h; decide)

end Sid.Sys
