import Verif.Spec.UbrCmd
namespace Sid.Cmd
open Sid.Spec.Cmd

/-- what holds after a step inside the handler -/
def Post (r : R) (Q F : Cmd → Prop) : Prop :=
  match r with
  | none => True
  | some (true, c) => Q c
  | some (false, c) => F c

theorem Post.andThen {r : R} {f : Cmd → R} {P Q F : Cmd → Prop} (h : Post r P F) (hf : ∀ c, P c → Post (f c) Q F) :
    Post (r.andThen f) Q F := by
  match r, h with
  | none, _ => trivial
  | some (false, c), h => exact h
  | some (true, c), h => exact hf c h

theorem Post.mono {r : R} {P Q F G : Cmd → Prop} (h : Post r P F) (hq : ∀ c, P c → Q c) (hg : ∀ c, F c → G c) : Post r Q G := by
  match r, h with
  | none, _ => trivial
  | some (false, c), h => exact hg c h
  | some (true, c), h => exact hq c h

theorem times_cons (x y : Obs) (l : List Obs) : times x (y :: l) = times x l + if y = x then 1 else 0 := by
  simp [times, List.count_cons]

theorem acked_cons {x : Obs} {l : List Obs} (h : AckedBefore l) (hx : x = .replied → times .exported l = times .acked l) :
    AckedBefore (x :: l) := by
  intro later earlier e
  cases later with
  | nil =>
    simp only [List.nil_append, List.cons.injEq] at e
    rw [← e.2]
    exact hx e.1
  | cons y l' =>
    simp only [List.cons_append, List.cons.injEq] at e
    exact h l' earlier e.2

theorem after_cons {x : Obs} {l : List Obs} (h : NothingAfterYield l) (hx : x = .exec → .yielded ∉ l) : NothingAfterYield (x :: l) := by
  intro later earlier e
  cases later with
  | nil => simp
  | cons y l' =>
    simp only [List.cons_append, List.cons.injEq] at e
    obtain ⟨rfl, rfl⟩ := e
    intro hm
    rcases List.mem_cons.mp hm with rfl | hm
    · exact hx rfl (by simp)
    · exact h l' earlier rfl hm

/-! ### whatever messages come -/

/-- holds at any time, whatever messages come -/
structure Any (c : Cmd) : Prop where
  once : times .replied c.log + (if c.resBuf then 1 else 0) ≤ 1
  after : NothingAfterYield c.log
  over : .yielded ∈ c.log → c.gone = true ∨ c.st = .fin ∨ (c.st = .exeSched ∧ c.prev = .fin)

/-- holds inside the handler -/
structure AnyMid (c : Cmd) : Prop where
  once : times .replied c.log + (if c.resBuf then 1 else 0) ≤ 1
  after : NothingAfterYield c.log
  over : .yielded ∉ c.log
  ne : c.st ≠ .err

/-- holds after a failure inside the handler -/
structure AnyFail (c : Cmd) : Prop where
  once : times .replied c.log + (if c.resBuf then 1 else 0) ≤ 1
  after : NothingAfterYield c.log

theorem AnyMid.toFail {c : Cmd} (h : AnyMid c) : AnyFail c := ⟨h.once, h.after⟩

theorem AnyMid.see {c : Cmd} {x : Obs} (h : AnyMid c) (hx : x ≠ .replied) (hy : x ≠ .yielded) : AnyMid (c.see x) := by
  refine ⟨?_, after_cons h.after fun _ => h.over, ?_, ?_⟩
  · simp only [Cmd.see, times_cons]
    rw [if_neg hx]
    exact h.once
  · simp only [Cmd.see, List.mem_cons, not_or]
    exact ⟨fun e => hy e.symm, h.over⟩
  · exact h.ne

theorem change_same (reg : Reg) (t : Bool) (c : Cmd) (s : St) :
    (change reg t c s).2.log = c.log ∧ (change reg t c s).2.resBuf = c.resBuf ∧ (change reg t c s).2.gone = c.gone := by
  unfold change
  split
  · exact ⟨rfl, rfl, rfl⟩
  · split
    · exact ⟨rfl, rfl, rfl⟩
    · split <;> exact ⟨rfl, rfl, rfl⟩
    · split <;> exact ⟨rfl, rfl, rfl⟩
    · exact ⟨rfl, rfl, rfl⟩

theorem change_st (reg : Reg) (t : Bool) (c : Cmd) (s : St) :
    (change reg t c s).2.st = if (change reg t c s).1 then s else c.st := by
  unfold change
  split
  · rfl
  · split
    · rfl
    · split <;> rfl
    · split <;> rfl
    · rfl

theorem AnyMid.change {c : Cmd} (h : AnyMid c) (reg : Reg) (t : Bool) (s : St) (hs : s ≠ .err) :
    Post (some (change reg t c s)) AnyMid AnyFail := by
  obtain ⟨h1, h2, -⟩ := change_same reg t c s
  have : AnyMid (Cmd.change reg t c s).2 := ⟨by rw [h1, h2]; exact h.once, by rw [h1]; exact h.after, by rw [h1]; exact h.over,
    by rw [change_st]; split <;> first | exact hs | exact h.ne⟩
  unfold Post
  generalize Cmd.change reg t c s = r at this
  obtain ⟨b, c'⟩ := r
  cases b
  · exact this.toFail
  · exact this

theorem AnyMid.sendRes {c : Cmd} (h : AnyMid c) (reg : Reg) (o : Outcome) : Post (some (sendRes reg o c)) AnyMid AnyFail := by
  have h1 := h.once
  unfold Cmd.sendRes
  split
  · exact h
  · next hb =>
    simp only [Bool.not_eq_true', Bool.not_eq_false] at hb
    rw [hb, if_pos rfl] at h1
    split
    · exact ⟨by simp only [Bool.false_eq_true, if_false]; omega, h.after, h.over, h.ne⟩
    · split
      · refine ⟨?_, after_cons h.after (by simp), ?_, h.ne⟩
        · simp only [Cmd.see, times_cons]; simp; omega
        · simp only [Cmd.see, List.mem_cons, not_or]
          exact ⟨by simp, h.over⟩
      · exact ⟨by simp only [Bool.false_eq_true, if_false]; omega, h.after⟩

theorem sendExp_any {reg : Reg} {o : Outcome} {c : Cmd} (h : AnyMid c) : AnyMid (sendExp reg o c).2 := by
  unfold sendExp
  split
  · exact h
  · split
    · exact h.see (by simp) (by simp)
    · split
      · exact h
      · exact h.see (by simp) (by simp)
    · exact h

theorem endStage_any {reg : Reg} {o : Outcome} {c : Cmd} (h : AnyMid c) : Post (endStage reg o c) AnyMid AnyFail :=
  h.change _ _ _ (by split <;> simp)

theorem handler_any {reg : Reg} {o : Outcome} {c c' : Cmd} (h1 : times .replied c.log + (if c.resBuf then 1 else 0) ≤ 1)
    (h2 : NothingAfterYield c.log) (h3 : .yielded ∈ c.log → ¬ (c.st = .exeSched ∧ c.prev ≠ .fin)) (h : handler reg o c = some c') :
    Any c' := by
  have hs : Post (start reg o c) AnyMid AnyFail := by
    have hf : AnyFail c := ⟨h1, h2⟩
    unfold start
    split
    · exact hf
    · split
      · exact hf
      · next hst =>
        simp only [ne_eq, Decidable.not_not] at hst
        split
        · next hp =>
          have hm : AnyMid c := ⟨h1, h2, fun hy => h3 hy ⟨hst, by rcases hp with h | h | h <;> rw [h] <;> decide⟩, by rw [hst]; decide⟩
          unfold execute
          refine Post.andThen (hm.change _ _ _ (by simp)) ?_
          intro d hd
          split
          · exact hd.change _ _ _ (by simp)
          · split
            · exact (hd.see (by simp) (by simp)).change _ _ _ (by simp)
            · exact ((hd.see (by simp) (by simp)).see (by simp) (by simp)).change _ _ _ (by simp)
            · exact (hd.see (by simp) (by simp)).toFail
        · split
          · next hp =>
            have hm : AnyMid c := ⟨h1, h2, fun hy => h3 hy ⟨hst, by rw [hp]; decide⟩, by rw [hst]; decide⟩
            exact hm.change _ _ _ (by simp)
          · exact hf
  have hall : Post (R.andThen (R.andThen (R.andThen (start reg o c) (build reg o)) (sendFirst reg o)) (sendLast reg o)) AnyMid AnyFail := by
    refine Post.andThen (P := AnyMid) (Post.andThen (P := AnyMid) (Post.andThen (Q := AnyMid) hs ?_) ?_) ?_
    · intro d hd
      unfold build
      split
      · exact hd
      · split
        · trivial
        · split
          · exact hd.toFail
          · exact hd.change _ _ _ (by split <;> simp)
    · intro d hd
      unfold sendFirst
      split
      · have := sendExp_any (reg := reg) (o := o) hd
        split
        · next e => rw [e] at this; exact this.toFail
        · next e => rw [e] at this; exact this.change _ _ _ (by simp)
        · next e => rw [e] at this; exact this.change _ _ _ (by simp)
      · split
        · exact Post.andThen (hd.sendRes _ _) fun d hd => hd.change _ _ _ (by simp)
        · exact hd
    · intro d hd
      unfold sendLast
      split
      · exact Post.andThen (hd.sendRes _ _) fun d hd => endStage_any hd
      · split
        · have := sendExp_any (reg := reg) (o := o) hd
          split
          · next e => rw [e] at this; exact this.toFail
          · next e => rw [e] at this; exact endStage_any this
        · exact hd
  unfold handler at h
  generalize R.andThen (R.andThen (R.andThen (start reg o c) (build reg o)) (sendFirst reg o)) (sendLast reg o) = r at *
  match r, hall with
  | none, _ => cases h
  | some (true, d), hd =>
    simp only [Option.map_some, Option.some.injEq] at h
    subst h
    have hd : AnyMid d := hd
    simp only [finish, failed, if_true, Bool.not_true]
    unfold yieldIf
    split
    · next hst =>
      refine ⟨?_, after_cons hd.after (by simp), fun _ => ?_⟩
      · simp only [Cmd.see, times_cons]; rw [if_neg (by simp)]; exact hd.once
      · rcases hst with hst | hst
        · exact Or.inr (Or.inl hst)
        · exact absurd hst hd.ne
    · exact ⟨hd.once, hd.after, fun hy => absurd hy hd.over⟩
  | some (false, d), hd =>
    simp only [Option.map_some, Option.some.injEq] at h
    subst h
    have hd : AnyFail d := hd
    simp only [finish, failed, Bool.false_eq_true, if_false, Bool.not_false]
    obtain ⟨e1, e2, -⟩ := change_same reg true d .err
    generalize (change reg true d .err).2 = d' at *
    have hd' : AnyFail d' := ⟨by rw [e1, e2]; exact hd.once, by rw [e1]; exact hd.after⟩
    unfold yieldIf
    split
    · refine ⟨?_, after_cons hd'.after (by simp), fun _ => Or.inl rfl⟩
      simp only [Cmd.see, times_cons]; rw [if_neg (by simp)]; exact hd'.once
    · exact ⟨hd'.once, hd'.after, fun _ => Or.inl rfl⟩

theorem scheduled_log (c : Cmd) : ((scheduled c).enter .exeSched).log = c.log := rfl

theorem step_any {reg : Reg} {c c' : Cmd} {e : Ev} (hi : Any c) (h : step reg c e = some c') : Any c' := by
  cases e with
  | run o =>
    simp only [step] at h
    split at h
    · cases h; exact hi
    · next hg =>
      simp only [Bool.or_eq_true, Bool.not_eq_true', not_or, Bool.not_eq_true, Bool.not_eq_false] at hg
      refine handler_any ?_ ?_ ?_ h
      · simp only [Cmd.see, times_cons]; rw [if_neg (by simp)]; exact hi.once
      · exact after_cons hi.after (by simp)
      · intro hy
        simp only [Cmd.see, List.mem_cons, reduceCtorEq, false_or] at hy
        intro ⟨h1, h2⟩
        rcases hi.over hy with h | h | h
        · rw [hg.1] at h; cases h
        · have : c.st = .exeSched := h1
          rw [this] at h; cases h
        · exact h2 h.2
  | message m =>
    simp only [step] at h
    split at h
    · cases h; exact hi
    · next hg =>
      cases h
      have hs : Any (c.see m.obs) := by
        refine ⟨?_, after_cons hi.after (by cases m <;> simp [Msg.obs]), ?_⟩
        · simp only [Cmd.see, times_cons]; rw [if_neg (by cases m <;> simp [Msg.obs])]; exact hi.once
        · intro hy
          refine hi.over ?_
          simp only [Cmd.see, List.mem_cons] at hy
          rcases hy with hy | hy
          · cases m <;> cases hy
          · exact hy
      have hg' : (c.see m.obs).gone = false := by simpa [Cmd.see] using hg
      generalize c.see m.obs = d at hs hg'
      unfold change
      split
      · exact hs
      · next hst =>
        refine ⟨hs.once, hs.after, fun hy => ?_⟩
        rcases hs.over hy with h | h | h
        · rw [hg'] at h; cases h
        · exact Or.inr (Or.inr ⟨rfl, h⟩)
        · exact absurd h.1 hst
  | timeout =>
    simp only [step] at h
    split at h
    · cases h; exact hi
    · cases h
      unfold change
      split
      · exact hi
      · dsimp only
        split
        · next hst =>
          refine ⟨hi.once, hi.after, fun hy => ?_⟩
          rcases hi.over hy with h | h | h
          · exact Or.inl h
          · rw [h] at hst; cases hst
          · rw [h.1] at hst; cases hst
        · exact hi
  | stop =>
    cases h
    exact ⟨hi.once, hi.after, fun _ => Or.inl rfl⟩

theorem init_any (reg : Reg) : Any (init reg) := by
  refine ⟨by simp [init, change, Cmd.enter, scheduled, times], ?_, by simp [init, change, Cmd.enter, scheduled]⟩
  intro later earlier e
  simp [init, change, Cmd.enter, scheduled] at e

theorem run_any {reg : Reg} {c c' : Cmd} {l : List Ev} (hi : Any c) (h : run reg c l = some c') : Any c' := by
  induction l generalizing c with
  | nil => cases h; exact hi
  | cons e l ih =>
    simp only [run] at h
    match hs : step reg c e, h with
    | some d, h => exact ih (step_any hi hs) h

/-! ### messages as expected -/

/-- the number of stages -/
def S (reg : Reg) : Nat := max 1 reg.stages

/-- Holds before the response of the stage: `k` more runs in this stage, `x` exports not acknowledged, `q` questions not answered -/
structure Mid (reg : Reg) (k x q : Nat) (c : Cmd) : Prop where
  stage : (c.stage = 1 ∧ times .nextStage c.log = 0 ∧ c.resBuf = true ∧ times .replied c.log = 0) ∨
    (c.stage = 2 ∧ reg.stages = 2 ∧ times .nextStage c.log = 1 ∧ c.resBuf = false ∧ times .replied c.log = 1 ∧ reg.client = true)
  quiet : times .yielded c.log = 0
  exps : reg.toMain = true → times .exported c.log = times .acked c.log + x
  asks : times .asked c.log = times .answered c.log + q
  acked : reg.toMain = true → AckedBefore c.log
  bound : times .ran c.log + 2 * (S reg - c.stage) + k ≤ 2 * S reg + times .asked c.log
  awake : c.gone = false
  noTimer : c.timer = false

/-- holds after the response of the stage -/
structure Sent (reg : Reg) (c : Cmd) : Prop where
  stage : (c.stage = 1 ∧ times .nextStage c.log = 0) ∨ (c.stage = 2 ∧ reg.stages = 2 ∧ times .nextStage c.log = 1)
  buf : c.resBuf = false
  reply : times .replied c.log = if reg.client then 1 else 0
  quiet : times .yielded c.log = 0
  exps : reg.toMain = true → times .exported c.log = times .acked c.log
  asks : times .asked c.log = times .answered c.log
  acked : reg.toMain = true → AckedBefore c.log
  bound : times .ran c.log + 2 * (S reg - c.stage) ≤ 2 * S reg + times .asked c.log
  awake : c.gone = false
  noTimer : c.timer = false
  client : c.stage = 2 → reg.client = true

/-- holds after a failure -/
structure Bad (reg : Reg) (c : Cmd) : Prop where
  once : times .replied c.log ≤ 1
  quiet : times .yielded c.log = 0
  acked : reg.toMain = true → AckedBefore c.log
  bound : times .ran c.log ≤ 2 * S reg + times .asked c.log
  ne : c.st ≠ .err
  noTimer : c.timer = false

/-- holds after a timeout -/
structure Late (reg : Reg) (c : Cmd) : Prop where
  once : times .replied c.log ≤ 1
  quiet : times .yielded c.log = 0
  acked : reg.toMain = true → AckedBefore c.log
  bound : times .ran c.log + 1 ≤ 2 * S reg + times .asked c.log
  noTimer : c.timer = false

/-- holds between runs -/
def Alive (reg : Reg) (c : Cmd) : Prop :=
  match c.st with
  | .exeSched => c.due = true ∧
      ((c.prev = .ini ∨ c.prev = .exeWait ∨ c.prev = .stgWait) ∧ Mid reg 2 0 0 c ∨ c.prev = .waitAck ∧ Mid reg 1 0 0 c ∨
        c.prev = .timOut ∧ Late reg c)
  | .exeWait => c.due = false ∧ Mid reg 2 0 1 c
  | .waitAck => c.due = false ∧ reg.toMain = true ∧ Mid reg 1 1 0 c
  | .stgWait => c.due = false ∧ c.timer = true ∧ c.stage = 1 ∧ reg.stages = 2 ∧ Sent reg { c with timer := false }
  | .timOut => c.due = true ∧ Late reg c
  | .fin => c.due = false ∧ c.timer = false ∧ lastStage reg c = true ∧ times .asked c.log = times .answered c.log ∧
      (reg.toMain = true → times .exported c.log = times .acked c.log) ∧ (reg.stages = 2 → times .nextStage c.log = 1)
  | _ => False

/-- holds at any time -/
structure Inv (reg : Reg) (c : Cmd) : Prop where
  once : times .replied c.log ≤ 1
  quiet : times .yielded c.log = if c.st = .fin ∨ c.st = .err then 1 else 0
  reply : c.st = .fin → reg.client = true → times .replied c.log = 1
  acked : reg.toMain = true → AckedBefore c.log
  bound : times .ran c.log ≤ 2 * S reg + times .asked c.log
  alive : c.gone = false → Alive reg c

theorem Mid.toBad {reg : Reg} {k x q : Nat} {c : Cmd} (h : Mid reg k x q c) (hs : c.st ≠ .err) : Bad reg c :=
  ⟨by rcases h.stage with h | h <;> omega, h.quiet, h.acked, by have := h.bound; omega, hs, h.noTimer⟩

theorem Mid.enter {reg : Reg} {k x q : Nat} {c : Cmd} (h : Mid reg k x q c) (s : St) : Mid reg k x q (c.enter s) :=
  ⟨h.stage, h.quiet, h.exps, h.asks, h.acked, h.bound, h.awake, h.noTimer⟩

/-- the changes of state inside of the handler -/
theorem change_plain {reg : Reg} {t : Bool} {c : Cmd} {s : St} (h : c.st ≠ s)
    (hs : s = .exeRun ∨ s = .resBuild ∨ s = .exeWait ∨ s = .resLast ∨ s = .expFirst ∨ s = .resFirst ∨ s = .waitAck ∨ s = .expLast ∨
      s = .err ∨ s = .fin) :
    change reg t c s = (true, c.enter s) := by
  unfold change
  rw [if_neg h]
  rcases hs with rfl | rfl | rfl | rfl | rfl | rfl | rfl | rfl | rfl | rfl <;> rfl

theorem Mid.less {reg : Reg} {k k' x q : Nat} {c : Cmd} (h : Mid reg k x q c) (hk : k' ≤ k) : Mid reg k' x q c :=
  ⟨h.stage, h.quiet, h.exps, h.asks, h.acked, by have := h.bound; omega, h.awake, h.noTimer⟩

theorem Mid.exec {reg : Reg} {k x q : Nat} {c : Cmd} (h : Mid reg k x q c) : Mid reg k x q (c.see .exec) := by
  constructor <;> simp only [Cmd.see, times_cons]
  · simpa using h.stage
  · simpa using h.quiet
  · simpa using h.exps
  · simpa using h.asks
  · exact fun hm => acked_cons (h.acked hm) (by simp)
  · simpa using h.bound
  · exact h.awake
  · exact h.noTimer

theorem Mid.asked {reg : Reg} {k x q : Nat} {c : Cmd} (h : Mid reg k x q c) : Mid reg (k + 1) x (q + 1) (c.see .asked) := by
  constructor <;> simp only [Cmd.see, times_cons]
  · simpa using h.stage
  · simpa using h.quiet
  · simpa using h.exps
  · simp [h.asks]; omega
  · exact fun hm => acked_cons (h.acked hm) (by simp)
  · have := h.bound; simp; omega
  · exact h.awake
  · exact h.noTimer

theorem Mid.exported {reg : Reg} {k x q : Nat} {c : Cmd} (h : Mid reg k x q c) : Mid reg k (x + 1) q (c.see .exported) := by
  constructor <;> simp only [Cmd.see, times_cons]
  · simpa using h.stage
  · simpa using h.quiet
  · intro hm; simp [h.exps hm]; omega
  · simpa using h.asks
  · exact fun hm => acked_cons (h.acked hm) (by simp)
  · simpa using h.bound
  · exact h.awake
  · exact h.noTimer

/-- between `start` and `build` -/
def Q1 (reg : Reg) (c : Cmd) : Prop :=
  c.due = false ∧ (c.st = .resBuild ∧ Mid reg 1 0 0 c ∨ c.st = .exeWait ∧ Mid reg 2 0 1 c ∨ c.st = .resLast ∧ Mid reg 0 0 0 c)

/-- between `build` and `sendFirst` -/
def Q2 (reg : Reg) (c : Cmd) : Prop :=
  c.due = false ∧ (c.st = .expFirst ∧ reg.toMain = true ∧ Mid reg 1 0 0 c ∨ c.st = .resFirst ∧ reg.toMain = false ∧ Mid reg 1 0 0 c ∨
    c.st = .exeWait ∧ Mid reg 2 0 1 c ∨ c.st = .resLast ∧ Mid reg 0 0 0 c)

/-- between `sendFirst` and `sendLast` -/
def Q3 (reg : Reg) (c : Cmd) : Prop :=
  c.due = false ∧ (c.st = .waitAck ∧ reg.toMain = true ∧ Mid reg 1 1 0 c ∨ c.st = .expLast ∧ reg.toMain = false ∧ Sent reg c ∨
    c.st = .exeWait ∧ Mid reg 2 0 1 c ∨ c.st = .resLast ∧ Mid reg 0 0 0 c)

/-- at the end -/
def Q4 (reg : Reg) (c : Cmd) : Prop :=
  c.due = false ∧ (c.st = .waitAck ∧ reg.toMain = true ∧ Mid reg 1 1 0 c ∨ c.st = .exeWait ∧ Mid reg 2 0 1 c ∨
    c.st = .stgWait ∧ c.timer = true ∧ c.stage = 1 ∧ reg.stages = 2 ∧ Sent reg { c with timer := false } ∨
    c.st = .fin ∧ lastStage reg c = true ∧ Sent reg c)

theorem sent_of_sendRes {reg : Reg} {o : Outcome} {c : Cmd} (h : Mid reg 0 0 0 c)
    (hs : c.st ≠ .err) (hd : c.due = false) :
    Post (some (sendRes reg o c)) (fun d => d.st = c.st ∧ d.due = false ∧ Sent reg d) (Bad reg) := by
  have h1 := h.stage
  unfold sendRes
  split
  · next hb =>
    simp only [Bool.not_eq_true'] at hb
    rcases h1 with h1 | h1
    · rw [hb] at h1; simp at h1
    · refine ⟨rfl, hd, Or.inr ⟨h1.1, h1.2.1, h1.2.2.1⟩, hb, ?_, h.quiet, h.exps, h.asks, h.acked, h.bound, h.awake, h.noTimer, ?_⟩
      · rw [if_pos h1.2.2.2.2.2]; exact h1.2.2.2.2.1
      · exact fun _ => h1.2.2.2.2.2
  · next hb =>
    simp only [Bool.not_eq_true', Bool.not_eq_false] at hb
    rcases h1 with h1 | h1
    · split
      · next hcl =>
        simp only [Bool.not_eq_true'] at hcl
        refine ⟨rfl, hd, Or.inl ⟨h1.1, h1.2.1⟩, rfl, ?_, h.quiet, h.exps, h.asks, h.acked, h.bound, h.awake, h.noTimer, ?_⟩
        · rw [hcl]; exact h1.2.2.2
        · intro h2; have : c.stage = 2 := h2; omega
      · next hcl =>
        simp only [Bool.not_eq_true', Bool.not_eq_false] at hcl
        split
        · refine ⟨rfl, hd, ?_⟩
          constructor <;> simp only [Cmd.see, times_cons]
          · exact Or.inl ⟨h1.1, by simpa using h1.2.1⟩
          · rw [hcl, h1.2.2.2]; simp
          · simpa using h.quiet
          · simpa using h.exps
          · simpa using h.asks
          · exact fun hm => acked_cons (h.acked hm) fun _ => by simpa using h.exps hm
          · simpa using h.bound
          · exact h.awake
          · exact h.noTimer
          · intro h2; omega
        · exact ⟨by show times _ c.log ≤ 1; omega, h.quiet, h.acked, by have := h.bound; show times _ c.log ≤ _ + times _ c.log; omega, hs, h.noTimer⟩
    · rw [hb] at h1; simp at h1

theorem endStage_inv {reg : Reg} (hr : RegOk reg) {o : Outcome} {c : Cmd} (h : Sent reg c) (hd : c.due = false)
    (hs : c.st = .resLast ∨ c.st = .expLast) : Post (endStage reg o c) (Q4 reg) (Bad reg) := by
  have hb : Bad reg c := by
    refine ⟨?_, h.quiet, h.acked, by have := h.bound; omega, by rcases hs with h | h <;> rw [h] <;> decide, h.noTimer⟩
    rw [h.reply]; split <;> omega
  unfold endStage
  cases hl : lastStage reg c with
  | true =>
    simp only [if_true]
    rw [change_plain (by rcases hs with h | h <;> rw [h] <;> decide) (by simp)]
    refine ⟨hd, Or.inr (Or.inr (Or.inr ⟨rfl, hl, ?_⟩))⟩
    exact ⟨h.stage, h.buf, h.reply, h.quiet, h.exps, h.asks, h.acked, h.bound, h.awake, h.noTimer, h.client⟩
  | false =>
    simp only [Bool.false_eq_true, if_false]
    unfold change
    rw [if_neg (by rcases hs with h | h <;> rw [h] <;> decide)]
    simp only [hl, Bool.false_or]
    split
    · exact hb
    · have hst : c.stage = 1 ∧ reg.stages = 2 := by
        have := hr.2
        simp only [lastStage, Bool.or_eq_false_iff, decide_eq_false_iff_not] at hl
        rcases h.stage with h | h <;> omega
      refine ⟨hd, Or.inr (Or.inr (Or.inl ⟨rfl, rfl, hst.1, hst.2, ?_⟩))⟩
      exact ⟨h.stage, h.buf, h.reply, h.quiet, h.exps, h.asks, h.acked, h.bound, h.awake, rfl, h.client⟩

theorem bad_enter {reg : Reg} {k x q : Nat} {c : Cmd} {s : St} (h : Mid reg k x q c) (hs : s ≠ .err) : Bad reg (c.enter s) :=
  (h.enter s).toBad hs

theorem execute_inv {reg : Reg} {o : Outcome} {c : Cmd} (h : Mid reg 1 0 0 c) (hd : c.due = false) (hs : c.st = .exeSched) :
    Post (execute reg o c) (Q1 reg) (Bad reg) := by
  unfold execute
  rw [change_plain (by rw [hs]; decide) (by simp)]
  simp only [R.andThen]
  have h := h.enter .exeRun
  have hst : (c.enter .exeRun).st = .exeRun := rfl
  have hd : (c.enter .exeRun).due = false := hd
  generalize c.enter .exeRun = c at h hst hd
  split
  · rw [change_plain (by rw [hst]; decide) (by simp)]
    exact ⟨hd, Or.inl ⟨rfl, h.enter _⟩⟩
  · split
    · rw [change_plain (by simp [Cmd.see, hst]) (by simp)]
      exact ⟨hd, Or.inl ⟨rfl, h.exec.enter _⟩⟩
    · rw [change_plain (by simp [Cmd.see, hst]) (by simp)]
      exact ⟨hd, Or.inr (Or.inl ⟨rfl, h.exec.asked.enter _⟩)⟩
    · exact h.exec.toBad (by simp [Cmd.see, hst])

theorem build_inv {reg : Reg} {o : Outcome} {c : Cmd} (h : Q1 reg c) : Post (build reg o c) (Q2 reg) (Bad reg) := by
  obtain ⟨hd, h⟩ := h
  unfold build
  rcases h with ⟨hs, h⟩ | ⟨hs, h⟩ | ⟨hs, h⟩
  · rw [if_neg (by simp [hs])]
    split
    · trivial
    · split
      · exact h.toBad (by rw [hs]; decide)
      · rw [change_plain (by rw [hs]; split <;> simp) (by split <;> simp)]
        cases hm : reg.toMain with
        | true => exact ⟨hd, Or.inl ⟨rfl, hm, h.enter _⟩⟩
        | false => exact ⟨hd, Or.inr (Or.inl ⟨rfl, hm, h.enter _⟩)⟩
  · rw [if_pos (by rw [hs]; decide)]
    exact ⟨hd, Or.inr (Or.inr (Or.inl ⟨hs, h⟩))⟩
  · rw [if_pos (by rw [hs]; decide)]
    exact ⟨hd, Or.inr (Or.inr (Or.inr ⟨hs, h⟩))⟩

theorem sendFirst_inv {reg : Reg} (hr : RegOk reg) {o : Outcome} {c : Cmd} (h : Q2 reg c) :
    Post (sendFirst reg o c) (Q3 reg) (Bad reg) := by
  obtain ⟨hd, h⟩ := h
  unfold sendFirst
  rcases h with ⟨hs, hm, h⟩ | ⟨hs, hm, h⟩ | ⟨hs, h⟩ | ⟨hs, h⟩
  · rw [if_pos hs]
    unfold sendExp
    rw [if_neg (by simp [hr.1 hm])]
    match o.exp with
    | .sent =>
      simp only
      rw [change_plain (by simp [Cmd.see, hs]) (by simp)]
      exact ⟨hd, Or.inl ⟨rfl, hm, h.exported.enter _⟩⟩
    | .nothing =>
      simp only [hm, if_true]
      rw [change_plain (by simp [hs]) (by simp)]
      exact ⟨hd, Or.inr (Or.inr (Or.inr ⟨rfl, (h.less (by omega)).enter _⟩))⟩
    | .fail => exact h.toBad (by rw [hs]; decide)
  · rw [if_neg (by rw [hs]; decide), if_pos hs]
    refine Post.andThen (sent_of_sendRes (h.less (by omega)) (by rw [hs]; decide) hd) ?_
    intro d ⟨hds, hdd, hd⟩
    rw [change_plain (by rw [hds, hs]; decide) (by simp)]
    refine ⟨hdd, Or.inr (Or.inl ⟨rfl, hm, ?_⟩)⟩
    exact ⟨hd.stage, hd.buf, hd.reply, hd.quiet, hd.exps, hd.asks, hd.acked, hd.bound, hd.awake, hd.noTimer, hd.client⟩
  · rw [if_neg (by rw [hs]; decide), if_neg (by rw [hs]; decide)]
    exact ⟨hd, Or.inr (Or.inr (Or.inl ⟨hs, h⟩))⟩
  · rw [if_neg (by rw [hs]; decide), if_neg (by rw [hs]; decide)]
    exact ⟨hd, Or.inr (Or.inr (Or.inr ⟨hs, h⟩))⟩

theorem Sent.exported {reg : Reg} {c : Cmd} (h : Sent reg c) (hm : reg.toMain = false) : Sent reg (c.see .exported) := by
  constructor <;> simp only [Cmd.see, times_cons]
  · simpa using h.stage
  · exact h.buf
  · simpa using h.reply
  · simpa using h.quiet
  · simp [hm]
  · simpa using h.asks
  · simp [hm]
  · simpa using h.bound
  · exact h.awake
  · exact h.noTimer
  · exact h.client

theorem sendLast_inv {reg : Reg} (hr : RegOk reg) {o : Outcome} {c : Cmd} (h : Q3 reg c) :
    Post (sendLast reg o c) (Q4 reg) (Bad reg) := by
  obtain ⟨hd, h⟩ := h
  unfold sendLast
  rcases h with ⟨hs, hm, h⟩ | ⟨hs, hm, h⟩ | ⟨hs, h⟩ | ⟨hs, h⟩
  · rw [if_neg (by rw [hs]; decide), if_neg (by rw [hs]; decide)]
    exact ⟨hd, Or.inl ⟨hs, hm, h⟩⟩
  · rw [if_neg (by rw [hs]; decide), if_pos hs]
    have hb : Bad reg c := by
      refine ⟨?_, h.quiet, h.acked, by have := h.bound; omega, by rw [hs]; decide, h.noTimer⟩
      rw [h.reply]; split <;> omega
    unfold sendExp
    split
    · next e =>
      split at e
      · cases e
      · split at e
        · cases e
        · split at e <;> cases e
        · cases e; exact hb
    · next e1 e2 =>
      split at e2
      · cases e2; exact endStage_inv hr h hd (Or.inr hs)
      · split at e2
        · cases e2; exact endStage_inv hr (h.exported hm) hd (Or.inr hs)
        · split at e2
          · cases e2; exact endStage_inv hr h hd (Or.inr hs)
          · cases e2; exact endStage_inv hr (h.exported hm) hd (Or.inr hs)
        · cases e2; exact (e1 rfl).elim
  · rw [if_neg (by rw [hs]; decide), if_neg (by rw [hs]; decide)]
    exact ⟨hd, Or.inr (Or.inl ⟨hs, h⟩)⟩
  · rw [if_pos hs]
    refine Post.andThen (sent_of_sendRes h (by rw [hs]; decide) hd) ?_
    intro d ⟨hds, hdd, hd⟩
    exact endStage_inv hr hd hdd (Or.inl (hds.trans hs))

theorem Mid.ran {reg : Reg} {k x q : Nat} {c : Cmd} (h : Mid reg (k + 1) x q c) : Mid reg k x q ({ c with due := false }.see .ran) := by
  constructor <;> simp only [Cmd.see, times_cons]
  · simpa using h.stage
  · simpa using h.quiet
  · simpa using h.exps
  · simpa using h.asks
  · exact fun hm => acked_cons (h.acked hm) (by simp)
  · have := h.bound; simp; omega
  · exact h.awake
  · exact h.noTimer

theorem Late.ran {reg : Reg} {c : Cmd} (h : Late reg c) (hs : c.st ≠ .err) : Bad reg ({ c with due := false }.see .ran) := by
  constructor <;> simp only [Cmd.see, times_cons]
  · simpa using h.once
  · simpa using h.quiet
  · exact fun hm => acked_cons (h.acked hm) (by simp)
  · have := h.bound; simp; omega
  · exact hs
  · exact h.noTimer

theorem start_inv {reg : Reg} {o : Outcome} {c : Cmd} (h : Alive reg c) (hdue : c.due = true) :
    Post (start reg o ({ c with due := false }.see .ran)) (Q1 reg) (Bad reg) := by
  unfold start
  have e1 : ({ c with due := false }.see .ran).st = c.st := rfl
  have e2 : ({ c with due := false }.see .ran).prev = c.prev := rfl
  rw [e1, e2]
  unfold Alive at h
  split at h
  · next hs =>
    rw [if_neg (by rw [hs]; decide), if_neg (by simp [hs])]
    rcases h.2 with ⟨hp, h⟩ | ⟨hp, h⟩ | ⟨hp, h⟩
    · rw [if_pos hp]
      exact execute_inv h.ran rfl hs
    · rw [if_neg (by rw [hp]; decide), if_pos hp]
      rw [change_plain (by simp [Cmd.see, hs]) (by simp)]
      exact ⟨rfl, Or.inr (Or.inr ⟨rfl, (Mid.ran (k := 0) h).enter _⟩)⟩
    · rw [if_neg (by rw [hp]; decide), if_neg (by rw [hp]; decide)]
      exact h.ran (by rw [hs]; decide)
  · rw [h.1] at hdue; cases hdue
  · rw [h.1] at hdue; cases hdue
  · rw [h.1] at hdue; cases hdue
  · next hs =>
    rw [if_pos hs]
    exact h.2.ran (by rw [hs]; decide)
  · rw [h.1] at hdue; cases hdue
  · exact h.elim

theorem finish_inv {reg : Reg} {r : Bool × Cmd} (h : Post (some r) (Q4 reg) (Bad reg)) : Inv reg (finish reg r) := by
  obtain ⟨b, c⟩ := r
  cases b with
  | false =>
    have h : Bad reg c := h
    simp only [finish, failed, Bool.false_eq_true, if_false, Bool.not_false]
    rw [change_plain h.ne (by simp)]
    unfold yieldIf
    rw [if_pos (Or.inr (show (c.enter .err).st = .err from rfl))]
    constructor <;> simp only [Cmd.see, Cmd.enter, times_cons]
    · simpa using h.once
    · simp [h.quiet]
    · simp
    · exact fun hm => acked_cons (h.acked hm) (by simp)
    · simpa using h.bound
    · simp
  | true =>
    obtain ⟨hd, h⟩ := h
    simp only [finish, failed, if_true, Bool.not_true]
    unfold yieldIf
    rcases h with ⟨hs, hm, h⟩ | ⟨hs, h⟩ | ⟨hs, ht, h1, h2, h⟩ | ⟨hs, hl, h⟩
    · rw [if_neg (by rw [hs]; decide)]
      have hb := h.toBad (by rw [hs]; decide)
      refine ⟨hb.once, ?_, ?_, hb.acked, hb.bound, fun _ => ?_⟩
      · simp [hs, h.quiet]
      · simp [hs]
      · simp only [Alive, hs]
        exact ⟨hd, hm, h.stage, h.quiet, h.exps, h.asks, h.acked, h.bound, rfl, h.noTimer⟩
    · rw [if_neg (by rw [hs]; decide)]
      have hb := h.toBad (by rw [hs]; decide)
      refine ⟨hb.once, ?_, ?_, hb.acked, hb.bound, fun _ => ?_⟩
      · simp [hs, h.quiet]
      · simp [hs]
      · simp only [Alive, hs]
        exact ⟨hd, h.stage, h.quiet, h.exps, h.asks, h.acked, h.bound, rfl, h.noTimer⟩
    · rw [if_neg (by rw [hs]; decide)]
      refine ⟨?_, ?_, ?_, h.acked, ?_, fun _ => ?_⟩
      · have := h.reply; simp only at this; rw [this]; split <;> omega
      · have := h.quiet; simp only at this; simp [hs, this]
      · simp [hs]
      · have := h.bound; simp only at this; simp only; omega
      · simp only [Alive, hs]
        exact ⟨hd, ht, h1, h2, h.stage, h.buf, h.reply, h.quiet, h.exps, h.asks, h.acked, h.bound, rfl, rfl, h.client⟩
    · rw [if_pos (Or.inl hs)]
      constructor <;> simp only [Cmd.see, times_cons]
      · rw [h.reply]; simp; split <;> omega
      · simp [h.quiet, hs]
      · intro _ hc; rw [h.reply, hc]; simp
      · exact fun hm => acked_cons (h.acked hm) (by simp)
      · have := h.bound; simp; omega
      · intro _
        simp only [Alive, hs, times_cons]
        refine ⟨hd, h.noTimer, hl, by simpa using h.asks, by simpa using h.exps, fun h2 => ?_⟩
        rcases h.stage with h3 | h3
        · simp only [lastStage, h3.1, h2] at hl; cases hl
        · simpa using h3.2.2

theorem handler_inv {reg : Reg} (hr : RegOk reg) {o : Outcome} {c c' : Cmd} (h : Alive reg c) (hdue : c.due = true)
    (hs : handler reg o ({ c with due := false }.see .ran) = some c') : Inv reg c' := by
  have := Post.andThen (Post.andThen (Post.andThen (start_inv (o := o) h hdue) (fun _ => build_inv (o := o)))
    (fun _ => sendFirst_inv hr (o := o))) (fun _ => sendLast_inv hr (o := o))
  unfold handler at hs
  generalize R.andThen (R.andThen (R.andThen (start reg o ({ c with due := false }.see .ran)) (build reg o)) (sendFirst reg o))
    (sendLast reg o) = r at *
  match r, this with
  | none, _ => cases hs
  | some r, h =>
    simp only [Option.map_some, Option.some.injEq] at hs
    subst hs
    exact finish_inv h

theorem Late.see {reg : Reg} {c : Cmd} (h : Late reg c) (m : Msg) : Late reg (c.see m.obs) := by
  constructor <;> simp only [Cmd.see, times_cons]
  · have := h.once; cases m <;> simpa [Msg.obs]
  · have := h.quiet; cases m <;> simpa [Msg.obs]
  · exact fun hm => acked_cons (h.acked hm) (by cases m <;> simp [Msg.obs])
  · have := h.bound; cases m <;> simpa [Msg.obs]
  · exact h.noTimer

theorem message_inv {reg : Reg} {c : Cmd} {m : Msg} (hi : Inv reg c) (hg : c.gone = false) (he : Expected reg c.log m) :
    Inv reg (change reg true (c.see m.obs) .exeSched).2 := by
  have ha := hi.alive hg
  have h1 : times .replied (c.see m.obs).log = times .replied c.log := by cases m <;> simp [Cmd.see, Msg.obs, times_cons]
  have h2 : times .yielded (c.see m.obs).log = times .yielded c.log := by cases m <;> simp [Cmd.see, Msg.obs, times_cons]
  have h3 : times .ran (c.see m.obs).log = times .ran c.log := by cases m <;> simp [Cmd.see, Msg.obs, times_cons]
  have h4 : times .asked (c.see m.obs).log = times .asked c.log := by cases m <;> simp [Cmd.see, Msg.obs, times_cons]
  have h5 : reg.toMain = true → AckedBefore (c.see m.obs).log :=
    fun hm => acked_cons (hi.acked hm) (by cases m <;> simp [Msg.obs])
  obtain ⟨l, -, -⟩ := change_same reg true (c.see m.obs) .exeSched
  -- the state is neither finished nor failed
  have key : (change reg true (c.see m.obs) .exeSched).2.st ≠ .fin ∧ (change reg true (c.see m.obs) .exeSched).2.st ≠ .err ∧
      c.st ≠ .fin ∧ c.st ≠ .err ∧ Alive reg (change reg true (c.see m.obs) .exeSched).2 := by
    unfold change
    have est : (c.see m.obs).st = c.st := rfl
    rw [est]
    unfold Alive at ha
    split at ha
    · next hs =>
      rw [if_pos hs]
      obtain ⟨hd, ha⟩ := ha
      have hno : (∃ k, Mid reg k 0 0 c) → False := by
        intro ⟨k, hk⟩
        cases m with
        | ack => have := hk.exps he.1; have := he.2; omega
        | answer => have := hk.asks; have : times .answered c.log < times .asked c.log := he; omega
        | nextStage => have := he.2; rcases hk.stage with h | h <;> omega
      rcases ha with ⟨-, h⟩ | ⟨-, h⟩ | ⟨hp, h⟩
      · exact (hno ⟨_, h⟩).elim
      · exact (hno ⟨_, h⟩).elim
      · refine ⟨by simp [Cmd.see, hs], by simp [Cmd.see, hs], by simp [hs], by simp [hs], ?_⟩
        simp only [Alive, est, hs]
        exact ⟨hd, Or.inr (Or.inr ⟨hp, h.see m⟩)⟩
    · next hs =>
      rw [if_neg (by rw [hs]; decide)]
      refine ⟨by simp [Cmd.enter], by simp [Cmd.enter], by simp [hs], by simp [hs], ?_⟩
      obtain ⟨hd, h⟩ := ha
      have hm : m = .answer := by
        cases m with
        | ack => have := h.exps he.1; have := he.2; omega
        | answer => rfl
        | nextStage => have := he.2; rcases h.stage with h | h <;> omega
      subst hm
      refine ⟨by simp [scheduled, Cmd.enter, Cmd.see, hs], Or.inl ⟨Or.inr (Or.inl (by simp [scheduled, Cmd.enter, Cmd.see, hs])), ?_⟩⟩
      have b := h.bound
      constructor <;> simp only [scheduled, Cmd.enter, Cmd.see, Msg.obs, times_cons, hs]
      · simpa using h.stage
      · simpa using h.quiet
      · simpa using h.exps
      · have := h.asks; simp; omega
      · exact h5
      · simpa using b
      · exact h.awake
    · next hs =>
      rw [if_neg (by rw [hs]; decide)]
      refine ⟨by simp [Cmd.enter], by simp [Cmd.enter], by simp [hs], by simp [hs], ?_⟩
      obtain ⟨hd, ht, h⟩ := ha
      have hm : m = .ack := by
        cases m with
        | ack => rfl
        | answer => have := h.asks; have : times .answered c.log < times .asked c.log := he; omega
        | nextStage => have := he.2; rcases h.stage with h | h <;> omega
      subst hm
      refine ⟨by simp [scheduled, Cmd.enter, Cmd.see, hs], Or.inr (Or.inl ⟨by simp [scheduled, Cmd.enter, Cmd.see, hs], ?_⟩)⟩
      have b := h.bound
      constructor <;> simp only [scheduled, Cmd.enter, Cmd.see, Msg.obs, times_cons, hs]
      · simpa using h.stage
      · simpa using h.quiet
      · have := h.exps ht; simp; omega
      · simpa using h.asks
      · exact h5
      · simpa using b
      · exact h.awake
    · next hs =>
      rw [if_neg (by rw [hs]; decide)]
      refine ⟨by simp [Cmd.enter], by simp [Cmd.enter], by simp [hs], by simp [hs], ?_⟩
      obtain ⟨hd, -, hst, hst2, h⟩ := ha
      have hm : m = .nextStage := by
        cases m with
        | ack => have := h.exps he.1; have := he.2; simp only at *; omega
        | answer => have := h.asks; have : times .answered c.log < times .asked c.log := he; simp only at *; omega
        | nextStage => rfl
      subst hm
      refine ⟨by simp [scheduled, Cmd.enter, Cmd.see, hs], Or.inl ⟨Or.inr (Or.inr (by simp [scheduled, Cmd.enter, Cmd.see, hs])), ?_⟩⟩
      have b := h.bound
      have hr := h.reply
      have hp := he.2.1
      simp only at b hr
      constructor <;> simp only [scheduled, Cmd.enter, Cmd.see, Msg.obs, times_cons, hs]
      · refine Or.inr ⟨by simp [hst], hst2, by simp [he.2.2], h.buf, by simpa using hp, ?_⟩
        cases hc : reg.client with
        | true => rfl
        | false => rw [hc] at hr; simp at hr; omega
      · simpa using h.quiet
      · simpa using h.exps
      · simpa using h.asks
      · exact h5
      · simp only [S, hst, hst2] at b ⊢
        simp at b ⊢; omega
      · exact h.awake
    · next hs =>
      rw [if_neg (by rw [hs]; decide)]
      refine ⟨by simp [Cmd.enter], by simp [Cmd.enter], by simp [hs], by simp [hs], ?_⟩
      have := ha.2.see m
      refine ⟨by simp [scheduled, Cmd.enter, Cmd.see, hs], Or.inr (Or.inr ⟨by simp [scheduled, Cmd.enter, Cmd.see, hs], ?_⟩)⟩
      exact ⟨this.once, this.quiet, this.acked, this.bound, rfl⟩
    · next hs =>
      exfalso
      cases m with
      | ack => have := ha.2.2.2.2.1 he.1; have := he.2; omega
      | answer => have := ha.2.2.2.1; have : times .answered c.log < times .asked c.log := he; omega
      | nextStage => have := ha.2.2.2.2.2 he.1; have := he.2; omega
    · exact ha.elim
  obtain ⟨k1, k2, k3, k4, k5⟩ := key
  refine ⟨by rw [l, h1]; exact hi.once, ?_, fun h => absurd h k1, by rw [l]; exact h5, by rw [l, h3, h4]; exact hi.bound, fun _ => k5⟩
  have := hi.quiet
  simp only [k3, k4, or_self, if_false] at this
  simp only [k1, k2, or_self, if_false]
  rw [l, h2, this]

theorem timeout_inv {reg : Reg} {c : Cmd} (hi : Inv reg c) (hg : c.gone = false) : Inv reg (change reg true c .timOut).2 := by
  have ha := hi.alive hg
  unfold change
  split
  · exact hi
  · dsimp only
    split
    · next hs =>
      simp only [Alive, hs] at ha
      obtain ⟨-, -, h1, h2, h⟩ := ha
      have hq := hi.quiet
      simp [hs] at hq
      refine ⟨hi.once, by simpa [Cmd.enter] using hq, by simp [Cmd.enter], hi.acked, hi.bound, fun _ => ?_⟩
      refine ⟨rfl, hi.once, hq, hi.acked, ?_, rfl⟩
      have b := h.bound
      simp only [S, h1, h2] at b ⊢
      simp at b
      simp only [Cmd.enter]
      omega
    · exact hi

theorem _root_.Sid.Spec.Cmd.Life.inv {reg : Reg} (hr : RegOk reg) {c : Cmd} (h : Life reg c) : Inv reg c := by
  induction h with
  | start =>
    have hl : (init reg).log = [] := rfl
    have ha : AckedBefore (init reg).log := by
      intro later earlier e
      rw [hl] at e
      simp at e
    refine ⟨by rw [hl]; simp [times], by rw [hl]; simp [init, change, Cmd.enter, scheduled, times],
      by simp [init, change, Cmd.enter], fun _ => ha, by rw [hl]; simp [times], fun _ => ?_⟩
    refine ⟨rfl, Or.inl ⟨Or.inl rfl, Or.inl ⟨rfl, rfl, rfl, rfl⟩, rfl, fun _ => rfl, rfl, fun _ => ha, ?_, rfl, rfl⟩⟩
    have : (init reg).stage = 1 := rfl
    rw [hl, this]
    simp [times, S]; omega
  | run o _ h ih =>
    simp only [step] at h
    split at h
    · cases h; exact ih
    · next hg =>
      simp only [Bool.or_eq_true, Bool.not_eq_true', not_or, Bool.not_eq_true, Bool.not_eq_false] at hg
      exact handler_inv hr (ih.alive hg.1) hg.2 h
  | message m _ he h ih =>
    simp only [step] at h
    split at h
    · cases h; exact ih
    · next hg =>
      cases h
      exact message_inv ih (by simpa using hg) he
  | timeout _ h ih =>
    simp only [step] at h
    split at h
    · cases h; exact ih
    · next hg =>
      simp only [Bool.or_eq_true, Bool.not_eq_true', not_or, Bool.not_eq_true, Bool.not_eq_false] at hg
      cases h
      exact timeout_inv ih hg.1
  | stop _ h ih =>
    cases h
    exact ⟨ih.once, ih.quiet, ih.reply, ih.acked, ih.bound, fun h => by cases h⟩

end Sid.Cmd

namespace Sid.Cmd
open Sid.Spec.Cmd

theorem andThen_none {r : R} {f : Cmd → R} (h : r.andThen f = none) : r = none ∨ ∃ c, r = some (true, c) ∧ f c = none := by
  match r, h with
  | none, _ => exact Or.inl rfl
  | some (true, c), h => exact Or.inr ⟨c, rfl, h⟩

theorem start_resBuf {reg : Reg} {o : Outcome} {c d : Cmd} {b : Bool} (h : start reg o c = some (b, d)) : d.resBuf = c.resBuf := by
  unfold start at h
  split at h
  · cases h; rfl
  · split at h
    · cases h; rfl
    · split at h
      · unfold execute at h
        generalize hr : change reg true c .exeRun = r at h
        have h0 := (change_same reg true c .exeRun).2.1
        rw [hr] at h0
        obtain ⟨b', c'⟩ := r
        cases b' with
        | false => cases h; exact h0
        | true =>
          simp only [R.andThen] at h
          simp only at h0
          rw [← h0]
          split at h
          · have := (change_same reg true c' .resBuild).2.1; injection h with h; rw [h] at this; exact this
          · split at h
            · have := (change_same reg true (c'.see .exec) .resBuild).2.1; injection h with h; rw [h] at this; exact this
            · have := (change_same reg true ((c'.see .exec).see .asked) .exeWait).2.1; injection h with h; rw [h] at this; exact this
            · cases h; rfl
      · split at h
        · have := (change_same reg true c .resLast).2.1; injection h with h; rw [h] at this; exact this
        · cases h; rfl

theorem handler_none {reg : Reg} {o : Outcome} {c : Cmd} (h : handler reg o c = none) :
    o.udev = true ∧ reg.udevToRes = true ∧ c.resBuf = false := by
  unfold handler at h
  rw [Option.map_eq_none_iff] at h
  rcases andThen_none h with h | ⟨d, -, h⟩
  · rcases andThen_none h with h | ⟨d, -, h⟩
    · rcases andThen_none h with h | ⟨d, hd, h⟩
      · exfalso
        unfold start at h
        split at h
        · cases h
        · split at h
          · cases h
          · split at h
            · unfold execute at h
              rcases andThen_none h with h | ⟨d, -, h⟩
              · cases h
              · split at h
                · cases h
                · split at h <;> cases h
            · split at h <;> cases h
      · have := start_resBuf hd
        unfold build at h
        split at h
        · cases h
        · split at h
          · next hc =>
            simp only [Bool.and_eq_true, Bool.not_eq_true'] at hc
            exact ⟨hc.1.2, hc.1.1.2, by rw [← this]; exact hc.2⟩
          · split at h <;> cases h
    · exfalso
      unfold sendFirst at h
      split at h
      · split at h <;> cases h
      · split at h
        · rcases andThen_none h with h | ⟨d, -, h⟩ <;> cases h
        · cases h
  · exfalso
    unfold sendLast at h
    split at h
    · rcases andThen_none h with h | ⟨d, -, h⟩ <;> cases h
    · split at h
      · split at h <;> cases h
      · cases h

end Sid.Cmd
