import Verif.Spec.Log
/-
Lemmas about the log.
-/
namespace Sid.Log
open Sid (Str)
open Sid.Spec.Log

/-- what holds after the log was set up with verbosity `v` and then used -/
structure Good (v : Int) (req : Bool) (s : St) : Prop where
  verbose : s.verbose = v
  required : s.required = req
  std : s.std = {} ∨ s.std = stdOpen v {}
  stdT : s.target = .standard → s.std = stdOpen v {}
  sysT : s.target = .syslog → s.sys = sysOpen v
  jrn : s.jrn = {} ∨ s.jrn = jrnOpen v {}
  jrnT : s.target = .journal → s.jrn = jrnOpen v {}

theorem stdOpen_idem (v : Int) (s : Std) : stdOpen v (stdOpen v s) = stdOpen v s := by
  unfold stdOpen; repeat' (first | split | rfl) <;> simp_all

theorem jrnOpen_idem (v : Int) (s : Jrn) : jrnOpen v (jrnOpen v s) = jrnOpen v s := by
  unfold jrnOpen; repeat' (first | split | rfl) <;> simp_all

theorem good_change {v : Int} {q h : Bool} {t : Target} {s : St} (g : Good v q s) : Good v q (changeTgt h t s) := by
  unfold changeTgt
  by_cases c : (!h || decide (s.target = t)) = true
  · rw [if_pos c]; exact g
  · rw [if_neg c]
    have hs : stdOpen v s.std = stdOpen v {} := by
      rcases g.std with e | e <;> rw [e]; exact stdOpen_idem v _
    have hj : jrnOpen v s.jrn = jrnOpen v {} := by
      rcases g.jrn with e | e <;> rw [e]; exact jrnOpen_idem v _
    obtain ⟨g1, g2, g3, g4, g5, g6, g7⟩ := g
    cases t <;> simp only [openTgt, g1] <;> constructor <;> simp_all

theorem good_pfx {v : Int} {q : Bool} {s : St} (p : Option Str) (g : Good v q s) : Good v q { s with pfx := p } :=
  ⟨g.verbose, g.required, g.std, g.stdT, g.sysT, g.jrn, g.jrnT⟩

theorem good_ign {v : Int} {q : Bool} {s : St} (p : Bool) (g : Good v q s) : Good v q { s with ignored := p } :=
  ⟨g.verbose, g.required, g.std, g.stdT, g.sysT, g.jrn, g.jrnT⟩

theorem output_st (e : Env) (junk : Str) (h : Bool) (r : Req) (text : Str) (s : St) :
    (output e junk h r text s).1 = if s.required && !h then { s with ignored := true } else s := by
  unfold output
  by_cases c : (s.required && !h) = true
  · rw [if_pos c, if_pos c]
    by_cases d : s.ignored = true
    · rw [if_pos d]; cases s; simp_all
    · rw [if_neg d]
  · rw [if_neg c, if_neg c]

/-- the calls after the set-up -/
def Quiet : Op → Prop
  | .init _ _ => False
  | .initWithHandle _ _ => False
  | _ => True

theorem quiet_of_later {ops : List Op} (h : Later ops) : ∀ op ∈ ops, Quiet op := by
  intro op hop
  cases op <;> simp only [Quiet]
  · exact (h _ _).1 hop
  · exact (h _ _).2 hop

theorem good_step {v : Int} {q : Bool} {s : St} {op : Op} (e : Env) (hq : Quiet op) (g : Good v q s) :
    Good v q (step e s op).1 := by
  cases op with
  | close => exact g
  | init t v => exact absurd hq id
  | initWithHandle t v => exact absurd hq id
  | changeTgt h t => exact good_change g
  | setPfx h p => 
    simp only [step, setPfx]; split
    · exact good_pfx _ g
    · exact g
  | output junk h r text =>
    simp only [step, output_st]
    by_cases c : (s.required && !h) = true
    · rw [if_pos c]; exact good_ign _ g
    · rw [if_neg c]; exact g

theorem good_run {v : Int} {q : Bool} (e : Env) : ∀ (ops : List Op) {s : St}, (∀ op ∈ ops, Quiet op) → Good v q s →
    Good v q (run e s ops).1
  | [], _, _, g => g
  | op :: l, _, hq, g => good_run e l (fun o h => hq o (List.mem_cons_of_mem _ h)) (good_step e (hq op (List.mem_cons_self)) g)

theorem step_target {s : St} {op : Op} (e : Env) (hq : Quiet op) : (step e s op).1.target = targetAfter s.target [op] := by
  cases op with
  | close => rfl
  | init t v => exact absurd hq id
  | initWithHandle t v => exact absurd hq id
  | changeTgt h t =>
    cases h
    · rfl
    · by_cases c : s.target = t
      · simp [step, changeTgt, targetAfter, c]
      · simp only [step, changeTgt, targetAfter, Bool.not_true, Bool.false_or]
        rw [if_neg (by simp [c])]
  | setPfx h p => cases h <;> rfl
  | output junk h r text =>
    simp only [step, output_st, targetAfter]
    split <;> rfl

theorem targetAfter_cons (t : Target) (op : Op) (l : List Op) : targetAfter t (op :: l) = targetAfter (targetAfter t [op]) l := by
  cases op with
  | changeTgt h u => cases h <;> rfl
  | _ => rfl

theorem run_target (e : Env) : ∀ (ops : List Op) (s : St), (∀ op ∈ ops, Quiet op) →
    (run e s ops).1.target = targetAfter s.target ops
  | [], _, _ => rfl
  | op :: l, s, hq => by
    rw [targetAfter_cons, ← step_target e (hq op (List.mem_cons_self))]
    exact run_target e l _ fun o h => hq o (List.mem_cons_of_mem _ h)

theorem changeTgt_pfx (h : Bool) (t : Target) (s : St) : (changeTgt h t s).pfx = s.pfx := by
  unfold changeTgt; split
  · rfl
  · cases t <;> rfl

theorem changeTgt_ignored (h : Bool) (t : Target) (s : St) : (changeTgt h t s).ignored = s.ignored := by
  unfold changeTgt; split
  · rfl
  · cases t <;> rfl

theorem step_pfx {s : St} {op : Op} (e : Env) (hq : Quiet op) : (step e s op).1.pfx = prefixAfter s.pfx [op] := by
  cases op with
  | close => rfl
  | init t v => exact absurd hq id
  | initWithHandle t v => exact absurd hq id
  | changeTgt h t => exact changeTgt_pfx h t s
  | setPfx h p => cases h <;> rfl
  | output junk h r text =>
    simp only [step, output_st, prefixAfter]
    split <;> rfl

theorem prefixAfter_cons (t : Option Str) (op : Op) (l : List Op) :
    prefixAfter t (op :: l) = prefixAfter (prefixAfter t [op]) l := by
  cases op with
  | setPfx h u => cases h <;> rfl
  | _ => rfl

theorem run_pfx (e : Env) : ∀ (ops : List Op) (s : St), (∀ op ∈ ops, Quiet op) →
    (run e s ops).1.pfx = prefixAfter s.pfx ops
  | [], _, _ => rfl
  | op :: l, s, hq => by
    rw [prefixAfter_cons, ← step_pfx e (hq op (List.mem_cons_self))]
    exact run_pfx e l _ fun o h => hq o (List.mem_cons_of_mem _ h)

theorem run_ignored {v : Int} (e : Env) : ∀ (ops : List Op) (s : St), (∀ op ∈ ops, Quiet op) → Good v true s →
    ((run e s ops).1.ignored = true ↔ s.ignored = true ∨ ∃ junk r text, Op.output junk false r text ∈ ops)
  | [], _, _, _ => by simp [run]
  | op :: l, s, hq, g => by
    have h1 := hq op (List.mem_cons_self)
    have ih := run_ignored e l (step e s op).1 (fun o h => hq o (List.mem_cons_of_mem _ h)) (good_step e h1 g)
    change (run e (step e s op).1 l).1.ignored = true ↔ _
    rw [ih]
    cases op with
    | init t v => exact absurd h1 id
    | initWithHandle t v => exact absurd h1 id
    | close => simp [step]
    | changeTgt h t => simp [step, changeTgt_ignored]
    | setPfx h p => cases h <;> simp [step, setPfx]
    | output junk h r text =>
      simp only [step, output_st, g.required, Bool.true_and]
      cases h
      · simp only [Bool.not_false, if_true]
        constructor
        · intro _; exact .inr ⟨junk, r, text, List.mem_cons_self⟩
        · intro _; exact .inl trivial
      · simp

theorem good_init (t : Target) (v : Int) : Good v false (init t v {}) := by
  cases t <;> constructor <;> simp [init, openTgt]

theorem good_initWithHandle (t : Target) (v : Int) : Good v true (initWithHandle t v {}) := by
  cases t <;> constructor <;> simp [initWithHandle, init, openTgt]

theorem init_target (t : Target) (v : Int) : (init t v {}).target = t := by cases t <;> rfl
theorem init_pfx (t : Target) (v : Int) : (init t v {}).pfx = none := by cases t <;> rfl
theorem init_ignored (t : Target) (v : Int) : (init t v {}).ignored = false := by cases t <;> rfl

theorem bracket_eq (p : Option Str) : pfxText p = bracket (p.getD []) := rfl

theorem flatMap_pfxText (l : List (Option Str)) : l.flatMap pfxText = ((l.map (·.getD [])).map bracket).flatten := by
  induction l with
  | nil => rfl
  | cons a l ih => rw [List.flatMap_cons, ih]; rfl

theorem posErrno_pfx (r : Req) : (posErrno r).pfx = r.pfx := by unfold posErrno; split <;> rfl
theorem posErrno_level (r : Req) : (posErrno r).ctx.level = r.ctx.level := by unfold posErrno; split <;> rfl
theorem posErrno_src (r : Req) : srcOf (posErrno r).ctx = srcOf r.ctx := by unfold posErrno; split <;> rfl
theorem posErrno_srcText (r : Req) : srcText (posErrno r).ctx = srcText r.ctx := by unfold posErrno; split <;> rfl
theorem withPfx_ctx (h : Bool) (s : St) (r : Req) : (withPfx h s r).ctx = r.ctx := by
  unfold withPfx; split
  · split <;> rfl
  · rfl

theorem withPfx_pfx (s : St) (r : Req) : (withPfx true s r).pfx.map (·.getD []) = prefixes s.pfx r := by
  unfold withPfx prefixes
  cases s.pfx <;> rfl

theorem errText_pos (e : Env) (r : Req) : errText e (posErrno r).ctx.errno = cause e r.ctx.errno := by
  unfold posErrno errText cause
  by_cases h : r.ctx.errno < 0
  · rw [if_pos h]
    have h1 : r.ctx.errno ≠ 0 := by omega
    have h2 : (r.ctx.errno.natAbs : Int) = - r.ctx.errno := by omega
    simp only []
    rw [if_pos (by omega), if_neg h1, h2]
  · rw [if_neg h]
    by_cases h1 : r.ctx.errno = 0
    · rw [h1]; rfl
    · have h2 : (r.ctx.errno.natAbs : Int) = r.ctx.errno := by omega
      rw [if_pos h1, if_neg h1, h2]

theorem stdOpen_max (v l : Int) (h : l ≠ logPrint) : l > (stdOpen v {}).max ↔ ¬ Shown v l := by
  unfold stdOpen Shown
  repeat' split
  all_goals simp only [logNotice, logInfo, logDebug]; omega

theorem sysOpen_max (v l : Int) : l > sysOpen v ↔ ¬ Shown v l := by
  unfold sysOpen Shown
  repeat' split
  all_goals simp only [logNotice, logInfo, logDebug]; omega

theorem jrnOpen_max (v l : Int) : l > (jrnOpen v {}).max ↔ ¬ Shown v l := by
  unfold jrnOpen Shown
  repeat' split
  all_goals simp only [logNotice, logInfo, logDebug]; omega

theorem jrnOpen_src (v : Int) : (jrnOpen v {}).src = true := by
  unfold jrnOpen
  repeat' split
  all_goals rfl

/-! ### the buffer -/

theorem takeWhile_append_zero {a b : Str} (h : CStr a) : (a ++ 0 :: b).takeWhile (· ≠ 0) = a := by
  induction a with
  | nil => simp
  | cons x a ih =>
    have hx : x ≠ 0 := fun c => h (by simp [c])
    have ha : CStr a := fun c => h (List.mem_cons_of_mem _ c)
    rw [List.cons_append, List.takeWhile_cons_of_pos (by simpa using hx), ih ha]

theorem put_form {buf : Str} {off size : Nat} {s : Str} (h : size ≠ 0) :
    put buf off size s = buf.take off ++ s.take (size - 1) ++ 0 :: buf.drop (off + (s.take (size - 1)).length + 1) := by
  unfold put
  rw [if_neg h]; simp

theorem put_length {buf : Str} {off size : Nat} {s : Str} (h : off + size = buf.length) : (put buf off size s).length = buf.length := by
  by_cases h0 : size = 0
  · unfold put; rw [if_pos h0]
  · rw [put_form h0]
    simp only [List.length_append, List.length_take, List.length_cons, List.length_drop]
    omega

theorem cstr_bracket {p : Str} (h : CStr p) : CStr (bracket p) := by
  unfold CStr bracket at *
  simp [h]

theorem cstr_flat {l : List Str} (h : CStrs l) : CStr (l.map bracket).flatten := by
  unfold CStr
  rw [List.mem_flatten]
  rintro ⟨s, hs, h0⟩
  rw [List.mem_map] at hs
  obtain ⟨p, hp, rfl⟩ := hs
  exact cstr_bracket (h p hp) h0

/-- the loop of the journal target: prefixes one behind the other -/
theorem jrnPfx_spec : ∀ (l : List (Option Str)) (m : Msg) (a : Str), m.buf.take m.printed = a → m.printed = a.length →
    m.printed + m.remaining = lineMax → m.buf.length = lineMax → m.remaining ≠ 0 →
    (a ++ (l.map (fun p => pfxText p)).flatten).length < lineMax →
    ∃ m', jrnPfx l m = some m' ∧ m'.buf.take m'.printed = a ++ (l.map (fun p => pfxText p)).flatten ∧
      m'.printed = (a ++ (l.map (fun p => pfxText p)).flatten).length ∧ m'.printed + m'.remaining = lineMax ∧
      m'.buf.length = lineMax
  | [], m, a, h1, h2, h3, h4, _, _ => ⟨m, rfl, by simpa using h1, by simpa using h2, h3, h4⟩
  | p :: l, m, a, h1, h2, h3, h4, h5, h6 => by
    have e6 : (a ++ ((p :: l).map (fun p => pfxText p)).flatten).length =
        a.length + (pfxText p).length + ((l.map (fun p => pfxText p)).flatten).length := by
      simp [Nat.add_assoc]
    have hlt : (pfxText p).length < m.remaining := by omega
    unfold jrnPfx
    rw [if_neg (by omega)]
    have ht : (pfxText p).take (m.remaining - 1) = pfxText p := List.take_of_length_le (by omega)
    have := jrnPfx_spec l ⟨put m.buf m.printed m.remaining (pfxText p), m.printed + (pfxText p).length,
      m.remaining - (pfxText p).length⟩ (a ++ pfxText p) (by
        show List.take (m.printed + (pfxText p).length) (put m.buf m.printed m.remaining (pfxText p)) = _
        rw [put_form h5, ht, h1, h2, List.take_append_of_le_length (by simp)]
        rw [List.take_of_length_le (by simp)])
      (by simp [h2]) (by simp only []; omega)
      (by rw [put_length (by omega)]; exact h4)
      (by simp only []; omega) (by simpa [Nat.add_assoc] using h6)
    simpa using this

/-- the loop of the journal target when the prefixes do not fit -/
theorem jrnPfx_none : ∀ (l : List (Option Str)) (m : Msg),
    m.remaining ≤ ((l.map (fun p => pfxText p)).flatten).length → m.remaining ≠ 0 → jrnPfx l m = none
  | [], m, h, h0 => absurd h (by simpa using h0)
  | p :: l, m, h, h0 => by
    unfold jrnPfx
    by_cases c : (pfxText p).length ≥ m.remaining
    · rw [if_pos c]
    · rw [if_neg c]
      apply jrnPfx_none l
      · simp only [List.map_cons, List.flatten_cons, List.length_append] at h ⊢
        omega
      · simp only []; omega

/-- the loop of the syslog target when the prefixes do not fit -/
theorem sysPfx_none : ∀ (l : List (Option Str)) (m : Msg),
    m.remaining ≤ ((l.map (fun p => pfxText p)).flatten).length → m.remaining ≠ 0 → sysPfx l m = none
  | [], m, h, h0 => absurd h (by simpa using h0)
  | p :: l, m, h, h0 => by
    unfold sysPfx
    by_cases c : (pfxText p).length ≥ m.remaining
    · rw [if_pos c]
    · rw [if_neg c]
      apply sysPfx_none l
      · simp only [List.map_cons, List.flatten_cons, List.length_append] at h ⊢
        omega
      · simp only []; omega

theorem cstr_take {a : Str} (n : Nat) (h : CStr a) : CStr (a.take n) := fun c => h (List.mem_of_mem_take c)

/-- what is read from the buffer in the end -/
theorem cstr_put {buf a text : Str} {off size : Nat} (h1 : buf.take off = a) (ha : CStr a) (ht : CStr text) (h0 : size ≠ 0) :
    cstr (put buf off size text) = a ++ text.take (size - 1) := by
  unfold cstr
  rw [put_form h0, h1]
  apply takeWhile_append_zero
  have := cstr_take (size - 1) ht
  unfold CStr at *
  simp [ha, this]

/-- the loop of the syslog target with two or more prefixes: only the last is at the start, with its NUL -/
theorem sysPfx_last : ∀ (l : List (Option Str)) (p : Option Str) (m : Msg), m.remaining ≤ lineMax →
    (((l ++ [p]).map (fun p => pfxText p)).flatten).length < m.remaining →
    ∃ m', sysPfx (l ++ [p]) m = some m' ∧ (∃ tail, m'.buf = pfxText p ++ 0 :: tail) ∧
      m'.printed = m.printed + (((l ++ [p]).map (fun p => pfxText p)).flatten).length ∧
      m'.printed + m'.remaining = m.printed + m.remaining
  | [], p, m, h0, h => by
    have h' : (pfxText p).length < m.remaining := by simpa using h
    refine ⟨⟨put m.buf 0 lineMax (pfxText p), m.printed + (pfxText p).length, m.remaining - (pfxText p).length⟩, ?_, ?_, ?_, ?_⟩
    · show sysPfx [p] m = _
      unfold sysPfx
      rw [if_neg (by omega)]
      rfl
    · refine ⟨m.buf.drop ((pfxText p).length + 1), ?_⟩
      show put m.buf 0 lineMax (pfxText p) = _
      rw [put_form (by decide), List.take_of_length_le (l := pfxText p) (by omega)]
      simp
    · simp
    · show m.printed + (pfxText p).length + (m.remaining - (pfxText p).length) = _
      omega
  | q :: l, p, m, h0, h => by
    have hq : (pfxText q).length + (((l ++ [p]).map (fun p => pfxText p)).flatten).length < m.remaining := by
      simpa using h
    show ∃ m', sysPfx (q :: (l ++ [p])) m = some m' ∧ _
    unfold sysPfx
    rw [if_neg (by omega)]
    obtain ⟨m', e1, e2, e3, e4⟩ := sysPfx_last l p ⟨put m.buf 0 lineMax (pfxText q), m.printed + (pfxText q).length,
      m.remaining - (pfxText q).length⟩ (by simp only []; omega) (by simp only []; omega)
    refine ⟨m', e1, e2, ?_, ?_⟩
    · rw [e3]; simp only [List.cons_append, List.map_cons, List.flatten_cons, List.length_append]; omega
    · rw [e4]; simp only []; omega

end Sid.Log
