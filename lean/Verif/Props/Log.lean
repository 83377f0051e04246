import Verif.Proof.Log
import Verif.Proof.Ifc
/-
C94: which messages reach the log, and what they show.
-/
namespace Sid.Props
open Sid (Str)
open Sid.Ifc (txt)
open Sid.Log Sid.Spec.Log

/-- the state in which a message is logged -/
theorem log_state {first : Op} {t : Target} {v : Int} {h : Bool} (e : Env) (hs : SetUp first t v h) {ops : List Op} (hl : Later ops) :
    ∃ s, (run e {} (first :: ops)).1 = s ∧ (∃ q, Good v q s ∧ (q && !h) = false) ∧ s.target = targetAfter t ops ∧
      s.pfx = prefixAfter none ops := by
  refine ⟨_, rfl, ?_⟩
  have hq := quiet_of_later hl
  rcases hs with rfl | ⟨rfl, rfl⟩
  · refine ⟨⟨false, good_run e ops hq (good_init t v), rfl⟩, ?_, ?_⟩
    · change (run e (init t v {}) ops).1.target = _
      rw [run_target e ops _ hq, init_target]
    · change (run e (init t v {}) ops).1.pfx = _
      rw [run_pfx e ops _ hq, init_pfx]
  · refine ⟨⟨true, good_run e ops hq (good_initWithHandle t v), rfl⟩, ?_, ?_⟩
    · change (run e (initWithHandle t v {}) ops).1.target = _
      rw [run_target e ops _ hq]; congr 1; exact init_target t v
    · change (run e (initWithHandle t v {}) ops).1.pfx = _
      rw [run_pfx e ops _ hq]; congr 1; exact init_pfx t v

/-- the message as the target is given it -/
theorem log_given {first : Op} {t : Target} {v : Int} {h : Bool} (e : Env) (hs : SetUp first t v h) {ops : List Op} (hl : Later ops)
    (junk : Str) (r : Req) (text : Str) :
    ∃ s r', said e (first :: ops) (.output junk h r text) = tgtOut e junk s r' text ∧ (∃ q, Good v q s) ∧
      s.target = targetAfter t ops ∧ r'.pfx.map (·.getD []) = prefixes (own h ops) r ∧ r'.ctx.level = r.ctx.level ∧
      srcOf r'.ctx = place r.ctx ∧ srcText r'.ctx = srcText r.ctx ∧ errText e r'.ctx.errno = cause e r.ctx.errno := by
  obtain ⟨s, hrun, ⟨q, g, hq⟩, ht, hp⟩ := log_state e hs hl
  refine ⟨s, posErrno (withPfx h s r), ?_, ⟨q, g⟩, ht, ?_, ?_, ?_, ?_, ?_⟩
  · unfold said
    rw [hrun]
    simp only [step, output, g.required, hq]
    rfl
  · rw [posErrno_pfx]
    cases h
    · rfl
    · rw [withPfx_pfx, hp]; rfl
  · rw [posErrno_level, withPfx_ctx]
  · rw [posErrno_src, withPfx_ctx]; rfl
  · rw [posErrno_srcText, withPfx_ctx]
  · rw [errText_pos, withPfx_ctx]

theorem lead_eq (e : Env) (v : Int) (c : Ctx) :
    (if (stdOpen v {}).pids then txt "[" ++ Fmt.decInt e.ppid ++ txt ":" ++ Fmt.decInt e.pid ++ txt "]:" else []) ++
      (if (stdOpen v {}).src then srcText c else []) = lead e v c := by
  have hsrc : srcText c = c.file ++ txt ":" ++ Fmt.decInt c.line ++
      funcText c.func ++ [9] := by
    unfold srcText
    cases c.func <;> simp [funcText]
  unfold lead
  rw [← hsrc]
  unfold stdOpen
  by_cases h0 : v = 0
  · subst h0; rfl
  · by_cases h1 : v = 1
    · subst h1; rfl
    · by_cases h2 : v = 2
      · subst h2; rfl
      · by_cases h3 : v = 3
        · subst h3; rfl
        · rw [if_neg h0, if_neg h1, if_neg h2, if_neg h3, if_neg (c := 0 ≤ v ∧ v ≤ 3) (by omega),
            if_neg (c := 0 ≤ v ∧ v ≤ 2) (by omega)]; rfl

theorem stream_eq (v l : Int) : toErr (stdOpen v {}) l = decide (l ≤ 4 ∨ ¬ (0 ≤ v ∧ v ≤ 2)) := by
  unfold toErr stdOpen logWarning
  by_cases h0 : v = 0
  · subst h0; simp
  · by_cases h1 : v = 1
    · subst h1; simp
    · by_cases h2 : v = 2
      · subst h2; simp
      · by_cases h3 : v = 3
        · subst h3; simp
        · rw [if_neg h0, if_neg h1, if_neg h2, if_neg h3]
          have : ¬ (0 ≤ v ∧ v ≤ 2) := by omega
          simp [this]

/-- C94: on the standard streams, a message is shown if and only if the verbosity asks for its priority (or it is to be printed at
any), once, as one line: at high verbosity the processes and the place in the source, then the prefixes in order, the text and the
description of the error; warnings and errors on the error stream, others on the output unless verbosity is above 2 -/
theorem C94_standard (e : Env) {first : Op} {t : Target} {v : Int} {h : Bool} (hs : SetUp first t v h) {ops : List Op}
    (hl : Later ops) (ht : targetAfter t ops = .standard) (junk : Str) (r : Req) (text : Str) :
    said e (first :: ops) (.output junk h r text) =
      if Shown v r.ctx.level ∨ r.ctx.level = 128 then
        [.std (decide (r.ctx.level ≤ 4 ∨ ¬ (0 ≤ v ∧ v ≤ 2)))
          (lead e v r.ctx ++ body (prefixes (own h ops) r) text ++ cause e r.ctx.errno ++ [10])]
      else [] := by
  obtain ⟨s, r', e1, ⟨q, g⟩, e2, e3, e4, e5, e6, e7⟩ := log_given e hs hl junk r text
  rw [ht] at e2
  rw [e1, tgtOut, e2]
  simp only [stdOut, g.stdT e2, e4]
  by_cases hc : Shown v r.ctx.level ∨ r.ctx.level = 128
  · rw [if_pos hc, if_neg (c := _ ∧ _)]
    · rw [stream_eq, stdLine, flatMap_pfxText, e3, e6, e7, lead_eq]
      simp [body]
    · rintro ⟨h1, h2⟩
      rcases hc with hc | hc
      · exact (stdOpen_max v _ h2).1 h1 hc
      · exact h2 hc
  · rw [if_neg hc, if_pos (c := _ ∧ _)]
    have h2 : r.ctx.level ≠ logPrint := fun c => hc (.inr c)
    exact ⟨(stdOpen_max v _ h2).2 fun c => hc (.inl c), h2⟩

/-- C94: with no target, nothing is output -/
theorem C94_none (e : Env) {first : Op} {t : Target} {v : Int} {h : Bool} (hs : SetUp first t v h) {ops : List Op}
    (hl : Later ops) (ht : targetAfter t ops = .none) (junk : Str) (r : Req) (text : Str) :
    said e (first :: ops) (.output junk h r text) = [] := by
  obtain ⟨s, r', e1, ⟨q, g⟩, e2, -⟩ := log_given e hs hl junk r text
  rw [ht] at e2
  rw [e1, tgtOut, e2]

/-- C94 (partial: the description of the error, messages to be printed at any verbosity and empty messages are not output; the text is
not output if the prefixes take a whole line): in the journal, a message is shown if and only if the verbosity asks for its priority,
as one entry with its prefixes in order, its text, priority and place in the source; a message longer than a line is cut, and an entry
before it says so -/
theorem C94_journal_partial (e : Env) {first : Op} {t : Target} {v : Int} {h : Bool} (hs : SetUp first t v h) {ops : List Op}
    (hl : Later ops) (ht : targetAfter t ops = .journal) {junk : Str} (hj : junk.length = 2048) {r : Req} {text : Str}
    (hc : CStr text) (hp : CStrs (prefixes (own h ops) r)) (hfit : (body (prefixes (own h ops) r) []).length < 2048) (hne : text ≠ []) :
    ∃ first1, said e (first :: ops) (.output junk h r text) =
      if Shown v r.ctx.level then
        (if (body (prefixes (own h ops) r) text).length ≥ 2048 then
          [.jrn (txt "(log message truncated)") none r.ctx.level (some (place r.ctx))] else []) ++
        [.jrn ((body (prefixes (own h ops) r) text).take 2047) first1 r.ctx.level (some (place r.ctx))]
      else [] := by
  obtain ⟨s, r', e1, ⟨q, g⟩, e2, e3, e4, e5, e6, e7⟩ := log_given e hs hl junk r text
  rw [ht] at e2
  refine ⟨firstPfx r'.pfx, ?_⟩
  rw [e1, tgtOut, e2]
  simp only [jrnOut, g.jrnT e2, e4]
  by_cases hs : Shown v r.ctx.level
  · rw [if_pos hs, if_neg (fun c => (jrnOpen_max v _).1 c hs)]
    have efl : (r'.pfx.map (fun p => pfxText p)).flatten = ((prefixes (own h ops) r).map bracket).flatten := by
      rw [← e3, List.map_map]; rfl
    have hfit' : (((prefixes (own h ops) r).map bracket).flatten).length < lineMax := by
      simpa [body, lineMax] using hfit
    obtain ⟨m, d1, d2, d3, d4, d5⟩ := jrnPfx_spec r'.pfx ⟨junk, 0, lineMax⟩ [] (by simp) rfl (by simp) hj (by simp [lineMax])
      (by simpa [efl] using hfit')
    rw [List.nil_append, efl] at d2 d3
    rw [d1]
    simp only [jrnMsg, jrnOpen_src, e4, e5, if_true]
    have hlen : text.length > 0 := List.length_pos_iff.2 hne
    rw [if_pos hlen, cstr_put d2 (cstr_flat hp) hc (by omega)]
    have hb : (body (prefixes (own h ops) r) text).length = m.printed + text.length := by
      rw [body, List.length_append, d3]
    have hm : lineMax = 2048 := rfl
    have hk : List.take 2047 (body (prefixes (own h ops) r) text) =
        ((prefixes (own h ops) r).map bracket).flatten ++ text.take (m.remaining - 1) := by
      rw [body, List.take_append, List.take_of_length_le (by omega)]
      congr 2
      omega
    rw [hk]
    congr 1
    by_cases hx : text.length ≥ m.remaining
    · rw [if_pos hx, if_pos (by omega)]
    · rw [if_neg hx, if_neg (by omega)]
  · rw [if_neg hs, if_pos ((jrnOpen_max v _).2 hs)]

/-- C94: the entry in the journal says nothing about the error number -/
theorem C94_counterexample_journal_errno (e : Env) {first : Op} {t : Target} {v : Int} {h : Bool} (hs : SetUp first t v h)
    {ops : List Op} (hl : Later ops) (ht : targetAfter t ops = .journal ∨ targetAfter t ops = .syslog) (junk : Str)
    (ps : List (Option Str)) (c : Ctx) (n : Int) (text : Str) :
    said e (first :: ops) (.output junk h ⟨ps, { c with errno := n }⟩ text) = said e (first :: ops) (.output junk h ⟨ps, c⟩ text) := by
  obtain ⟨s, hrun, ⟨q, g, hq⟩, htt, hp⟩ := log_state e hs hl
  unfold said
  rw [hrun]
  simp only [step, output, g.required, hq, Bool.false_eq_true, if_false]
  have hw : ∀ n, (posErrno (withPfx h s ⟨ps, { c with errno := n }⟩)).pfx = (withPfx h s ⟨ps, c⟩).pfx := by
    intro n; rw [posErrno_pfx]; unfold withPfx; cases h
    · rfl
    · cases s.pfx <;> rfl
  have hlv : ∀ n, (posErrno (withPfx h s ⟨ps, { c with errno := n }⟩)).ctx.level = c.level := by
    intro n; rw [posErrno_level, withPfx_ctx]
  have hsr : ∀ n, srcOf (posErrno (withPfx h s ⟨ps, { c with errno := n }⟩)).ctx = srcOf c := by
    intro n; rw [posErrno_src, withPfx_ctx]; rfl
  have h1 := hw n; have h2 := hlv n; have h3 := hsr n
  have h4 := hw c.errno; have h5 := hlv c.errno; have h6 := hsr c.errno
  change (posErrno (withPfx h s ⟨ps, c⟩)).pfx = _ at h4
  change (posErrno (withPfx h s ⟨ps, c⟩)).ctx.level = _ at h5
  change srcOf (posErrno (withPfx h s ⟨ps, c⟩)).ctx = _ at h6
  rcases ht with ht | ht
  · rw [ht] at htt
    simp only [tgtOut, htt, jrnOut, jrnMsg, h1, h2, h3, h4, h5, h6]
  · rw [ht] at htt
    simp only [tgtOut, htt, sysOut, sysMsg, h1, h2, h4, h5]

/-- C94: if the prefixes take a whole line, the journal does not show the text of the message -/
theorem C94_counterexample_journal_prefix (e : Env) {first : Op} {t : Target} {v : Int} {h : Bool} (hs : SetUp first t v h)
    {ops : List Op} (hl : Later ops) (ht : targetAfter t ops = .journal) (junk : Str) {r : Req} (text : Str)
    (hlong : 2048 ≤ (body (prefixes (own h ops) r) []).length) (hv : Shown v r.ctx.level) :
    said e (first :: ops) (.output junk h r text) =
      [.jrn (txt "(log prefix too long)") none r.ctx.level (some (place r.ctx))] := by
  obtain ⟨s, r', e1, ⟨q, g⟩, e2, e3, e4, e5, e6, e7⟩ := log_given e hs hl junk r text
  rw [ht] at e2
  rw [e1, tgtOut, e2]
  simp only [jrnOut, g.jrnT e2, e4]
  rw [if_neg (fun c => (jrnOpen_max v _).1 c hv), jrnPfx_none]
  · simp only [e5]
  · have efl : (r'.pfx.map (fun p => pfxText p)).flatten = ((prefixes (own h ops) r).map bracket).flatten := by
      rw [← e3, List.map_map]; rfl
    rw [efl]
    simpa [body, lineMax] using hlong
  · simp [lineMax]

/-- C94 (partial: messages with two prefixes or more lose their text, see the counterexample; the description of the error, messages to
be printed at any verbosity and empty messages are not output): a message with one prefix at most that fits into a line is sent to
syslog, once, if and only if the verbosity asks for its priority, with its prefix, text and priority; a message longer than a line is
cut, and a message before it says so -/
theorem C94_syslog_partial (e : Env) {first : Op} {t : Target} {v : Int} {h : Bool} (hs : SetUp first t v h) {ops : List Op}
    (hl : Later ops) (ht : targetAfter t ops = .syslog) {junk : Str} {r : Req} {text : Str}
    (hc : CStr text) (hp : CStrs (prefixes (own h ops) r)) (hone : (prefixes (own h ops) r).length ≤ 1)
    (hfit : (body (prefixes (own h ops) r) []).length < 2048) (hne : text ≠ []) :
    said e (first :: ops) (.output junk h r text) =
      if Shown v r.ctx.level then
        (if (body (prefixes (own h ops) r) text).length ≥ 2048 then
          [.sys r.ctx.level (txt "Internal error: _log_syslog_output: (log message truncated)")] else []) ++
        [.sys r.ctx.level ((body (prefixes (own h ops) r) text).take 2047)]
      else [] := by
  obtain ⟨s, r', e1, ⟨q, g⟩, e2, e3, e4, e5, e6, e7⟩ := log_given e hs hl junk r text
  rw [ht] at e2
  rw [e1, tgtOut, e2]
  simp only [sysOut, g.sysT e2, e4]
  by_cases hs : Shown v r.ctx.level
  · rw [if_pos hs, if_neg (fun c => (sysOpen_max v _).1 c hs)]
    have hlen : text.length > 0 := List.length_pos_iff.2 hne
    have hm : lineMax = 2048 := rfl
    rw [← e3] at hone hfit hp ⊢
    match hr : r'.pfx with
    | [] =>
      simp only [sysPfx, sysMsg]
      rw [if_pos hlen, cstr_put (a := []) (by simp) (by simp [CStr]) hc (by decide)]
      rfl
    | [p] =>
      rw [hr] at hfit hp
      have hf : (pfxText p).length < 2048 := by simpa [body, bracket_eq] using hfit
      have hcp : CStr (pfxText p) := by rw [bracket_eq]; exact cstr_bracket (hp _ (by simp))
      have hb : body ([p].map (·.getD [])) text = pfxText p ++ text := by simp [body, bracket_eq]
      simp only [sysPfx]
      rw [if_neg (by omega)]
      simp only [sysMsg, Nat.zero_add]
      rw [if_pos hlen, cstr_put (a := pfxText p) (by
          rw [put_form (by decide), List.take_of_length_le (l := pfxText p) (by omega)]
          simp) hcp hc (by omega), hb, List.take_append, List.take_of_length_le (l := pfxText p) (by omega), List.length_append]
      have h7 : lineMax - (pfxText p).length - 1 = 2047 - (pfxText p).length := by omega
      rw [h7]
      congr 1
      by_cases hx : text.length ≥ lineMax - (pfxText p).length
      · rw [if_pos hx, if_pos (by omega)]; rfl
      · rw [if_neg hx, if_neg (by omega)]
    | p :: p' :: l => rw [hr] at hone; simp at hone
  · rw [if_neg hs, if_pos ((sysOpen_max v _).2 hs)]

/-- C94: if the prefixes take a whole line, syslog gets the text without them, after a message that says so -/
theorem C94_syslog_prefix (e : Env) {first : Op} {t : Target} {v : Int} {h : Bool} (hs : SetUp first t v h) {ops : List Op}
    (hl : Later ops) (ht : targetAfter t ops = .syslog) (junk : Str) {r : Req} (text : Str)
    (hlong : 2048 ≤ (body (prefixes (own h ops) r) []).length) (hv : Shown v r.ctx.level) :
    said e (first :: ops) (.output junk h r text) =
      [.sys r.ctx.level (txt "Internal error: _log_syslog_output: (log prefix too long)"), .sys r.ctx.level text] := by
  obtain ⟨s, r', e1, ⟨q, g⟩, e2, e3, e4, -⟩ := log_given e hs hl junk r text
  rw [ht] at e2
  rw [e1, tgtOut, e2]
  simp only [sysOut, g.sysT e2, e4]
  rw [if_neg (fun c => (sysOpen_max v _).1 c hv), sysPfx_none]
  · rfl
  · have efl : (r'.pfx.map (fun p => pfxText p)).flatten = ((prefixes (own h ops) r).map bracket).flatten := by
      rw [← e3, List.map_map]; rfl
    rw [efl]
    simpa [body, lineMax] using hlong
  · simp [lineMax]

/-- C94: with two prefixes or more (that fit into a line), whatever the text is, syslog gets the last prefix and nothing else -/
theorem C94_counterexample_syslog (e : Env) {first : Op} {t : Target} {v : Int} {h : Bool} (hs : SetUp first t v h) {ops : List Op}
    (hl : Later ops) (ht : targetAfter t ops = .syslog) {junk : Str} {r : Req} {text : Str} {a : Str} {l : List Str} {p : Str}
    (hp : CStrs (prefixes (own h ops) r)) (htwo : prefixes (own h ops) r = a :: l ++ [p])
    (hfit : (body (prefixes (own h ops) r) text).length < 2048) (hne : text ≠ []) (hv : Shown v r.ctx.level) :
    said e (first :: ops) (.output junk h r text) = [.sys r.ctx.level (bracket p)] := by
  obtain ⟨s, r', e1, ⟨q, g⟩, e2, e3, e4, e5, e6, e7⟩ := log_given e hs hl junk r text
  rw [ht] at e2
  rw [e1, tgtOut, e2]
  simp only [sysOut, g.sysT e2, e4]
  rw [if_neg (fun c => (sysOpen_max v _).1 c hv)]
  have hlen : text.length > 0 := List.length_pos_iff.2 hne
  have hm : lineMax = 2048 := rfl
  obtain ⟨l', p', hr⟩ : ∃ l' p', r'.pfx = l' ++ [p'] := by
    rcases List.eq_nil_or_concat r'.pfx with h0 | ⟨l', p', h0⟩
    · rw [h0, htwo] at e3; simp at e3
    · exact ⟨l', p', by rw [h0, List.concat_eq_append]⟩
  have efl : (r'.pfx.map (fun p => pfxText p)).flatten = ((prefixes (own h ops) r).map bracket).flatten := by
    rw [← e3, List.map_map]; rfl
  have e3' := e3
  rw [htwo, hr, List.map_append] at e3'
  obtain ⟨hl', hp'⟩ := List.append_inj' e3' rfl
  have hpp : p'.getD [] = p := by simpa using hp'
  have hbl : (body (prefixes (own h ops) r) text).length =
      ((r'.pfx.map (fun p => pfxText p)).flatten).length + text.length := by
    rw [body, List.length_append, efl]
  obtain ⟨m, d1, ⟨tail, d2⟩, d3, d4⟩ := sysPfx_last l' p' ⟨junk, 0, lineMax⟩ (Nat.le_refl _) (by rw [← hr]; simp only []; omega)
  rw [← hr] at d1 d3
  rw [d1]
  simp only [sysMsg]
  have hrem : text.length < m.remaining := by
    simp only [Nat.zero_add] at d3 d4
    omega
  rw [if_pos hlen, if_neg (by omega)]
  have hcp : CStr (pfxText p') := by
    rw [bracket_eq, hpp]; exact cstr_bracket (hp _ (by rw [htwo]; simp))
  have hgt : (pfxText p').length < m.printed := by
    rw [d3, hr]
    have h3 : 0 < l'.length := by
      have := congrArg List.length hl'
      simp at this; omega
    obtain ⟨b, l'', rfl⟩ := List.exists_cons_of_length_pos h3
    simp only [List.cons_append, List.map_cons, List.map_append, List.flatten_cons, List.flatten_append, List.map_nil,
      List.flatten_nil, List.append_nil, List.length_append]
    have : 0 < (pfxText b).length := by simp [bracket_eq, bracket]
    omega
  have : cstr (put m.buf m.printed m.remaining text) = bracket p := by
    unfold cstr
    rw [put_form (by omega), d2, List.take_append]
    rw [List.take_of_length_le (by omega)]
    obtain ⟨k, hk⟩ : ∃ k, m.printed - (pfxText p').length = k + 1 := ⟨_, (Nat.succ_pred_eq_of_pos (by omega)).symm⟩
    rw [hk, List.take_succ_cons, List.append_assoc, List.append_assoc, List.cons_append, takeWhile_append_zero hcp, bracket_eq, hpp]
  rw [this]
  rfl

/-- C94: so, with the target the daemon has by default, no message about a resource shows its text (if identifiers are short enough):
only the identifier of the resource -/
theorem C94_counterexample_resource (e : Env) {v : Int} {ops : List Op} (hl : Later ops) (ht : targetAfter .syslog ops = .syslog)
    {junk : Str} {type : Option Str} {id file : Str} {line errno : Int} {func : Option Str} {m : Macro} {text : Str}
    (hi : CStr id) (hty : ∀ x ∈ type, CStr x) (hown : ∀ x ∈ prefixAfter none ops, CStr x)
    (hfit : (body (prefixes (prefixAfter none ops) (resReq m type id errno file line func)) text).length < 2048) (hne : text ≠ [])
    (hv : Shown v m.level) :
    said e (.initWithHandle .syslog v :: ops) (.output junk true (resReq m type id errno file line func) text) =
      [.sys m.level (bracket id)] := by
  have hpre : ∃ a l, prefixes (prefixAfter none ops) (resReq m type id errno file line func) = a :: l ++ [id] := by
    cases hpa : prefixAfter none ops <;> cases type <;> simp only [prefixes, resReq, resPfx, Option.toList]
    · exact ⟨_, [], rfl⟩
    · exact ⟨_, [_], rfl⟩
    · exact ⟨_, [_], rfl⟩
    · exact ⟨_, [_, _], rfl⟩
  obtain ⟨a, l, hpre⟩ := hpre
  refine C94_counterexample_syslog e (.inr ⟨rfl, rfl⟩) hl ht ?_ hpre hfit hne hv
  intro s hs
  change s ∈ prefixes (prefixAfter none ops) (resReq m type id errno file line func) at hs
  have h0 : CStr (txt "res-imp") := by unfold CStr; decide
  simp only [prefixes, resReq, resPfx, List.mem_append, Option.mem_toList, List.map_cons, List.map_append,
    List.map_nil, List.mem_cons, Option.getD_some] at hs
  rcases hs with hs | hs | hs | hs | hs
  · exact hown _ hs
  · rw [hs]; exact h0
  · cases type with
    | none => simp at hs
    | some t => simp only [List.map_cons, List.map_nil, List.mem_singleton, Option.getD_some] at hs; rw [hs]; exact hty _ rfl
  · rw [hs]; exact hi
  · cases hs

/-- C94: a message about a resource, on the standard streams: the description of the error is shown if and only if it is logged with its
error number -/
theorem C94_resource_cause (e : Env) {first : Op} {t : Target} {v : Int} {h : Bool} (hs : SetUp first t v h) {ops : List Op}
    (hl : Later ops) (ht : targetAfter t ops = .standard) (junk : Str) (type : Option Str) (id file : Str) (line errno : Int)
    (func : Option Str) (text : Str) (m : Macro) (hm : Shown v m.level ∨ m.level = 128) :
    said e (first :: ops) (.output junk h (resReq m type id errno file line func) text) =
      [.std (decide (m.level ≤ 4 ∨ ¬ (0 ≤ v ∧ v ≤ 2))) (lead e v (resReq m type id errno file line func).ctx ++
        body (prefixes (own h ops) (resReq m type id errno file line func)) text ++ (if m = .errorErrno then cause e errno else []) ++
        [10])] := by
  rw [C94_standard e hs hl ht, if_pos (by exact hm)]
  by_cases h1 : m = .errorErrno
  · simp [resReq, h1]
  · simp [resReq, h1, cause]

/-- C94: an error logged with its error number about a resource is shown on no target unless `-v` is given twice -/
theorem C94_counterexample_error_number (e : Env) {first : Op} {t : Target} {v : Int} {h : Bool} (hs : SetUp first t v h)
    {ops : List Op} (hl : Later ops) (hv : v = 0 ∨ v = 1) (junk : Str) (type : Option Str) (id file : Str) (line errno : Int)
    (func : Option Str) (text : Str) :
    said e (first :: ops) (.output junk h (resReq .errorErrno type id errno file line func) text) = [] := by
  obtain ⟨s, r', e1, ⟨q, g⟩, e2, e3, e4, -⟩ := log_given e hs hl junk (resReq .errorErrno type id errno file line func) text
  have e4 : r'.ctx.level = logDebug := e4
  have hns : ¬ Shown v logDebug := by unfold Shown logDebug; omega
  rw [e1, tgtOut]
  rw [← e2] at *
  cases hT : s.target with
  | none => rfl
  | standard =>
    simp only [stdOut, g.stdT hT, e4]
    rw [if_pos ⟨(stdOpen_max v _ (by decide)).2 hns, by decide⟩]
  | syslog =>
    simp only [sysOut, g.sysT hT, e4]
    rw [if_pos ((sysOpen_max v _).2 hns)]
  | journal =>
    simp only [jrnOut, g.jrnT hT, e4]
    rw [if_pos ((jrnOpen_max v _).2 hns)]

/-- C94: once the handle is required, a message without it is not output: the first is replaced by an error saying that messages are
skipped, the others by nothing -/
theorem C94_no_handle (e : Env) {t : Target} {v : Int} {ops : List Op} (hl : Later ops) (junk : Str) (r : Req) (text : Str) :
    ((∃ junk' r' text', Op.output junk' false r' text' ∈ ops) →
      said e (.initWithHandle t v :: ops) (.output junk false r text) = []) ∧
    ((∀ junk' r' text', Op.output junk' false r' text' ∉ ops) →
      said e (.initWithHandle t v :: ops) (.output junk false r text) =
        said e (.initWithHandle t v :: ops) (.output junk true ⟨[], { r.ctx with level := 3, errno := 0 }⟩
          (txt "Internal error: Incorrect or missing log handle, skipping log messages."))) := by
  have hq := quiet_of_later hl
  have g := good_run e ops hq (good_initWithHandle t v)
  have hi := run_ignored e ops _ hq (good_initWithHandle t v)
  have h0 : (initWithHandle t v {}).ignored = false := init_ignored t v
  rw [h0] at hi
  unfold said
  change (_ → (output e junk false r text (run e (initWithHandle t v {}) ops).1).2 = _) ∧
    (_ → (output e junk false r text (run e (initWithHandle t v {}) ops).1).2 =
      (output e junk true _ _ (run e (initWithHandle t v {}) ops).1).2)
  generalize (run e (initWithHandle t v {}) ops).1 = s at *
  constructor
  · intro hx
    have : s.ignored = true := hi.2 (.inr hx)
    simp [output, g.required, this]
  · intro hx
    have : s.ignored = false := by
      rw [← Bool.not_eq_true]
      intro c
      rcases hi.1 c with c | ⟨a, b, c', c⟩
      · cases c
      · exact hx _ _ _ c
    simp only [output, g.required, this, Bool.true_and, Bool.not_false, Bool.not_true, if_true]
    rfl

/-- C94: the log of the daemon: the journal if `-j` is among the options, the standard streams if only `-f` is, syslog otherwise; the
verbosity is the number of `-v`, unless the environment gives a number in `VERBOSE`.  Help and version end the daemon with success,
options that are not known end it with failure -/
theorem C94_options (opts : List Opt) :
    (Plain opts → ∃ s, options opts {} = .go s ∧ s.verbose = opts.count .verbose ∧
      (s.foreground = true ↔ .foreground ∈ opts) ∧ (s.journal = true ↔ .journal ∈ opts)) ∧
    (∀ before o after, opts = before ++ o :: after → Plain before → (o = .help ∨ o = .version) → options opts {} = .exit 0) ∧
    (∀ before after, opts = before ++ .other :: after → Plain before → options opts {} = .exit 22) := by
  have key : ∀ (l : List Opt) (s : Settings), Plain l → ∀ rest, ∃ s', options (l ++ rest) s = options rest s' ∧
      s'.verbose = s.verbose + l.count .verbose ∧
      (s'.foreground = true ↔ s.foreground = true ∨ .foreground ∈ l) ∧ (s'.journal = true ↔ s.journal = true ∨ .journal ∈ l) := by
    intro l
    induction l with
    | nil => intro s _ rest; exact ⟨s, rfl, rfl, by simp, by simp⟩
    | cons o l ih =>
      intro s hp rest
      have hp' : Plain l := ⟨fun c => hp.1 (List.mem_cons_of_mem _ c), fun c => hp.2.1 (List.mem_cons_of_mem _ c),
        fun c => hp.2.2 (List.mem_cons_of_mem _ c)⟩
      cases o with
      | help => exact absurd List.mem_cons_self hp.1
      | version => exact absurd List.mem_cons_self hp.2.1
      | other => exact absurd List.mem_cons_self hp.2.2
      | foreground =>
        obtain ⟨s', h1, h2, h3, h4⟩ := ih { s with foreground := true } hp' rest
        refine ⟨s', h1, by simpa using h2, by rw [h3]; simp, by rw [h4]; simp⟩
      | journal =>
        obtain ⟨s', h1, h2, h3, h4⟩ := ih { s with journal := true } hp' rest
        refine ⟨s', h1, by simpa using h2, by rw [h3]; simp, by rw [h4]; simp⟩
      | verbose =>
        obtain ⟨s', h1, h2, h3, h4⟩ := ih { s with verbose := s.verbose + 1 } hp' rest
        refine ⟨s', h1, by rw [h2]; simp; omega, by rw [h3]; simp, by rw [h4]; simp⟩
  refine ⟨fun hp => ?_, ?_, ?_⟩
  · obtain ⟨s', h1, h2, h3, h4⟩ := key opts {} hp []
    rw [List.append_nil] at h1
    exact ⟨s', h1, by simpa using h2, by rw [h3]; simp, by rw [h4]; simp⟩
  · rintro before o after rfl hp ho
    obtain ⟨s', h1, -⟩ := key before {} hp (o :: after)
    rw [h1]
    rcases ho with rfl | rfl <;> rfl
  · rintro before after rfl hp
    obtain ⟨s', h1, -⟩ := key before {} hp (.other :: after)
    rw [h1]; rfl

/-- C94: the log that belongs to settings is the one set up, with the handle required -/
theorem C94_start (e : Env) (env : List Str) (s : Settings) :
    ∃ v : Int, startLog env s = (run e {} [.initWithHandle
        (if s.journal = true then .journal else if s.foreground = true then .standard else .syslog) v]).1 ∧
      (∀ n, n < 2 ^ 31 → Sid.Spec.Client.valueOf env (txt "VERBOSE") = some (Sid.Spec.Client.decimal n) → v = n) ∧
      (∀ n, 2 ^ 31 ≤ n → n < 2 ^ 64 → Sid.Spec.Client.valueOf env (txt "VERBOSE") = some (Sid.Spec.Client.decimal n) →
        v = s.verbose) ∧
      (Sid.Spec.Client.valueOf env (txt "VERBOSE") = none → v = s.verbose) := by
  refine ⟨(envVerbose env s).verbose, ?_, ?_, ?_, ?_⟩
  · unfold startLog targetOf envVerbose
    cases Util.envGetUll env (txt "VERBOSE") 0 (2 ^ 31 - 1) <;> rfl
  · intro n hn h
    have hd := Util.envGetUll_decimal (min := 0) (max := 2 ^ 31 - 1) h (by omega)
    rw [if_neg (by omega)] at hd
    simp only [envVerbose, hd]
  · intro n hn hn' h
    have hd := Util.envGetUll_decimal (min := 0) (max := 2 ^ 31 - 1) h hn'
    rw [if_pos (by omega)] at hd
    simp only [envVerbose, hd]
  · intro h
    simp [envVerbose, Util.envGetUll, Util.getenv_eq, h]

/-! ### concrete cases -/

/-- a process -/
private def logEnv : Env := ⟨1, 7, fun _ => txt "No such file or directory"⟩

/-- a warning of resource "ubridge" with one prefix -/
private def logWarn : Req := ⟨[some (txt "main")], ⟨4, -2, txt "sid.c", 12, none⟩⟩

/-- calls after the set-up of the log: the worker sets its prefix, the target changes -/
private def logOps (t : Target) : List Op := [.setPfx true (some (txt "c 7")), .changeTgt true t, .close]

private theorem logOps_later (t : Target) : Later (logOps t) := by intro u v; simp [logOps]

/-- the hypotheses of `C94_standard` are met, and the line is as expected -/
example : said logEnv (.initWithHandle .syslog 0 :: logOps .standard) (.output [] true logWarn (txt "failed")) =
    [.std true (txt "<c 7> <main> failed: No such file or directory.\n")] := by
  rw [C94_standard logEnv (.inr ⟨rfl, rfl⟩) (logOps_later _) rfl]
  decide +kernel

/-- an error about a resource, by the target of the daemon -/
example : said logEnv (.initWithHandle .syslog 0 :: logOps .syslog)
    (.output [] true (resReq .error none (txt "w") 0 (txt "f") 1 none) (txt "worker failed")) = [.sys 3 (txt "<w> ")] := by
  rw [C94_counterexample_resource logEnv (logOps_later _) rfl (by unfold CStr; decide) (by simp)
    (by intro x hx; simp [logOps, prefixAfter] at hx; subst hx; unfold CStr; decide) (by decide +kernel) (by decide) (by decide)]
  rfl

/-- the hypotheses of `C94_syslog_partial` are met -/
example : said logEnv [.initWithHandle .syslog 0] (.output [] true logWarn (txt "failed")) = [.sys 4 (txt "<main> failed")] := by
  rw [C94_syslog_partial logEnv (t := .syslog) (v := 0) (.inr ⟨rfl, rfl⟩) (ops := []) (by intro t v; simp) rfl
    (by unfold CStr; decide) (by
      intro s hs
      have : s = txt "main" := by simpa [own, prefixes, logWarn, prefixAfter] using hs
      subst this; unfold CStr; decide) (by decide) (by decide +kernel) (by decide)]
  decide +kernel

/-- the hypotheses of `C94_journal_partial` are met -/
example : ∃ p, said logEnv (.initWithHandle .journal 0 :: logOps .journal)
    (.output (List.replicate 2048 1) true logWarn (txt "failed")) =
      [.jrn (txt "<c 7> <main> failed") p 4 (some (txt "sid.c", 12, none))] := by
  obtain ⟨p, h⟩ := C94_journal_partial logEnv (t := .journal) (v := 0) (h := true) (.inr ⟨rfl, rfl⟩) (logOps_later .journal) rfl
    (junk := List.replicate 2048 1) List.length_replicate (r := logWarn) (text := txt "failed") (by unfold CStr; decide) (by
      intro s hs
      have : s = txt "c 7" ∨ s = txt "main" := by simpa [own, prefixes, logWarn, prefixAfter, logOps] using hs
      rcases this with rfl | rfl <;> (unfold CStr; decide)) (by decide +kernel) (by decide)
  refine ⟨p, h.trans ?_⟩
  rw [if_pos (by decide), if_neg (by decide +kernel)]
  have : (body (prefixes (own true (logOps .journal)) logWarn) (txt "failed")).take 2047 = txt "<c 7> <main> failed" := by
    decide +kernel
  rw [this]; rfl

/-- a message without the handle: refused, once with a line that says so -/
example : said logEnv [.initWithHandle .standard 0, .output [] false logWarn (txt "a")] (.output [] false logWarn (txt "b")) = [] :=
  (C94_no_handle logEnv (ops := [.output [] false logWarn (txt "a")]) (by intro t v; simp) _ _ _).1 ⟨_, _, _, List.mem_singleton.2 rfl⟩

example : said logEnv [.initWithHandle .standard 0] (.output [] false logWarn (txt "a")) =
    [.std true (txt "Internal error: Incorrect or missing log handle, skipping log messages.\n")] := by
  rw [(C94_no_handle logEnv (ops := []) (by intro t v; simp) _ _ _).2 (by simp),
    C94_standard logEnv (t := .standard) (v := 0) (.inr ⟨rfl, rfl⟩) (ops := []) (by intro t v; simp) rfl]
  decide +kernel

/-- long prefixes -/
example (n : Nat) (hn : 2045 ≤ n) :
    2048 ≤ (body (prefixes (own false []) ⟨[some (List.replicate n 97)], logWarn.ctx⟩) []).length ∧ Shown 0 logWarn.ctx.level :=
  ⟨by simp [body, prefixes, own, bracket]; omega, by decide⟩

/-- options -/
example : Plain [.foreground, .verbose, .verbose] := by unfold Plain; decide

end Sid.Props
