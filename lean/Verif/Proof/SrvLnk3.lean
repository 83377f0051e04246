import Verif.Proof.SrvLnk2
/-
Proofs about service links: notifications and the links of resources.
-/
namespace Sid.Srv
open Sid.Spec.SrvLnk
open Sid.Ifc (txt)

/-! ### the text for systemd -/

theorem linesOf_line {l : Str} (hl : (10 : UInt8) ∉ l) (rest : Str) : linesOf (l ++ 10 :: rest) = l :: linesOf rest := by
  induction l with
  | nil => simp [linesOf]
  | cons c l ih =>
    have hc : c ≠ 10 := fun e => hl (by simp [e])
    rw [List.cons_append, linesOf, if_neg hc, ih (fun h => hl (by simp [h]))]
    rfl

theorem linesOf_only {l : Str} (hl : (10 : UInt8) ∉ l) (hne : l ≠ []) : linesOf l = [l] := by
  induction l with
  | nil => exact absurd rfl hne
  | cons c l ih =>
    have hc : c ≠ 10 := fun e => hl (by simp [e])
    rw [linesOf, if_neg hc]
    cases l with
    | nil => simp [linesOf]
    | cons d l => rw [ih (fun h => hl (by simp [h])) (by simp)]; rfl

/-- lines put in a text are the lines of the text -/
theorem linesOf_flat : ∀ {ls : List Str}, (∀ l ∈ ls, (10 : UInt8) ∉ l) → linesOf (ls.flatMap fun l => l ++ [10]) = ls
  | [], _ => rfl
  | l :: ls, h => by
    rw [List.flatMap_cons, List.append_assoc]
    show linesOf (l ++ 10 :: (ls.flatMap fun l => l ++ [10])) = _
    rw [linesOf_line (h l (by simp)), linesOf_flat fun x hx => h x (by simp [hx])]

theorem prefix_line {key l rest : Str} (hk : (10 : UInt8) ∉ key) : key.isPrefixOf (l ++ 10 :: rest) = key.isPrefixOf l := by
  induction key generalizing l with
  | nil => simp [List.isPrefixOf]
  | cons k key ih =>
    have hk1 : k ≠ 10 := fun e => hk (by simp [e])
    cases l with
    | nil => simp [List.isPrefixOf, hk1]
    | cons c l =>
      simp only [List.cons_append, List.isPrefixOf]
      rw [ih (fun h => hk (by simp [h]))]

theorem takeWhile_all : ∀ {s : Str}, (∀ x ∈ s, x ≠ 10) → s.takeWhile (· ≠ 10) = s
  | [], _ => rfl
  | c :: s, h => by
    have : (c :: s).takeWhile (· ≠ 10) = c :: s.takeWhile (· ≠ 10) := by
      rw [List.takeWhile_cons_of_pos]; simpa using h c (by simp)
    rw [this, takeWhile_all fun x hx => h x (by simp [hx])]

theorem split_line (s : Str) (hs : s ≠ []) : ((10 : UInt8) ∉ s ∧ s.takeWhile (· ≠ 10) = s) ∨
    ∃ rest, s = s.takeWhile (· ≠ 10) ++ 10 :: rest ∧ s.drop ((s.takeWhile (· ≠ 10)).length + 1) = rest := by
  by_cases h : (10 : UInt8) ∈ s
  · right
    have e : s.takeWhile (· ≠ 10) ++ s.dropWhile (· ≠ 10) = s := List.takeWhile_append_dropWhile
    cases hd : s.dropWhile (· ≠ 10) with
    | nil =>
      exfalso
      rw [hd, List.append_nil] at e
      have : ∀ x ∈ s.takeWhile (· ≠ 10), decide (x ≠ 10) = true := List.all_eq_true.mp List.all_takeWhile
      rw [e] at this
      simpa using this 10 h
    | cons c rest =>
      have hc := List.head?_dropWhile_not (p := fun x : UInt8 => decide (x ≠ 10)) (l := s)
      rw [hd] at hc
      have hc10 : c = 10 := by simpa using hc
      subst hc10
      rw [hd] at e
      refine ⟨rest, e.symm, ?_⟩
      conv => lhs; rw [← e]
      have : (s.takeWhile (· ≠ 10)).length + 1 = ((s.takeWhile (· ≠ 10)) ++ [10]).length := by simp
      rw [show s.takeWhile (· ≠ 10) ++ 10 :: rest = (s.takeWhile (· ≠ 10) ++ [10]) ++ rest by simp]
      have h2 : List.takeWhile (fun x => decide (x ≠ 10)) ((s.takeWhile (· ≠ 10) ++ [10]) ++ rest) = s.takeWhile (· ≠ 10) := by
        rw [show (s.takeWhile (· ≠ 10) ++ [10]) ++ rest = s by simpa using e]
      rw [h2, this, List.drop_left]
  · left
    refine ⟨h, ?_⟩
    exact takeWhile_all fun x hx e => h (e ▸ hx)

theorem argFrom_value {key : Str} (hk : (10 : UInt8) ∉ key) : ∀ (fuel : Nat) (s : Str), s.length < fuel →
    argFrom key fuel s = valueOf key (linesOf s) := by
  intro fuel
  induction fuel with
  | zero => intro s h; omega
  | succ fuel ih =>
    intro s h
    rw [argFrom]
    by_cases hs : s = []
    · rw [if_pos hs, hs]; rfl
    · rw [if_neg hs]
      rcases split_line s hs with ⟨hno, hl⟩ | ⟨rest, e, hd⟩
      · rw [linesOf_only hno hs, hl]
        unfold valueOf
        rw [List.find?_cons]
        cases hp : key.isPrefixOf s with
        | true => simp
        | false =>
          simp only [Bool.false_eq_true, if_false, List.find?_nil, Option.map_none]
          rw [List.drop_eq_nil_of_le (by omega)]
          cases fuel <;> simp [argFrom]
      · generalize hl : s.takeWhile (· ≠ 10) = l at e hd ⊢
        have hl10 : (10 : UInt8) ∉ l := by
          intro hm
          rw [← hl] at hm
          have : ∀ x ∈ s.takeWhile (· ≠ 10), decide (x ≠ 10) = true := List.all_eq_true.mp List.all_takeWhile
          simpa using this 10 hm
        have hlen : rest.length < fuel := by
          have := congrArg List.length e
          simp at this
          omega
        rw [hd, ih rest hlen, e, linesOf_line hl10, prefix_line hk]
        unfold valueOf
        rw [List.find?_cons]
        cases key.isPrefixOf l <;> simp

theorem valueLine_lines {key : Str} (hk : (10 : UInt8) ∉ key) (t : Str) :
    valueLine key (some t) = (((valueOf key (linesOf t)).map fun v => key ++ v).toList).flatMap fun l => l ++ [10] := by
  unfold valueLine argValue
  simp only
  rw [argFrom_value hk _ _ (by omega)]
  cases valueOf key (linesOf t) <;> simp

theorem valueLine_none {key : Str} : valueLine key none = valueLine key (some []) := by
  simp [valueLine, argValue, argFrom]

theorem flat_one (l : Str) : ([l].flatMap fun l => l ++ [10]) = l ++ [10] := by simp

theorem flat_if (b : Bool) (l : List Str) : (if b then l.flatMap (fun l => l ++ [10]) else []) =
    (if b then l else []).flatMap fun l => l ++ [(10 : UInt8)] := by
  cases b <;> simp

theorem systemdText_lines (n : Notif) (t : Str) : systemdText n (some t) = (sdLines n t).flatMap fun l => l ++ [10] := by
  unfold systemdText sdLines
  rw [valueLine_lines (by decide), valueLine_lines (by decide)]
  have e1 : txt "READY=1\n" = [txt "READY=1"].flatMap fun l => l ++ [10] := by decide
  have e2 : txt "RELOADING=1\n" = [txt "RELOADING=1"].flatMap fun l => l ++ [10] := by decide
  have e3 : txt "STOPPING=1\n" = [txt "STOPPING=1"].flatMap fun l => l ++ [10] := by decide
  have e4 : txt "WATCHDOG=1\n" = [txt "WATCHDOG=1"].flatMap fun l => l ++ [10] := by decide
  have e5 : txt "WATCHDOG=trigger\n" = [txt "WATCHDOG=trigger"].flatMap fun l => l ++ [10] := by decide
  rw [e1, e2, e3, e4, e5, hit_status, hit_errno, hit_ready, hit_reloading, hit_stopping, hit_refresh, hit_trigger]
  rw [flat_if, flat_if, flat_if, flat_if, flat_if, flat_if, flat_if]
  simp only [List.flatMap_append]

theorem systemdText_none (n : Notif) : systemdText n none = systemdText n (some []) := by
  unfold systemdText
  rw [valueLine_none, valueLine_none]

theorem mem_linesOf : ∀ (s : Str) (l : Str), l ∈ linesOf s → (10 : UInt8) ∉ l
  | [], l, h => by cases h
  | c :: s, l, h => by
    rw [linesOf] at h
    split at h
    · rcases List.mem_cons.mp h with e | h
      · simp [e]
      · exact mem_linesOf s l h
    · rename_i hc
      rcases List.mem_cons.mp h with e | h
      · subst e
        cases hs : linesOf s with
        | nil => simp; exact fun e => hc e.symm
        | cons a as =>
          simp only [List.headD_cons, List.mem_cons, not_or]
          exact ⟨fun e => hc e.symm, mem_linesOf s a (by simp [hs])⟩
      · exact mem_linesOf s l (List.mem_of_mem_tail h)

theorem value_no_nl {key : Str} {t v : Str} (h : valueOf key (linesOf t) = some v) : (10 : UInt8) ∉ v := by
  simp only [valueOf, Option.map_eq_some_iff] at h
  obtain ⟨l, h1, rfl⟩ := h
  exact fun hm => mem_linesOf t l (List.mem_of_find?_eq_some h1) (List.mem_of_mem_drop hm)

theorem value_line_no_nl {key : Str} (hk : (10 : UInt8) ∉ key) {t l : Str}
    (h : l ∈ ((valueOf key (linesOf t)).map fun v => key ++ v).toList) : (10 : UInt8) ∉ l := by
  simp only [Option.mem_toList, Option.map_eq_some_iff] at h
  obtain ⟨v, h1, rfl⟩ := h
  simp only [List.mem_append, not_or]
  exact ⟨hk, value_no_nl h1⟩

theorem mem_if {b : Bool} {ls : List Str} {l : Str} : l ∈ (if b then ls else []) ↔ b = true ∧ l ∈ ls := by cases b <;> simp

theorem sdLines_no_nl (n : Notif) (t : Str) : ∀ l ∈ sdLines n t, (10 : UInt8) ∉ l := by
  intro l h
  unfold sdLines at h
  simp only [List.mem_append, mem_if, List.mem_singleton] at h
  rcases h with (((((⟨-, h⟩ | ⟨-, h⟩) | ⟨-, h⟩) | ⟨-, h⟩) | ⟨-, h⟩) | ⟨-, h⟩) | ⟨-, h⟩
  · exact value_line_no_nl (by decide) h
  · exact value_line_no_nl (by decide) h
  all_goals (subst h; decide)

theorem value_line_ne {key x t : Str} (h : key.isPrefixOf x = false) : x ∉ ((valueOf key (linesOf t)).map fun v => key ++ v).toList := by
  intro hm
  simp only [Option.mem_toList, Option.map_eq_some_iff] at hm
  obtain ⟨v, -, rfl⟩ := hm
  have : key.isPrefixOf (key ++ v) = true := by rw [List.isPrefixOf_iff_prefix]; exact List.prefix_append _ _
  rw [this] at h
  cases h

theorem mem_sdLines (n : Notif) (t x : Str) (h1 : (txt "STATUS=").isPrefixOf x = false) (h2 : (txt "ERRNO=").isPrefixOf x = false) :
    x ∈ sdLines n t ↔ (n.getLsbD 3 = true ∧ x = txt "READY=1") ∨ (n.getLsbD 4 = true ∧ x = txt "RELOADING=1") ∨
      (n.getLsbD 5 = true ∧ x = txt "STOPPING=1") ∨ (n.getLsbD 6 = true ∧ x = txt "WATCHDOG=1") ∨
      (n.getLsbD 7 = true ∧ x = txt "WATCHDOG=trigger") := by
  unfold sdLines
  simp only [List.mem_append, mem_if, List.mem_singleton, value_line_ne h1, value_line_ne h2, and_false, false_or, or_assoc]

/-! ### what links do -/

/-- the message can be formatted as often as needed -/
def Fits (m : Msg) (i : Info) (n : Notif) (gone : Bool) : Prop :=
  (m.text = none → i.kind = .logger → uses i n = 0) ∧ (m.args = true → uses i n + gone.toNat ≤ 1)

theorem logMsg_ok {d : Nat} {m : Msg} {wanted gone : Bool} (h1 : m.text = none → wanted = false)
    (h2 : m.args = true → wanted.toNat + gone.toNat ≤ 1) :
    logMsg d m wanted gone = some ((if wanted then [m.text.getD []] else []).map fun l => .log d l, wanted || gone) := by
  unfold logMsg Msg.format
  cases wanted with
  | false => simp
  | true =>
    cases ht : m.text with
    | none => cases h1 ht
    | some t =>
      cases ha : m.args with
      | false => simp
      | true =>
        have := h2 ha
        cases gone with
        | false => simp
        | true => simp at this

theorem logStates_lines (d : Nat) (n : Notif) (t : Str) :
    (((if n.getLsbD 8 then [t] else []).map fun l => Effect.log d l) ++ (if n.getLsbD 1 then [t] else []).map fun l => Effect.log d l) ++
      logStates d n = (logLines n t).map fun l => .log d l := by
  unfold logStates logLines
  rw [hit_ready, hit_reloading, hit_stopping, hit_refresh, hit_trigger]
  simp only [List.map_append, List.append_assoc]
  cases n.getLsbD 3 <;> cases n.getLsbD 4 <;> cases n.getLsbD 5 <;> cases n.getLsbD 6 <;> cases n.getLsbD 7 <;> rfl

theorem deliver_ok {rc : Int} {l : Link} {n : Notif} {m : Msg} {gone : Bool} {last : Int} (h : Fits m l.info n gone) :
    ∃ gone', deliver rc l n m gone last = some (does l.info n (m.text.getD []), gone',
        match l.kind with
        | .systemd => rc
        | .logger => 0
        | .none => last) ∧ (m.args = true → gone'.toNat ≤ gone.toNat + uses l.info n) := by
  unfold deliver does
  have hk : l.info.kind = l.kind := rfl
  have hd : l.info.data = l.data := rfl
  simp only [hk, hd]
  cases hkk : l.kind with
  | none => exact ⟨gone, rfl, fun _ => by omega⟩
  | systemd =>
    have hu : uses l.info n = 1 := by simp [uses, hk, hkk]
    have h2 := h.2
    rw [hu] at h2 ⊢
    have key : ∃ a : Option Str × Bool, systemdArg m gone = some a ∧ systemdText n a.1 = systemdText n (some (m.text.getD [])) ∧
        (m.args = true → a.2.toNat ≤ gone.toNat + 1) := by
      have hle : ∀ b : Bool, b.toNat ≤ 1 := by decide
      unfold systemdArg
      split
      · rename_i h0
        refine ⟨(none, gone), rfl, ?_, fun _ => by show gone.toNat ≤ _; omega⟩
        have : m.text.getD [] = [] := by rcases h0 with h0 | h0 <;> simp [h0]
        rw [this]
        exact systemdText_none n
      · rename_i h0
        cases ht : m.text with
        | none => exact absurd (Or.inl ht) h0
        | some t =>
          refine ⟨(some t, true), ?_, rfl, fun _ => by have := hle true; show true.toNat ≤ _; omega⟩
          unfold Msg.format
          cases ha : m.args with
          | false => simp [ht]
          | true =>
            have := h2 ha
            cases gone with
            | false => simp [ht]
            | true => simp at this
    obtain ⟨a, e1, e2, e3⟩ := key
    refine ⟨a.2, ?_, e3⟩
    unfold notifySystemd
    rw [e1]
    simp only [Option.map_some, e2, systemdText_lines, hit_unset]
  | logger =>
    have hu : uses l.info n = (n.getLsbD 8).toNat + (n.getLsbD 1).toNat := by
      simp only [uses, hk, hkk]
      cases n.getLsbD 8 <;> cases n.getLsbD 1 <;> rfl
    have h1 : m.text = none → (n.getLsbD 8).toNat + (n.getLsbD 1).toNat = 0 := fun ht => hu ▸ h.1 ht hkk
    have h2 := h.2
    rw [hu] at h2 ⊢
    unfold notifyLogger
    rw [hit_message, hit_status]
    rw [logMsg_ok (wanted := n.getLsbD 8) (fun ht => by have := h1 ht; cases h8 : n.getLsbD 8 <;> simp_all) (fun ha => by have := h2 ha; omega)]
    simp only [Option.bind_some]
    rw [logMsg_ok (wanted := n.getLsbD 1) (fun ht => by have := h1 ht; cases h8 : n.getLsbD 1 <;> simp_all) (fun ha => by
      have := h2 ha
      exact (by decide : ∀ b8 b1 g : Bool, b8.toNat + b1.toNat + g.toNat ≤ 1 → b1.toNat + (b8 || g).toNat ≤ 1) _ _ _ this)]
    simp only [Option.map_some, logStates_lines]
    refine ⟨_, rfl, fun _ => ?_⟩
    cases n.getLsbD 8 <;> cases n.getLsbD 1 <;> cases gone <;> simp

/-! ### the tour -/

theorem takers_cons {s : State} {n : Notif} {x : Nat} {xs : List Nat} {i : Info} (hi : s.info x = some i) :
    takers s n (x :: xs) = if takes i n then (x, i) :: takers s n xs else takers s n xs := by
  unfold takers
  rw [List.filterMap_cons, hi]
  simp only [Option.bind_some]
  cases takes i n <;> simp

/-- the errors of systemd in order -/
def errors (sd : Nat → Int) (l : List (Nat × Info)) : List Int :=
  ((l.filter fun e => e.2.kind = .systemd).map fun e => sd e.1).filter (· < 0)

theorem getLast?_append_getD {l m : List Int} : (l ++ m).getLast?.getD 0 = (m.getLast?.getD (l.getLast?.getD 0)) := by
  rw [List.getLast?_append]
  cases m.getLast? <;> simp

theorem tour_ok {sd : Nat → Int} {n : Notif} {m : Msg} {w : World} {s : State} (R : Rep w s) {g : Nat} : ∀ (todo kept : List Nat)
    (fuel : Nat) (t : Tour), todo.length ≤ fuel → (g, kept ++ todo) ∈ s.groups →
    (m.text = none → ∀ e ∈ takers s n todo, e.2.kind = .logger → uses e.2 n = 0) →
    (m.args = true → ((takers s n todo).map fun e => uses e.2 n).sum + t.gone.toNat ≤ 1) →
    (t.last < 0 → t.result = t.last) →
    ∃ t', tour sd n m w g fuel ((todo ++ [g]).headD g) t = some t' ∧
      t'.reached = t.reached ++ (takers s n todo).map (fun e => (e.1, does e.2 n (m.text.getD []))) ∧
      t'.result = (errors sd (takers s n todo)).getLast?.getD t.result := by
  intro todo
  induction todo with
  | nil =>
    intro kept fuel t _ _ _ _ _
    refine ⟨t, ?_, by simp [takers], by simp [takers, errors]⟩
    cases fuel <;> simp [tour]
  | cons v todo ih =>
    intro kept fuel t hf hg htx hargs hlast
    obtain ⟨fuel, rfl⟩ : ∃ f, fuel = f + 1 := ⟨fuel - 1, by simp at hf; omega⟩
    have hf' : todo.length ≤ fuel := by simpa using hf
    have hvg : v ≠ g := fun e => (ring_of R hg).2 (by simp [e])
    obtain ⟨l, hl, hli⟩ := info_some R (R.mem _ hg v (by simp))
    have hg' : (g, (kept ++ [v]) ++ todo) ∈ s.groups := by simpa using hg
    simp only [List.cons_append, List.headD_cons]
    rw [tour, if_neg hvg, tourStep, hl, ring_next R hg]
    simp only [Option.bind_some]
    rw [hit_takes]
    rw [takers_cons hli] at htx hargs ⊢
    cases htk : takes l.info n with
    | false =>
      simp only [htk, Bool.false_eq_true, if_false, Option.bind_some] at htx hargs ⊢
      exact ih (kept ++ [v]) fuel t hf' hg' htx hargs hlast
    | true =>
      simp only [htk, if_true, List.map_cons, List.sum_cons] at htx hargs ⊢
      have hfit : Fits m l.info n t.gone := ⟨fun h1 h2 => htx h1 (v, l.info) (by simp) h2, fun h => by
        have := hargs h
        omega⟩
      obtain ⟨gone', e, hgone⟩ := deliver_ok (rc := sd v) (last := t.last) hfit
      rw [e]
      simp only [Option.map_some, Option.bind_some]
      generalize hrc : (match l.kind with
        | .systemd => sd v
        | .logger => 0
        | .none => t.last) = rc
      have h0 : rc < 0 → (if rc < 0 then rc else t.result) = rc := fun h => if_pos h
      obtain ⟨t', e1, e2, e3⟩ := ih (kept ++ [v]) fuel
        ⟨t.reached ++ [(v, does l.info n (m.text.getD []))], gone', rc, if rc < 0 then rc else t.result⟩ hf' hg'
        (fun h1 x hx => htx h1 x (by simp [hx])) (fun h => by
          have := hargs h
          have := hgone h
          simp only at *
          omega) h0
      refine ⟨t', e1, by rw [e2]; simp, ?_⟩
      rw [e3]
      simp only [errors, List.filter_cons]
      have hk : l.info.kind = l.kind := rfl
      simp only [hk]
      cases hkk : l.kind with
      | systemd =>
        simp only [hkk] at hrc
        subst hrc
        simp only [decide_true, if_true, List.map_cons, List.filter_cons]
        by_cases hneg : sd v < 0
        · simp only [hneg, decide_true, if_true]
          rw [List.getLast?_cons]
          simp
        · simp only [hneg, decide_false, Bool.false_eq_true, if_false]
      | logger =>
        simp only [hkk] at hrc
        subst hrc
        simp
      | none =>
        simp only [hkk] at hrc
        subst hrc
        simp only [reduceCtorEq, decide_false, Bool.false_eq_true, if_false]
        by_cases hneg : t.last < 0
        · rw [if_pos hneg, hlast hneg]
        · rw [if_neg hneg]

theorem grpNotify_ok {sd : Nat → Int} {n : Notif} {m : Msg} {w : World} {s : State} (R : Rep w s) {g : Nat} {xs : List Nat}
    (hg : (g, xs) ∈ s.groups) {fuel : Nat} (hf : xs.length ≤ fuel)
    (h1 : m.text = none → ∀ e ∈ takers s n xs, e.2.kind = .logger → uses e.2 n = 0)
    (h2 : m.args = true → ((takers s n xs).map fun e => uses e.2 n).sum ≤ 1) :
    ∃ t, grpNotify sd fuel w g n m = some t ∧
      t.reached = (takers s n xs).map (fun e => (e.1, does e.2 n (m.text.getD []))) ∧ t.result = lastError sd (takers s n xs) := by
  have hgr := R.alive (g, xs) hg
  cases hgn : w.groups g with
  | none => exact absurd hgn hgr
  | some nm =>
    obtain ⟨t, e1, e2, e3⟩ := tour_ok (sd := sd) (n := n) (m := m) R xs [] fuel {} hf hg h1 (by simpa using h2) (by simp)
    refine ⟨t, ?_, by simpa using e2, e3⟩
    unfold grpNotify
    rw [hgn, ring_first R hg]
    exact e1

theorem notify_ok {rc : Int} {n : Notif} {m : Msg} {w : World} {s : State} (R : Rep w s) {a : Nat} {i : Info} (hi : s.info a = some i)
    (h1 : m.text = none → i.kind = .logger → uses i n = 0) (h2 : m.args = true → uses i n ≤ 1) :
    notify rc w a n m = some (if takes i n then does i n (m.text.getD []) else [],
      if takes i n ∧ i.kind = .systemd then rc else 0) := by
  obtain ⟨l, hl, hli⟩ := info_some R (by rw [hi]; simp : s.info a ≠ none)
  have : i = l.info := by rw [hi] at hli; exact Option.some.inj hli
  subst this
  unfold notify
  rw [hl]
  simp only [Option.bind_some]
  rw [hit_takes]
  cases htk : takes l.info n with
  | false => simp
  | true =>
    obtain ⟨gone', e, -⟩ := deliver_ok (rc := rc) (l := l) (n := n) (m := m) (gone := false) (last := 0) ⟨h1, by simpa using h2⟩
    rw [if_pos rfl, e]
    have hk : l.info.kind = l.kind := rfl
    rw [hk]
    cases l.kind <;> simp

/-! ### a second pass over the arguments -/

theorem deliver_gone {rc : Int} {l : Link} {n : Notif} {m : Msg} {t : Str} {last : Int} (ha : m.args = true) (ht : m.text = some t)
    (gone : Bool) :
    deliver rc l n m gone last = none ∨
    ∃ r, deliver rc l n m gone last = some r ∧ r.2.1.toNat = gone.toNat + uses l.info n := by
  unfold deliver uses
  have hk : l.info.kind = l.kind := rfl
  rw [hk]
  have hf : ∀ g : Bool, m.format g = if g then none else some t := by intro g; simp [Msg.format, ha, ht]
  cases l.kind with
  | none => exact Or.inr ⟨_, rfl, rfl⟩
  | systemd =>
    simp only [notifySystemd, systemdArg, ht, ha, hf]
    cases gone <;> simp
  | logger =>
    simp only [notifyLogger, logMsg, hf, hit_message, hit_status]
    cases n.getLsbD 8 <;> cases n.getLsbD 1 <;> cases gone <;> simp

theorem tour_ub {sd : Nat → Int} {n : Notif} {m : Msg} {txt' : Str} {w : World} {s : State} (R : Rep w s) (ha : m.args = true)
    (ht : m.text = some txt') {g : Nat} : ∀ (todo kept : List Nat) (fuel : Nat) (t : Tour), (g, kept ++ todo) ∈ s.groups →
    2 ≤ ((takers s n todo).map fun e => uses e.2 n).sum + t.gone.toNat →
    tour sd n m w g fuel ((todo ++ [g]).headD g) t = none := by
  intro todo
  induction todo with
  | nil =>
    intro kept fuel t _ h
    have : ∀ b : Bool, b.toNat ≤ 1 := by decide
    have := this t.gone
    simp [takers] at h
    omega
  | cons v todo ih =>
    intro kept fuel t hg h
    have hvg : v ≠ g := fun e => (ring_of R hg).2 (by simp [e])
    obtain ⟨l, hl, hli⟩ := info_some R (R.mem _ hg v (by simp))
    have hg' : (g, (kept ++ [v]) ++ todo) ∈ s.groups := by simpa using hg
    simp only [List.cons_append, List.headD_cons]
    cases fuel with
    | zero => simp [tour, hvg]
    | succ fuel =>
      rw [tour, if_neg hvg, tourStep, hl, ring_next R hg]
      simp only [Option.bind_some]
      rw [hit_takes]
      rw [takers_cons hli] at h
      cases htk : takes l.info n with
      | false =>
        simp only [htk, Bool.false_eq_true, if_false, Option.bind_some] at h ⊢
        exact ih (kept ++ [v]) fuel t hg' h
      | true =>
        simp only [htk, if_true, List.map_cons, List.sum_cons] at h ⊢
        rcases deliver_gone (rc := sd v) (l := l) (n := n) (last := t.last) ha ht t.gone with e | ⟨r, e, hr⟩
        · rw [e]; rfl
        · rw [e]
          simp only [Option.map_some, Option.bind_some]
          refine ih (kept ++ [v]) fuel _ hg' ?_
          simp only
          omega

/-! ### the links of a resource -/

theorem fromDef_ok {w : World} {g a : Nat} {ds : List Nat} {gs : List (Nat × List Nat)} {info : Nat → Option Info}
    (R : Rep w ⟨(g, ds) :: gs, info⟩) (ha : ¬ (State.mk ((g, ds) :: gs) info).Used a) (d : Def) :
    ∃ w', fromDef w g a d = some w' ∧ Rep w' ⟨(g, ds ++ [a]) :: gs, fun x => if x = a then some (ofDef d) else info x⟩ := by
  have R0 := create_ok R ha d.kind d.name
  obtain ⟨w1, e1, R1⟩ := R0.setting (a := a) (i := { name := d.name, kind := d.kind }) (by simp [State.set])
    (fun l => { l with flags := d.flags }) ⟨d.name, d.kind, 0, d.flags, 0⟩ (fun l e => by
      simp only [Link.info, Info.mk.injEq] at e ⊢; simp [e])
  obtain ⟨w2, e2, R2⟩ := R1.setting (a := a) (i := ⟨d.name, d.kind, 0, d.flags, 0⟩) (by simp [State.set])
    (fun l => { l with data := d.data }) ⟨d.name, d.kind, 0, d.flags, d.data⟩ (fun l e => by
      simp only [Link.info, Info.mk.injEq] at e ⊢; simp [e])
  obtain ⟨w3, e3, R3⟩ := R2.setting (a := a) (i := ⟨d.name, d.kind, 0, d.flags, d.data⟩) (by simp [State.set])
    (fun l => { l with notif := l.notif ||| d.notif }) ⟨d.name, d.kind, d.notif, d.flags, d.data⟩ (fun l e => by
      simp only [Link.info, Info.mk.injEq] at e ⊢; simp [e])
  have R3' : Rep w3 ⟨[] ++ (g, ds) :: gs, fun x => if x = a then some (ofDef d) else info x⟩ := by
    have : (((((State.mk ((g, ds) :: gs) info).set a (some { name := d.name, kind := d.kind })).set a
        (some ⟨d.name, d.kind, 0, d.flags, 0⟩)).set a (some ⟨d.name, d.kind, 0, d.flags, d.data⟩)).set a
        (some ⟨d.name, d.kind, d.notif, d.flags, d.data⟩)) =
        ⟨[] ++ (g, ds) :: gs, fun x => if x = a then some (ofDef d) else info x⟩ := by
      simp only [State.set, List.nil_append, State.mk.injEq, true_and]
      funext x
      by_cases h : x = a <;> simp [h, ofDef]
    rw [← this]
    exact R3
  obtain ⟨w4, e4, R4⟩ := grpAdd_ok R3' (by simp) (fun ⟨m, h1, h2⟩ => ha (Or.inr ⟨m, h1, Or.inr h2⟩))
  refine ⟨w4, ?_, R4⟩
  unfold fromDef setFlags setData notifAdd
  rw [e1]; simp only [Option.bind_some]
  rw [e2]; simp only [Option.bind_some]
  rw [e3]; simp only [Option.bind_some]
  exact e4

theorem fromDefs_ok {g : Nat} {gs : List (Nat × List Nat)} : ∀ (defs : List Def) (new ds : List Nat) (info : Nat → Option Info)
    (w : World), Rep w ⟨(g, ds) :: gs, info⟩ → new.Nodup → (∀ a ∈ new, ¬ (State.mk ((g, ds) :: gs) info).Used a) →
    new.length = (defs.takeWhile fun d => d.kind ≠ .none).length →
    ∃ w', fromDefs g w new defs = some w' ∧
      Rep w' ⟨(g, ds ++ new) :: gs,
        fun x => ((new.zip (defs.takeWhile fun d => d.kind ≠ .none)).lookup x).elim (info x) fun d => some (ofDef d)⟩ := by
  intro defs
  induction defs with
  | nil =>
    intro new ds info w R _ _ hlen
    have : new = [] := by simpa using hlen
    subst this
    exact ⟨w, rfl, by simpa using R⟩
  | cons d defs ih =>
    intro new ds info w R hnd hfr hlen
    by_cases hk : d.kind = .none
    · have : new = [] := by simpa [List.takeWhile_cons, hk] using hlen
      subst this
      exact ⟨w, by rw [fromDefs.eq_def]; simp [hk], by simpa using R⟩
    · have htk : (d :: defs).takeWhile (fun d => d.kind ≠ .none) = d :: defs.takeWhile fun d => d.kind ≠ .none := by
        rw [List.takeWhile_cons_of_pos]; simpa using hk
      rw [htk] at hlen ⊢
      cases new with
      | nil => simp at hlen
      | cons a new =>
        have hau := hfr a (by simp)
        obtain ⟨w1, e1, R1⟩ := fromDef_ok R hau d
        obtain ⟨w2, e2, R2⟩ := ih new (ds ++ [a]) _ w1 R1 (List.nodup_cons.mp hnd).2 (by
          intro b hb hu
          have hba : b ≠ a := fun e => (List.nodup_cons.mp hnd).1 (e ▸ hb)
          refine hfr b (by simp [hb]) ?_
          rcases hu with hu | ⟨m, h1, h2⟩
          · left; simpa [hba] using hu
          · right
            rcases List.mem_cons.mp h1 with e | h1
            · subst e
              refine ⟨(g, ds), by simp, ?_⟩
              rcases h2 with h2 | h2
              · exact Or.inl h2
              · simp only [List.mem_append, List.mem_singleton, hba, or_false] at h2; exact Or.inr h2
            · exact ⟨m, List.mem_cons_of_mem _ h1, h2⟩) (by simpa using hlen)
        refine ⟨w2, ?_, ?_⟩
        · rw [fromDefs.eq_def]
          simp only [if_neg hk, e1, Option.bind_some]
          exact e2
        · rw [List.append_assoc] at R2
          have hfn : (fun x => ((new.zip (defs.takeWhile fun d => d.kind ≠ .none)).lookup x).elim
              (if x = a then some (ofDef d) else info x) fun d => some (ofDef d)) =
            fun x => (((a :: new).zip (d :: defs.takeWhile fun d => d.kind ≠ .none)).lookup x).elim (info x)
              fun d => some (ofDef d) := by
            funext x
            by_cases hx : x = a
            · subst hx
              have : (new.zip (defs.takeWhile fun d => d.kind ≠ .none)).lookup x = none := by
                rw [List.lookup_eq_none_iff]
                intro p hp
                have := (List.of_mem_zip (a := p.1) (b := p.2) hp).1
                simp only [bne_iff_ne, ne_eq]
                exact fun e => (List.nodup_cons.mp hnd).1 (e ▸ this)
              rw [this]
              simp
            · have hx' : (x == a) = false := by simpa using hx
              simp only [List.zip_cons_cons, List.lookup_cons, hx', if_neg hx]
          rw [← hfn]
          exact R2

end Sid.Srv
