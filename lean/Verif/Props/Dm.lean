import Verif.Spec.Dm
import Verif.Proof.Dm
import Verif.Proof.Ifc
import Verif.Props.UbrReply
/-
C80, C81, C82: device-mapper devices.
-/
namespace Sid.Props
open Sid.DevState Sid.Dm Sid.Spec.Dm
open Sid.Event (Action)
open Sid.Spec.Client (decimal)
open Sid.Util (isSpace isDigit digitsVal takeSign)
open Sid.Ifc (txt)

/-! ### cookies -/

theorem digit_dig {c : UInt8} (h : isDigit c = true) : digitVal c = c.toNat - 48 ∧ digitVal c < 10 := by
  simp only [isDigit, Bool.and_eq_true, decide_eq_true_eq] at h
  unfold digitVal
  rw [if_pos h]
  have := UInt8.le_iff_toNat_le.mp h.2
  have h9 : (57 : UInt8).toNat = 57 := rfl
  omega

theorem numVal_digits {l : Str} (h : ∀ c ∈ l, isDigit c = true) : numVal 10 l = digitsVal l := by
  unfold numVal digitsVal
  generalize 0 = a
  induction l generalizing a with
  | nil => rfl
  | cons c l ih =>
    rw [List.foldl_cons, List.foldl_cons, (digit_dig (h c (by simp))).1]
    exact ih (fun x hx => h x (by simp [hx])) _

theorem decimal_head {v : Nat} (h : 0 < v) : ∃ c l, decimal v = c :: l ∧ c ≠ 48 := by
  induction v using Nat.strongRecOn with
  | ind n ih =>
    rw [decimal]
    split
    · next hn =>
      refine ⟨_, _, rfl, fun e => ?_⟩
      have := congrArg UInt8.toNat e
      rw [UInt8.toNat_ofNat'] at this
      simp at this
      omega
    · obtain ⟨c, l, e, hc⟩ := ih (n / 10) (by omega) (by omega)
      rw [e]
      exact ⟨c, _, rfl, hc⟩

theorem strtoul_decimal {v : Nat} (h0 : 0 < v) :
    strtoul0 (decimal v) = if v ≥ 2 ^ 64 then (2 ^ 64 - 1, true, []) else (v, false, []) := by
  obtain ⟨hne, hd, hv⟩ := Sid.Util.decimal_spec v
  obtain ⟨c, l, e, hc⟩ := decimal_head h0
  have hcd : isDigit c = true := hd c (by rw [e]; simp)
  have hsp : (decimal v).dropWhile isSpace = decimal v := by
    rw [e]
    simp [List.dropWhile_cons, Sid.Util.isSpace_of_isDigit hcd]
  have hsg : takeSign (decimal v) = (false, decimal v) := by
    rw [e]
    exact Sid.Util.takeSign_digit hcd
  have hbp : basePrefix (decimal v) = (10, decimal v) := by
    rw [e]
    unfold basePrefix
    split
    · next h => cases h; exact absurd rfl hc
    · next h => cases h; exact absurd rfl hc
    · rfl
  have hdig : ∀ c ∈ decimal v, isDig 10 c = true := fun c hc => by
    unfold isDig
    exact decide_eq_true (digit_dig (hd c hc)).2
  unfold strtoul0
  simp only [hsp, hsg, hbp]
  obtain ⟨htw, hdw⟩ := Sid.Util.takeWhile_all hdig
  rw [htw, hdw, if_neg hne, numVal_digits hd, hv]
  rfl

/-- C80: the cookie the kernel prints is taken apart into its number and its flags. -/
theorem C80_cookie_read {v : Nat} (h0 : 0 < v) (h : v < 2 ^ 32) : parseCookie (decimal v) = some (v % 65536, v / 65536) := by
  unfold parseCookie
  rw [strtoul_decimal h0, if_neg (Nat.not_le.mpr (Nat.lt_trans h (by decide)))]
  have : v >>> 16 = v / 65536 := Nat.shiftRight_eq_div_pow v 16
  simp only [this]
  rw [if_neg (by simp; omega)]
  have : v / 65536 % 2 ^ 16 = v / 65536 := Nat.mod_eq_of_lt (by omega)
  rw [this]

theorem numChar_of_dig {b : Nat} (hb : b ≤ 16) {c : UInt8} (h : isDig b c = true) : numChar c = true := by
  unfold isDig at h
  have h := of_decide_eq_true h
  unfold digitVal at h
  unfold numChar
  split at h
  · next x => simp [x]
  · split at h
    · next x => simp [x]
    · split at h
      · next x => simp [x]
      · omega

/-- C80: texts that are no numbers, zero, and numbers that are too large are refused as cookies. -/
theorem C80_cookie_refused {s : Str} (h : NoCookie s) : parseCookie s = none := by
  rcases h with ⟨c, hc, hn⟩ | ⟨v, e, hv⟩
  · unfold parseCookie
    suffices (strtoul0 s).1 = 0 ∨ (strtoul0 s).2.2 ≠ [] by
      rcases this with h | h
      · simp [h]
      · simp [h]
    have hns : isSpace c = false := by
      cases hx : isSpace c with
      | false => rfl
      | true =>
        unfold numChar at hn
        unfold isSpace at hx
        simp only [Bool.or_eq_true] at hx
        rcases hx with h | h <;> simp [h] at hn
    have h1 : c ∈ s.dropWhile isSpace := by
      have := List.takeWhile_append_dropWhile (p := isSpace) (l := s)
      rw [← this, List.mem_append] at hc
      rcases hc with h | h
      · have := List.all_takeWhile (p := isSpace) (l := s)
        rw [List.all_eq_true] at this
        rw [this c h] at hns
        cases hns
      · exact h
    have h2 : c ∈ (takeSign (s.dropWhile isSpace)).2 := by
      generalize s.dropWhile isSpace = t at h1
      unfold takeSign
      split
      · rw [List.mem_cons] at h1
        rcases h1 with h | h
        · subst h; exact absurd hn (by decide)
        · exact h
      · rw [List.mem_cons] at h1
        rcases h1 with h | h
        · subst h; exact absurd hn (by decide)
        · exact h
      · exact h1
    have hb : ∀ t : Str, (basePrefix t).1 ≤ 16 ∧ (c ∈ t → c ∈ (basePrefix t).2) := by
      intro t
      unfold basePrefix
      split
      · next x d t =>
        split
        · next hx =>
          refine ⟨Nat.le_refl _, fun h => ?_⟩
          simp only [List.mem_cons] at h
          rcases h with h | h | h | h
          · subst h; exact absurd hn (by decide)
          · subst h
            rcases hx.1 with e | e
            · subst e; exact absurd hn (by decide)
            · subst e; exact absurd hn (by decide)
          · simp [h]
          · simp [h]
        · exact ⟨by simp, id⟩
      · exact ⟨by simp, id⟩
      · exact ⟨by simp, id⟩
    obtain ⟨hb1, hb2⟩ := hb (takeSign (s.dropWhile isSpace)).2
    have h3 := hb2 h2
    unfold strtoul0
    simp only
    split
    · exact .inl rfl
    · have : ((basePrefix (takeSign (s.dropWhile isSpace)).2).2.dropWhile
          (isDig (basePrefix (takeSign (s.dropWhile isSpace)).2).1)) ≠ [] := by
        intro h
        have := List.takeWhile_append_dropWhile (p := isDig (basePrefix (takeSign (s.dropWhile isSpace)).2).1)
          (l := (basePrefix (takeSign (s.dropWhile isSpace)).2).2)
        rw [h, List.append_nil] at this
        rw [← this] at h3
        have hall := List.all_takeWhile (p := isDig (basePrefix (takeSign (s.dropWhile isSpace)).2).1)
          (l := (basePrefix (takeSign (s.dropWhile isSpace)).2).2)
        rw [List.all_eq_true] at hall
        rw [numChar_of_dig hb1 (hall c h3)] at hn
        cases hn
      split
      · exact .inr this
      · exact .inr this
  · subst e
    rcases hv with h | h
    · subst h
      decide +kernel
    · unfold parseCookie
      rw [strtoul_decimal (by omega)]
      split
      · simp
      · simp only
        rw [if_pos (by simp; omega)]

/-! ### the ready state -/

/-- the device is in the state `r`, and the command knows or has not looked -/
def IsIn (c : DevState.Ctx Ready) (r : Ready) : Prop :=
  r ≠ .undefined ∧ c.stored = some r ∧ (c.cached = .undefined ∨ c.cached = r)

theorem IsIn.get {c : DevState.Ctx Ready} {r : Ready} (h : IsIn c r) :
    getState .undefined c = (r, { c with cached := r }) := by
  obtain ⟨h0, h1, h2⟩ := h
  unfold getState
  rcases h2 with h2 | h2
  · rw [if_pos h2, h1]
  · rw [if_neg (by rw [h2]; exact h0)]
    cases c
    simp_all

theorem IsIn.set {c : DevState.Ctx Ready} {r n : Ready} (h : IsIn c r) (hp : capReady c.phase = true) (hc : c.cached = r)
    (ho : readyOk r n = true) : (Dm.setReady (fun _ => .stored) c n).1 = 0 ∧ IsIn (Dm.setReady (fun _ => .stored) c n).2 n ∧
      (Dm.setReady (fun _ => .stored) c n).2.phase = c.phase ∧ (Dm.setReady (fun _ => .stored) c n).2.cached = n := by
  have hn : n ≠ .undefined := by rintro rfl; simp [readyOk] at ho
  unfold Dm.setReady setState
  simp only [hp, Bool.not_true, Bool.false_eq_true, if_false]
  split
  · next e => exact ⟨rfl, ⟨hn, by rw [h.2.1, e, hc], .inr e.symm⟩, rfl, e.symm⟩
  · simp only [hc, ho, Bool.not_true, Bool.false_eq_true, if_false, KvOutcome.code, Int.lt_irrefl, if_true]
    exact ⟨trivial, ⟨hn, rfl, .inr rfl⟩, trivial, trivial⟩

theorem and_pow_ne {a k : Nat} : (a &&& 2 ^ k ≠ 0) ↔ a.testBit k = true := by
  constructor
  · intro h
    cases hb : a.testBit k with
    | true => rfl
    | false =>
      refine absurd (Nat.eq_of_testBit_eq fun i => ?_) h
      rw [Nat.testBit_and, Nat.testBit_two_pow, Nat.zero_testBit]
      by_cases hi : k = i
      · subst hi; simp [hb]
      · simp [hi]
  · intro h e
    have : (a &&& 2 ^ k).testBit k = true := by rw [Nat.testBit_and, Nat.testBit_two_pow, h]; simp
    rw [e, Nat.zero_testBit] at this
    cases this

theorem testBit_flags (v k : Nat) : (v / 65536).testBit k = v.testBit (16 + k) := by
  rw [show (65536 : Nat) = 2 ^ 16 from rfl, Nat.testBit_div_two_pow, Nat.add_comm]

theorem byFlags_shown {v : Nat} : byFlags (v / 65536) = shown v := by
  have h8 : ∀ a : Nat, (a &&& 8 ≠ 0) ↔ a.testBit 3 = true := fun a => and_pow_ne (k := 3)
  have h4 : ∀ a : Nat, (a &&& 4 ≠ 0) ↔ a.testBit 2 = true := fun a => and_pow_ne (k := 2)
  unfold byFlags shown
  simp only [h8, h4, testBit_flags]

theorem byFlags_ok {r : Ready} (f : Nat) (h : r ≠ .undefined) : readyOk r (byFlags f) = true := by
  unfold byFlags
  split
  · simp [readyOk, h]
  · split <;> simp [readyOk, h]

/-- what the module makes of the state in the phase "pre", before the default -/
def preNext (r : Ready) (e : Ev) (s : Str) (cookie : Option Nat) : Ready :=
  match cookie with
  | some f =>
    if e.synth = true ∨ e.action ≠ .change then r
    else if s = txt "1" then .unavailable
    else if r = .removed ∨ r = .uninitialized then r
    else byFlags f
  | none =>
    if s = txt "1" then .unavailable
    else if r = .unprocessed then
      if e.synth then .isPublic else if e.action = .add then .unconfigured else r
    else r

/-- by the cookie of the event -/
def preAll (c : Cookie) (r : Ready) (e : Ev) (s : Str) : Ready :=
  match c with
  | .refused => r
  | .absent => preNext r e s none
  | .number v => preNext r e s (some (v / 65536))

theorem preState_ok {c : DevState.Ctx Ready} {r : Ready} (h : IsIn c r) (hp : c.phase = .aPre) (e : Ev) (s : Str)
    (cookie : Option Nat) :
    IsIn (preState (fun _ => .stored) e s cookie.isSome (cookie.getD 0) c).2 (preNext r e s cookie) := by
  have hg := h.get
  unfold preState
  simp only [hg]
  have h' : IsIn { c with cached := r } r := ⟨h.1, h.2.1, .inr rfl⟩
  have hcap : capReady ({ c with cached := r } : DevState.Ctx Ready).phase = true := by rw [show _ = c.phase from rfl, hp]; rfl
  have hset : ∀ n, readyOk r n = true → IsIn (Dm.setReady (fun _ => .stored) { c with cached := r } n).2 n :=
    fun n hn => (h'.set hcap rfl hn).2.1
  have hun : readyOk r .unavailable = true := by simp [readyOk, h.1]
  cases cookie with
  | some f =>
    simp only [Option.isSome_some, true_and, preNext, Option.getD_some]
    by_cases hbad : e.synth = true ∨ e.action ≠ .change
    · simp only [hbad, if_true]
      exact h'
    · simp only [hbad, if_false]
      by_cases hs : s = txt "1"
      · simp only [hs, if_true]
        exact hset _ hun
      · simp only [hs, if_false]
        have hbf := hset _ (byFlags_ok f h.1)
        unfold readySwitch
        cases r with
        | undefined => exact absurd rfl h.1
        | removed => simpa using h'
        | uninitialized => simpa using h'
        | unprocessed =>
          simp only [unprocessed, if_true, reduceCtorEq, or_self, if_false]
          obtain ⟨h1, h2, h3, h4⟩ := h'.set hcap rfl (n := .unconfigured) rfl
          rw [if_neg (by rw [h1]; decide)]
          simp only [unconfigured, if_true]
          exact (h2.set (by rw [h3]; exact hcap) h4 (byFlags_ok f (by simp))).2.1
        | unconfigured => simpa [unconfigured] using hbf
        | isPrivate => simpa using hbf
        | flat => simpa using hbf
        | unavailable => simpa using hbf
        | isPublic => simpa using hbf
  | none =>
    simp only [Option.isSome_none, Bool.false_eq_true, false_and, if_false, preNext]
    by_cases hs : s = txt "1"
    · simp only [hs, if_true]
      exact hset _ hun
    · simp only [hs, if_false]
      unfold readySwitch
      cases r with
      | undefined => exact absurd rfl h.1
      | unprocessed =>
        simp only [unprocessed, Bool.false_eq_true, if_false, if_true]
        split
        · exact hset .isPublic rfl
        · split
          · exact hset .unconfigured rfl
          · exact h'
      | removed => simpa using h'
      | uninitialized => simpa using h'
      | unconfigured => simpa [unconfigured] using h'
      | isPrivate => simpa using h'
      | flat => simpa using h'
      | unavailable => simpa using h'
      | isPublic => simpa using h'

theorem newDev_ok {w : World} (nw : Bool) (h : w.ready.stored ≠ some .undefined) :
    IsIn (newDev (begin nw w)).ready (w.ready.stored.getD .unprocessed) := by
  unfold newDev
  cases hs : w.ready.stored with
  | none =>
    have : (begin nw w).ready.stored = none := hs
    rw [if_pos this]
    simp [begin, setState, capReady, readyOk, KvOutcome.code, IsIn]
  | some r =>
    have : (begin nw w).ready.stored = some r := hs
    rw [if_neg (by rw [this]; simp)]
    refine ⟨?_, this, .inl rfl⟩
    rintro e
    rw [hs] at h
    exact h (by rw [← e]; rfl)

theorem fin_ok {w : World} {r : Ready} (h : IsIn w.ready r) : IsIn (fin w).ready (orPublic r) := by
  have hx : (aExit w).2.ready = { w.ready with cached := r } := by
    unfold aExit
    simp only [h.get]
    split <;> split <;> rfl
  have hl : (load (aExit w).2).ready = { w.ready with cached := r } := by
    unfold load
    rw [hx]
    simp [getState, h.1]
  have hd : (fin w).ready = (defReady (load (aExit w).2)).ready := by
    unfold fin defRes loadRes
    split <;> rfl
  rw [hd]
  unfold defReady orPublic
  simp only [hl]
  split
  · exact ⟨by simp, rfl, .inr rfl⟩
  · rw [hl]
    exact ⟨h.1, h.2.1, .inr rfl⟩

theorem fin_rest (w : World) : (fin w).base = w.base ∧ (fin w).flags = w.flags ∧ (fin w).completed = w.completed ∧
    (fin w).sets = (aExit w).2.sets := by
  have hx : (aExit w).2.base = w.base ∧ (aExit w).2.flags = w.flags ∧ (aExit w).2.completed = w.completed := by
    unfold aExit
    dsimp only
    split <;> split <;> exact ⟨rfl, rfl, rfl⟩
  have : ∀ u : World, (defRes u).base = u.base ∧ (defRes u).flags = u.flags ∧ (defRes u).completed = u.completed ∧
      (defRes u).sets = u.sets := fun u => by unfold defRes; split <;> exact ⟨rfl, rfl, rfl, rfl⟩
  have h2 : ∀ u : World, (defReady u).base = u.base ∧ (defReady u).flags = u.flags ∧ (defReady u).completed = u.completed ∧
      (defReady u).sets = u.sets := fun u => by unfold defReady; split <;> exact ⟨rfl, rfl, rfl, rfl⟩
  unfold fin
  obtain ⟨a1, a2, a3, a4⟩ := this (loadRes (defReady (load (aExit w).2)))
  obtain ⟨b1, b2, b3, b4⟩ := h2 (load (aExit w).2)
  rw [a1, a2, a3, a4]
  exact ⟨b1.trans hx.1, b2.trans hx.2.1, b3.trans hx.2.2, b4⟩

theorem cookieProps_ok {e : Ev} {x : Event} (h : Tells e x) (w : World) :
    (x.cookie = .refused ∧ cookieProps e w = (-1, 0, w)) ∨
    (x.cookie = .absent ∧ cookieProps e w = (0, 0, { w with flags := none })) ∨
    ∃ v, x.cookie = .number v ∧ cookieProps e w = (1, v / 65536, { w with base := some (v % 65536), flags := some (v / 65536) }) := by
  have hc := h.cookie
  unfold cookieProps
  cases hx : x.cookie with
  | absent =>
    rw [hx] at hc
    have hc : e.cookie = none := hc
    simp [hc]
  | number v =>
    rw [hx] at hc
    obtain ⟨h0, h1, h2⟩ := hc
    simp [h2, C80_cookie_read h0 h1]
  | refused =>
    rw [hx] at hc
    obtain ⟨t, h1, h2⟩ := hc
    simp [h1, C80_cookie_refused h2]

theorem aInit_ok {e : Ev} {x : Event} (h : Tells e x) (w : World) :
    (x.readable = false ∧ aInit e w = (-1, w)) ∨
    (x.readable = true ∧ ∃ s l, (s = txt "1" ↔ x.suspended = true) ∧
      aInit e w = (0, { w with suspended := some s, name := e.name, uuid := e.uuid, sets := w.sets ++ l })) := by
  have hr := h.readable
  have hsu := h.suspended
  unfold aInit
  cases hu : e.uuid with
  | none => left; rw [hu] at hr; cases hb : x.readable <;> simp_all
  | some u =>
    cases hn : e.name with
    | none => left; rw [hn] at hr; cases hb : x.readable <;> simp_all
    | some n =>
      cases hs : e.suspended with
      | none => left; rw [hs] at hr; cases hb : x.readable <;> simp_all
      | some s =>
        simp only
        by_cases hbad : n = [] ∨ s = []
        · left
          rw [if_pos hbad]
          refine ⟨?_, rfl⟩
          cases hb : x.readable with
          | false => rfl
          | true =>
            obtain ⟨-, ⟨n', h1, h2⟩, s', h3, h4⟩ := hr.mp hb
            rw [hn] at h1; rw [hs] at h3
            cases h1; cases h3
            rcases hbad with h | h
            · exact absurd h h2
            · exact absurd h h4
        · right
          rw [if_neg hbad]
          rw [not_or] at hbad
          refine ⟨hr.mpr ⟨by rw [hu]; rfl, ⟨n, hn, hbad.1⟩, s, hs, hbad.2⟩, s, ?_⟩
          split
          · refine ⟨[(txt "DM_NAME", some n), (txt ".DM_SUSPENDED", some s)], ?_, ?_⟩
            · rw [hsu, hs]; simp
            · simp [World.put, hn, hu]
          · refine ⟨[(txt "DM_UUID", some u), (txt "DM_NAME", some n), (txt ".DM_SUSPENDED", some s)], ?_, ?_⟩
            · rw [hsu, hs]; simp
            · simp [World.put, hn, hu]

/-- without a submodule -/
theorem subInit_none (w : World) : subInit false w = (0, { w with current := false, claim := some (w.claim.getD false) }) := by
  unfold subInit
  have : whichSub false w = false := by unfold whichSub; split <;> rfl
  rw [this]
  rfl

theorem init_none {e : Ev} {x : Event} (h : Tells e x) (w : World) :
    (x.readable = false ∧ fn false e .aInit w = (-1, w)) ∨
    (x.readable = true ∧ ∃ s l c, (s = txt "1" ↔ x.suspended = true) ∧
      fn false e .aInit w = (0, { w with
        suspended := some s, name := e.name, uuid := e.uuid, claim := c, current := false, sets := w.sets ++ l })) := by
  rcases aInit_ok h w with ⟨hb, hi⟩ | ⟨hb, s, l, hs, hi⟩
  · exact .inl ⟨hb, by simp [fn, andThen, hi]⟩
  · exact .inr ⟨hb, s, l, some (w.claim.getD false), hs, by
      simp only [fn, andThen, hi, Int.lt_irrefl, if_false]; rw [subInit_none]⟩

theorem scanPre_current (kv : Ready → KvOutcome) (e : Ev) (w : World) : (scanPre kv e w).2.current = w.current := by
  have h : (cookieProps e w).2.2.current = w.current := by
    unfold cookieProps
    split
    · rfl
    · split <;> rfl
  unfold scanPre
  dsimp only
  split
  · exact h
  · split <;> exact h

theorem pre_none {lvm : Bool} {e : Ev} {w : World} (hc : w.current = false) :
    (fn lvm e .aPre w).2 = (scanPre (fun _ => .stored) e { w with ready := { w.ready with phase := .aPre } }).2 := by
  have h : (scanPre (fun _ => .stored) e { w with ready := { w.ready with phase := .aPre } }).2.current = false :=
    (scanPre_current (fun _ => .stored) e { w with ready := { w.ready with phase := .aPre } }).trans hc
  unfold fn andThen
  dsimp only
  generalize scanPre (fun _ => .stored) e { w with ready := { w.ready with phase := .aPre } } = r at h ⊢
  split
  · rfl
  · rw [h]; rfl

theorem remove_none (e : Ev) (w : World) : ∃ c cur, fn false e .removeInit w =
    (if (cookieProps e w).1 < 0 then -1 else 0, { (cookieProps e w).2.2 with claim := c, current := cur }) := by
  simp only [fn, andThen]
  by_cases hc : (cookieProps e w).1 < 0
  · exact ⟨(cookieProps e w).2.2.claim, (cookieProps e w).2.2.current, by
      simp only [hc, if_true, show (-1 : Int) < 0 by decide]⟩
  · exact ⟨some ((cookieProps e w).2.2.claim.getD false), false, by simp only [hc, if_false, Int.lt_irrefl, subInit_none]⟩

theorem preNext_after {e : Ev} {x : Event} (h : Tells e x) (hx : x.action ≠ .remove) (hb : x.readable = true) {s : Str}
    (hs : s = txt "1" ↔ x.suspended = true) {old : Option Ready} {r : Ready} (hrr : old.getD .unprocessed = r) :
    orPublic (preAll x.cookie r e s)
      = after old x := by
  unfold after
  simp only [hrr, hx, hb, Bool.true_eq_false, or_self, if_false]
  cases x.cookie with
  | refused => rfl
  | absent =>
    simp only [preAll, preNext, h.synth, h.action]
    by_cases hsu : x.suspended = true
    · rw [if_pos (hs.mpr hsu), if_pos hsu]; rfl
    · rw [if_neg (fun e => hsu (hs.mp e)), if_neg hsu]
      by_cases hru : r = .unprocessed
      · subst hru
        cases x.synth <;> by_cases ha : x.action = .add <;> simp [ha, orPublic]
      · simp [hru]
  | number v =>
    simp only [preAll, preNext, h.synth, h.action]
    by_cases hbad : x.synth = true ∨ x.action ≠ .change
    · simp only [hbad, if_true]
    · simp only [hbad, if_false]
      by_cases hsu : x.suspended = true
      · rw [if_pos (hs.mpr hsu), if_pos hsu]; rfl
      · rw [if_neg (fun e => hsu (hs.mp e)), if_neg hsu]
        by_cases hru : r = .removed ∨ r = .uninitialized
        · rw [if_pos hru, if_pos hru]
          rcases hru with h | h <;> subst h <;> rfl
        · rw [if_neg hru, if_neg hru, byFlags_shown]
          unfold shown orPublic
          split
          · rfl
          · split <;> rfl

/-- the state one event leads to, in the first stage -/
theorem scanA_ready {e : Ev} {x : Event} (h : Tells e x) (nw : Bool) {w : World} (hw : w.ready.stored ≠ some .undefined) :
    IsIn (scanA false nw e w).2.ready (after w.ready.stored x) := by
  have h0 := newDev_ok nw hw
  unfold scanA
  by_cases hr : e.action = .remove
  · rw [stageR false hr]
    have hx : x.action = .remove := by rw [← h.action]; exact hr
    unfold after
    simp only [hx, true_or, if_true]
    obtain ⟨c, cur, hrm⟩ := remove_none e (newDev (begin nw w))
    rw [hrm]
    rcases cookieProps_ok h (newDev (begin nw w)) with ⟨-, h1⟩ | ⟨-, h1⟩ | ⟨v, -, h1⟩ <;> rw [h1] <;> exact h0
  · rw [stageA false hr]
    have hx : x.action ≠ .remove := by rw [← h.action]; exact hr
    rcases init_none h (newDev (begin nw w)) with ⟨hb, hi⟩ | ⟨hb, s, l, c, hs, hi⟩
    · rw [hi]
      unfold after
      simp only [hb, or_true, if_true]
      exact h0
    · rw [hi]
      simp only [Int.lt_irrefl, if_false]
      generalize hw1 : ({ newDev (begin nw w) with suspended := some s, name := e.name, uuid := e.uuid, claim := c, current := false, sets := (newDev (begin nw w)).sets ++ l } : World) = w1
      have hw1r : w1.ready = (newDev (begin nw w)).ready := by rw [← hw1]
      have hw1s : w1.suspended = some s := by rw [← hw1]
      generalize hrr : w.ready.stored.getD .unprocessed = r at h0
      have hpre : IsIn (fn false e .aPre w1).2.ready
          (preAll x.cookie r e s) := by
        have hin : IsIn ({ w1.ready with phase := .aPre }) r := by rw [hw1r]; exact ⟨h0.1, h0.2.1, h0.2.2⟩
        rw [pre_none (by rw [← hw1])]
        simp only [scanPre]
        rcases cookieProps_ok h { w1 with ready := { w1.ready with phase := .aPre } } with ⟨hc, h1⟩ | ⟨hc, h1⟩ | ⟨v, hc, h1⟩
        · rw [h1, hc]
          exact hin
        · rw [h1, hc]
          simp only [hw1s, Int.lt_irrefl, if_false]
          exact preState_ok hin rfl e s none
        · rw [h1, hc]
          simp only [hw1s, show ¬ ((1 : Int) < 0) by decide, if_false]
          exact preState_ok hin rfl e s (some (v / 65536))
      have hfin := fin_ok hpre
      have key := preNext_after h hx hb hs hrr
      rw [key] at hfin
      exact hfin

theorem stageB_ready (e : Ev) (w : World) : (stage false 2 e w).2.ready = w.ready := by
  rw [stageB]
  unfold actionCurrent
  split <;> rfl

theorem scan_ready {e : Ev} {x : Event} (h : Tells e x) (nw : Bool) {w : World} (hw : w.ready.stored ≠ some .undefined) :
    IsIn (scan false nw e w).2.ready (after w.ready.stored x) := by
  have := scanA_ready h nw hw
  unfold scan
  dsimp only
  split
  · exact this
  · rw [stageB_ready]; exact this

/-- C80: for every sequence of events of a device-mapper device, each served by a worker of its own or not: the ready state
    kept, and told to whoever asks, is the one the specification `after` leads to. -/
theorem C80_ready_state (hist : List (Bool × Ev × Event)) (h : ∀ t ∈ hist, Tells t.2.1 t.2.2) :
    let w := hist.foldl (fun w t => (scan false t.1 t.2.1 w).2) unknown
    let r := hist.foldl (fun r t => some (after r t.2.2)) (none : Option Ready)
    w.ready.stored = r ∧ Spec.DevState.seen .undefined w.ready = r.getD .undefined := by
  have key : ∀ (hist : List (Bool × Ev × Event)) (w : World) (r : Option Ready), (∀ t ∈ hist, Tells t.2.1 t.2.2) →
      (r = none ∧ w.ready.stored = none ∧ w.ready.cached = .undefined) ∨ (∃ q, r = some q ∧ IsIn w.ready q) →
      let w := hist.foldl (fun w t => (scan false t.1 t.2.1 w).2) w
      let r := hist.foldl (fun r t => some (after r t.2.2)) r
      (r = none ∧ w.ready.stored = none ∧ w.ready.cached = .undefined) ∨ (∃ q, r = some q ∧ IsIn w.ready q) := by
    intro hist
    induction hist with
    | nil => intro w r _ h; exact h
    | cons t l ih =>
      intro w r ht h
      rw [List.foldl_cons, List.foldl_cons]
      refine ih _ _ (fun u hu => ht u (by simp [hu])) (.inr ⟨_, rfl, ?_⟩)
      have hst : w.ready.stored = r ∧ w.ready.stored ≠ some .undefined := by
        rcases h with ⟨h1, h2, -⟩ | ⟨q, h1, h2⟩
        · rw [h1, h2]; exact ⟨rfl, by simp⟩
        · rw [h1, h2.2.1]; exact ⟨rfl, fun e => h2.1 (Option.some.inj e)⟩
      have := scan_ready (ht t (by simp)) t.1 hst.2
      rw [hst.1] at this
      exact this
  have := key hist unknown none h (.inl ⟨rfl, rfl, rfl⟩)
  intro w r
  rcases this with ⟨h1, h2, h3⟩ | ⟨q, h1, h2⟩
  · refine ⟨h2.trans h1.symm, ?_⟩
    have h1 : r = none := h1
    have h2 : w.ready.stored = none := h2
    have h3 : w.ready.cached = .undefined := h3
    simp [Spec.DevState.seen, getState, h1, h2, h3]
  · have h1 : r = some q := h1
    have h2 : IsIn w.ready q := h2
    refine ⟨h2.2.1.trans h1.symm, ?_⟩
    rw [Spec.DevState.seen, h2.get, h1]
    rfl

/-- the device after a sequence of events -/
def dmRun (hist : List (Bool × Ev × Event)) : World := hist.foldl (fun w t => (scan false t.1 t.2.1 w).2) unknown

/-- the state readers are told after a sequence of events -/
def dmSeen (hist : List (Bool × Ev × Event)) : Ready := Spec.DevState.seen .undefined (dmRun hist).ready

/-- the specification after a sequence of events -/
def specRun (hist : List (Bool × Ev × Event)) : Option Ready := hist.foldl (fun r t => some (after r t.2.2)) none

theorem specRun_snoc (hist : List (Bool × Ev × Event)) (t : Bool × Ev × Event) :
    specRun (hist ++ [t]) = some (after (specRun hist) t.2.2) := by
  unfold specRun
  rw [List.foldl_append]
  rfl

theorem dmSeen_eq {hist : List (Bool × Ev × Event)} (h : ∀ t ∈ hist, Tells t.2.1 t.2.2) :
    dmSeen hist = (specRun hist).getD .undefined := (C80_ready_state hist h).2

theorem after_reach {old : Option Ready} (x : Event) (h : ∀ r, old = some r → r ≠ .removed ∧ r ≠ .uninitialized) :
    after old x ≠ .removed ∧ after old x ≠ .uninitialized := by
  have h' : old.getD .unprocessed ≠ .removed ∧ old.getD .unprocessed ≠ .uninitialized := by
    cases old with
    | none => simp
    | some r => exact h r rfl
  unfold after
  generalize old.getD .unprocessed = r at h'
  dsimp only
  unfold orPublic shown
  split
  · exact h'
  · split
    · split <;> simp [h']
    · split
      · split <;> simp [h']
      · split
        · simp
        · split
          · exact h'
          · split
            · simp
            · split <;> simp
    · split
      · simp
      · split
        · simp
        · split <;> simp [h']

theorem specRun_reach (hist : List (Bool × Ev × Event)) (r : Ready) (h : specRun hist = some r) :
    r ≠ .removed ∧ r ≠ .uninitialized := by
  have key : ∀ (l : List (Bool × Ev × Event)) (o : Option Ready), (∀ r, o = some r → r ≠ .removed ∧ r ≠ .uninitialized) →
      ∀ r, l.foldl (fun r t => some (after r t.2.2)) o = some r → r ≠ .removed ∧ r ≠ .uninitialized := by
    intro l
    induction l with
    | nil => intro o ho r h; exact ho r h
    | cons t l ih =>
      intro o ho r h
      rw [List.foldl_cons] at h
      refine ih _ (fun q hq => ?_) r h
      cases hq
      exact after_reach _ ho
  exact key hist none (by simp) r h

/-- C80: whatever happened before, a resume (a genuine change event with a cookie) of a device that is found active leads to
    the state its flags ask for: private, flat or public. -/
theorem C80_resume_decides {hist : List (Bool × Ev × Event)} {t : Bool × Ev × Event} {v : Nat}
    (h : ∀ u ∈ hist ++ [t], Tells u.2.1 u.2.2) (hc : t.2.2.cookie = .number v) (ha : t.2.2.action = .change)
    (hs : t.2.2.synth = false) (hr : t.2.2.readable = true) (hu : t.2.2.suspended = false) :
    dmSeen (hist ++ [t]) = shown v := by
  rw [dmSeen_eq h, specRun_snoc]
  unfold after
  have : (specRun hist).getD .unprocessed ≠ .removed ∧ (specRun hist).getD .unprocessed ≠ .uninitialized := by
    cases hx : specRun hist with
    | none => simp
    | some r => exact specRun_reach hist r hx
  simp [hc, ha, hs, hr, hu, this]

/-- C80: a device that is found suspended is unavailable, unless the event makes no sense. -/
theorem C80_suspended {hist : List (Bool × Ev × Event)} {t : Bool × Ev × Event}
    (h : ∀ u ∈ hist ++ [t], Tells u.2.1 u.2.2) (ha : t.2.2.action ≠ .remove) (hr : t.2.2.readable = true)
    (hc : t.2.2.cookie = .absent ∨ ∃ v, t.2.2.cookie = .number v ∧ t.2.2.action = .change ∧ t.2.2.synth = false)
    (hu : t.2.2.suspended = true) : dmSeen (hist ++ [t]) = .unavailable := by
  rw [dmSeen_eq h, specRun_snoc]
  unfold after
  rcases hc with hc | ⟨v, hc, h1, h2⟩
  · simp [hc, hr, hu, ha]
  · simp [hc, hr, hu, h1, h2]

/-- C80: events without a cookie leave the state of a device as it is once it is known, if the device is not found suspended. -/
theorem C80_no_cookie_no_change {hist l : List (Bool × Ev × Event)} (h : ∀ u ∈ hist ++ l, Tells u.2.1 u.2.2)
    (hne : dmSeen hist ≠ .undefined) (hnu : dmSeen hist ≠ .unprocessed)
    (hl : ∀ t ∈ l, (∀ v, t.2.2.cookie ≠ .number v) ∧ t.2.2.suspended = false) : dmSeen (hist ++ l) = dmSeen hist := by
  have hh : ∀ u ∈ hist, Tells u.2.1 u.2.2 := fun u hu => h u (by simp [hu])
  rw [dmSeen_eq h, dmSeen_eq hh]
  rw [dmSeen_eq hh] at hne hnu
  unfold specRun at hne hnu ⊢
  rw [List.foldl_append]
  generalize hist.foldl (fun r t => some (after r t.2.2)) none = o at hne hnu
  cases o with
  | none => exact absurd rfl hne
  | some r =>
    clear h hh
    induction l with
    | nil => rfl
    | cons t l ih =>
      rw [List.foldl_cons]
      obtain ⟨h1, h2⟩ := hl t (by simp)
      have : after (some r) t.2.2 = r := by
        unfold after
        simp only [Option.getD_some] at hnu ⊢
        split
        · rfl
        · split
          · simp [orPublic, hnu]
          · next v hv => exact absurd hv (h1 v)
          · simp [h2, orPublic, hnu]
      rw [this]
      exact ih fun u hu => hl u (by simp [hu])

/-- C80 (partial: for a device the daemon did not know before, see the counterexamples).  A device that was created is not
    usable, and stays so, until it is resumed for the first time or found suspended. -/
theorem C80_unconfigured_until_resume_partial {t : Bool × Ev × Event} {l : List (Bool × Ev × Event)}
    (h : ∀ u ∈ t :: l, Tells u.2.1 u.2.2) (ha : t.2.2.action = .add) (hs : t.2.2.synth = false) (hr : t.2.2.readable = true)
    (hc : t.2.2.cookie = .absent) (hu : t.2.2.suspended = false)
    (hl : ∀ t ∈ l, (∀ v, t.2.2.cookie ≠ .number v) ∧ t.2.2.suspended = false) : dmSeen (t :: l) = .unconfigured := by
  have h1 : dmSeen [t] = .unconfigured := by
    rw [dmSeen_eq fun u hu => h u (by simp at hu; simp [hu])]
    simp [specRun, after, ha, hs, hr, hc, hu]
  have := C80_no_cookie_no_change (hist := [t]) (l := l) h (by rw [h1]; simp) (by rw [h1]; simp) hl
  rw [show t :: l = [t] ++ l from rfl, this, h1]

/-- C80 is false of devices that get the number of one that was removed: nothing is noted of the removal, so the new device
    has the state of the old one before it has a table. -/
theorem C80_recreated_counterexample {hist : List (Bool × Ev × Event)} {r a : Bool × Ev × Event}
    (h : ∀ u ∈ hist ++ [r, a], Tells u.2.1 u.2.2) (hp : dmSeen hist = .isPublic) (hr : r.2.2.action = .remove)
    (ha : a.2.2.action = .add) (hc : a.2.2.cookie = .absent) (hu : a.2.2.suspended = false) :
    dmSeen (hist ++ [r]) = .isPublic ∧ dmSeen (hist ++ [r, a]) = .isPublic := by
  have h0 : ∀ u ∈ hist, Tells u.2.1 u.2.2 := fun u hu => h u (by simp [hu])
  have h1 : ∀ u ∈ hist ++ [r], Tells u.2.1 u.2.2 := fun u hu => h u (by simp at hu; rcases hu with h | h <;> simp [h])
  rw [dmSeen_eq h0] at hp
  have hsr : specRun hist = some .isPublic := by
    cases hx : specRun hist with
    | none => rw [hx] at hp; cases hp
    | some q => rw [hx] at hp; exact congrArg some hp
  have e1 : specRun (hist ++ [r]) = some .isPublic := by
    rw [specRun_snoc, hsr]
    simp [after, hr]
  refine ⟨by rw [dmSeen_eq h1, e1]; rfl, ?_⟩
  rw [dmSeen_eq h, show hist ++ [r, a] = (hist ++ [r]) ++ [a] by simp, specRun_snoc, e1]
  simp [after, ha, hc, hu, orPublic]

/-- C80 is false of devices whose first event is refused: the scan goes on to its end, where devices nobody decided about are
    made public. -/
theorem C80_refused_event_counterexample {t : Bool × Ev × Event} (h : Tells t.2.1 t.2.2) (ha : t.2.2.action ≠ .remove)
    (hr : t.2.2.readable = true) (hc : t.2.2.cookie = .refused) : dmSeen [t] = .isPublic := by
  rw [dmSeen_eq fun u hu => by simp at hu; rw [hu]; exact h]
  simp [specRun, after, ha, hr, hc, orPublic]

/-! ### completion -/

theorem newDev_rest (w : World) : (newDev w).base = w.base ∧ (newDev w).completed = w.completed ∧ (newDev w).flags = w.flags ∧
    (newDev w).sets = w.sets := by
  unfold newDev
  split <;> exact ⟨rfl, rfl, rfl, rfl⟩

theorem scanPre_rest {e : Ev} {x : Event} (h : Tells e x) (kv : Ready → KvOutcome) (w : World) :
    (scanPre kv e w).2.completed = w.completed ∧ (scanPre kv e w).2.sets = w.sets ∧
    (scanPre kv e w).2.base = (match x.cookie with | .number v => some (v % 65536) | _ => w.base) ∧
    (scanPre kv e w).2.flags = (match x.cookie with | .number v => some (v / 65536) | .absent => none | .refused => w.flags) := by
  unfold scanPre
  rcases cookieProps_ok h w with ⟨hc, h1⟩ | ⟨hc, h1⟩ | ⟨v, hc, h1⟩
  · rw [h1, hc]
    exact ⟨rfl, rfl, rfl, rfl⟩
  · rw [h1, hc]
    dsimp only
    split
    · exact ⟨rfl, rfl, rfl, rfl⟩
    · split <;> exact ⟨rfl, rfl, rfl, rfl⟩
  · rw [h1, hc]
    dsimp only
    split
    · exact ⟨rfl, rfl, rfl, rfl⟩
    · split <;> exact ⟨rfl, rfl, rfl, rfl⟩

theorem actionCurrent_completed (w : World) : (actionCurrent w).2.completed = w.completed ++ w.base.toList := by
  unfold actionCurrent
  split <;> simp [*]

/-- what a scan completes -/
theorem scan_completed {e : Ev} {x : Event} (h : Tells e x) (nw : Bool) (w : World) :
    (scan false nw e w).2.completed = w.completed ++
      (if x.action = .remove then (match x.cookie with | .number v => [v % 65536] | .absent => (begin nw w).base.toList | .refused => [])
       else if x.readable = true then (match x.cookie with | .number v => [v % 65536] | _ => (begin nw w).base.toList) else []) := by
  obtain ⟨n1, n2, -, -⟩ := newDev_rest (begin nw w)
  have n2 : (newDev (begin nw w)).completed = w.completed := n2
  unfold scan scanA
  by_cases hr : e.action = .remove
  · have hx : x.action = .remove := by rw [← h.action]; exact hr
    rw [stageR false hr, if_pos hx]
    obtain ⟨c, cur, hrm⟩ := remove_none e (newDev (begin nw w))
    rw [hrm]
    rcases cookieProps_ok h (newDev (begin nw w)) with ⟨hc, h1⟩ | ⟨hc, h1⟩ | ⟨v, hc, h1⟩
    · simp [h1, hc, n2]
    · simp only [h1, hc, Int.lt_irrefl, if_false, stageB, actionCurrent_completed, n1, n2]
    · simp only [h1, hc, show ¬ ((1 : Int) < 0) by decide, Int.lt_irrefl, if_false, stageB, actionCurrent_completed, n2]
      rfl
  · have hx : x.action ≠ .remove := by rw [← h.action]; exact hr
    rw [stageA false hr, if_neg hx]
    rcases init_none h (newDev (begin nw w)) with ⟨hb, hi⟩ | ⟨hb, s, l, c, hs, hi⟩
    · simp [hi, hb, n2]
    · rw [hi]
      simp only [Int.lt_irrefl, if_false, hb, if_true, stageB, actionCurrent_completed]
      generalize hw1 : ({ newDev (begin nw w) with suspended := some s, name := e.name, uuid := e.uuid, claim := c, current := false, sets := (newDev (begin nw w)).sets ++ l } : World) = w1
      obtain ⟨f1, -, f3, -⟩ := fin_rest (fn false e .aPre w1).2
      obtain ⟨p1, -, p3, -⟩ := scanPre_rest h (fun _ => .stored) { w1 with ready := { w1.ready with phase := .aPre } }
      rw [← pre_none (lvm := false) (by rw [← hw1])] at p1 p3
      have p1 : (fn false e .aPre w1).2.completed = w1.completed := p1
      have p3 : (fn false e .aPre w1).2.base = (match x.cookie with | .number v => some (v % 65536) | _ => w1.base) := p3
      have b1 : w1.base = (begin nw w).base := by rw [← hw1]; exact n1
      have b2 : w1.completed = w.completed := by rw [← hw1]; exact n2
      rw [f1, f3, p1, p3, b1, b2]
      cases x.cookie <;> rfl

/-- C82: every cookie that comes with an event is completed once, in the order of the events, and no other one is, if each
    command is served by a worker of its own. -/
theorem C82_completed_once_partial (hist : List (Bool × Ev × Event)) (h : ∀ t ∈ hist, Tells t.2.1 t.2.2 ∧ t.1 = true) :
    (dmRun hist).completed = hist.filterMap fun t => toComplete t.2.2 := by
  have key : ∀ (l : List (Bool × Ev × Event)) (w : World), (∀ t ∈ l, Tells t.2.1 t.2.2 ∧ t.1 = true) →
      (l.foldl (fun w t => (scan false t.1 t.2.1 w).2) w).completed = w.completed ++ l.filterMap fun t => toComplete t.2.2 := by
    intro l
    induction l with
    | nil => intro w _; simp
    | cons t l ih =>
      intro w ht
      obtain ⟨h1, h2⟩ := ht t (by simp)
      rw [List.foldl_cons, ih _ fun u hu => ht u (by simp [hu]), scan_completed h1, h2, List.filterMap_cons]
      have : toComplete t.2.2 = none ∨ ∃ b, toComplete t.2.2 = some b := by cases toComplete t.2.2 <;> simp
      have hb : (begin true w).base = none := rfl
      rw [hb]
      unfold toComplete
      cases t.2.2.cookie with
      | absent => simp
      | refused => simp
      | number v =>
        by_cases ha : t.2.2.action = .remove
        · simp [ha]
        · cases hr : t.2.2.readable <;> simp [ha]
  exact key hist unknown h

/-- C82 is false of devices whose properties cannot be read: the cookie of the event is not completed, and whoever waits for
    it waits on. -/
theorem C82_unreadable_counterexample {e : Ev} {x : Event} (h : Tells e x) (nw : Bool) (w : World)
    (hr : x.readable = false) (ha : x.action ≠ .remove) : (scan false nw e w).2.completed = w.completed := by
  rw [scan_completed h]
  simp [hr, ha]

/-- C82 needs a worker for each command: a worker that served an event with a cookie completes it once more for each further
    event without one. -/
theorem C82_same_worker_counterexample {e1 e2 : Ev} {x1 x2 : Event} {v : Nat} (h1 : Tells e1 x1) (h2 : Tells e2 x2) (w : World)
    (hc1 : x1.cookie = .number v) (hr1 : x1.readable = true) (ha1 : x1.action ≠ .remove) (hc2 : x2.cookie = .absent)
    (hr2 : x2.readable = true) (ha2 : x2.action ≠ .remove) :
    (scan false false e2 (scan false true e1 w).2).2.completed = w.completed ++ [v % 65536, v % 65536] := by
  have hb : (scan false true e1 w).2.base = some (v % 65536) := by
    have hr : e1.action ≠ .remove := by rw [h1.action]; exact ha1
    unfold scan scanA
    rw [stageA false hr]
    rcases init_none h1 (newDev (begin true w)) with ⟨hb, hi⟩ | ⟨hb, s, l, c, hs, hi⟩
    · rw [hr1] at hb; cases hb
    · rw [hi]
      simp only [Int.lt_irrefl, if_false, stageB]
      generalize hw1 : ({ newDev (begin true w) with suspended := some s, name := e1.name, uuid := e1.uuid, claim := c, current := false, sets := (newDev (begin true w)).sets ++ l } : World) = w1
      have hcur : w1.current = false := by rw [← hw1]
      obtain ⟨f1, -, -, -⟩ := fin_rest (fn false e1 .aPre w1).2
      obtain ⟨-, -, p3, -⟩ := scanPre_rest h1 (fun _ => .stored) { w1 with ready := { w1.ready with phase := .aPre } }
      rw [← pre_none (lvm := false) hcur] at p3
      have p3 : (fn false e1 .aPre w1).2.base = (match x1.cookie with | .number v => some (v % 65536) | _ => w1.base) := p3
      have : ∀ u : World, (actionCurrent u).2.base = u.base := fun u => by unfold actionCurrent; split <;> simp [*]
      rw [this, f1, p3, hc1]
  rw [scan_completed h2, scan_completed h1]
  have : (begin false (scan false true e1 w).2).base = some (v % 65536) := hb
  simp [ha1, ha2, hr1, hr2, hc1, hc2, this]

/-! ### what udev is told -/

open Sid.Spec.Reply (lastOf Serve)

theorem lastOf_append (a b : List (Str × Option Str)) (n : Str) : lastOf (a ++ b) n = (lastOf b n).or (lastOf a n) := by
  induction a with
  | nil => simp [lastOf]
  | cons p a ih =>
    obtain ⟨m, v⟩ := p
    rw [List.cons_append, lastOf, lastOf, ih, Option.or_assoc]

theorem lastOf_absent {l : List (Str × Option Str)} {n : Str} (h : ∀ p ∈ l, p.1 ≠ n) : lastOf l n = none := by
  induction l with
  | nil => rfl
  | cons p l ih =>
    obtain ⟨m, v⟩ := p
    rw [lastOf, ih fun q hq => h q (by simp [hq]), if_neg (h (m, v) (by simp))]
    rfl

theorem flagName_inj : ∀ i < 16, ∀ j < 16, flagName i = flagName j → i = j := by decide +kernel

theorem lastOf_map {f : Nat → Option Str} {i : Nat} (l : List Nat) (hl : ∀ j ∈ l, j < 16) (hi : i < 16) (hm : i ∈ l) :
    lastOf (l.map fun i => (flagName i, f i)) (flagName i) = some (f i) := by
  induction l with
  | nil => cases hm
  | cons j l ih =>
    rw [List.map_cons, lastOf]
    by_cases h : i ∈ l
    · rw [ih (fun k hk => hl k (by simp [hk])) h]
      rfl
    · have hj : j = i := by
        rcases List.mem_cons.mp hm with h' | h'
        · exact h'.symm
        · exact absurd h' h
      subst hj
      rw [lastOf_absent, if_pos rfl]
      · rfl
      · intro p hp e
        obtain ⟨k, hk, rfl⟩ := List.mem_map.mp hp
        exact h ((flagName_inj k (hl k (by simp [hk])) j hi e) ▸ hk)

theorem lastOf_flagSets {f i : Nat} (hi : i < 16) :
    lastOf (flagSets f) (flagName i) = some (if f.testBit i then some (txt "1") else none) := by
  unfold flagSets
  rw [lastOf_map _ (fun j hj => List.mem_range.mp hj) hi (List.mem_range.mpr hi)]
  have : (1 <<< i &&& f ≠ 0) ↔ f.testBit i = true := by
    rw [Nat.one_shiftLeft, Nat.and_comm]
    exact and_pow_ne
  simp only [this]

theorem lastOf_stateSets (r : Ready) {i : Nat} (hi : i < 16) :
    lastOf (stateSets r) (flagName i) =
      if (i == 3 && hidden r) || (i == 2 && (hidden r || r == .flat)) then some (some (txt "1")) else none := by
  have h2 : ∀ n, 2 = n ∨ flagName 2 ≠ flagName n ∨ ¬ n < 16 := fun n => by
    by_cases h : n < 16
    · by_cases e : flagName 2 = flagName n
      · exact .inl (flagName_inj 2 (by decide) n h e)
      · exact .inr (.inl e)
    · exact .inr (.inr h)
  have e2 : (flagName 2 = flagName i) ↔ i = 2 :=
    ⟨fun e => (flagName_inj 2 (by decide) i hi e).symm, fun e => by rw [e]⟩
  have e3 : (flagName 3 = flagName i) ↔ i = 3 :=
    ⟨fun e => (flagName_inj 3 (by decide) i hi e).symm, fun e => by rw [e]⟩
  cases r <;> simp only [stateSets, lastOf, hidden, e2, e3] <;> by_cases h2 : i = 2 <;> by_cases h3 : i = 3 <;>
    simp [h2, h3] <;> omega

/-- what is set in the first phase -/
def initSets (e : Ev) : List (Str × Option Str) :=
  (if e.uuid = some [] then [] else [(txt "DM_UUID", e.uuid)]) ++ [(txt "DM_NAME", e.name), (txt ".DM_SUSPENDED", e.suspended)]

theorem aInit_sets {e : Ev} {x : Event} (h : Tells e x) (hr : x.readable = true) (w : World) :
    ∃ s, (s = txt "1" ↔ x.suspended = true) ∧
      aInit e w = (0, { w with suspended := some s, name := e.name, uuid := e.uuid, sets := w.sets ++ initSets e }) := by
  obtain ⟨hu, ⟨n, hn, hn'⟩, s, hs, hs'⟩ := h.readable.mp hr
  obtain ⟨u, hu⟩ := Option.isSome_iff_exists.mp hu
  refine ⟨s, ?_, ?_⟩
  · rw [h.suspended, hs]; simp
  · unfold aInit initSets
    simp only [hu, hn, hs]
    rw [if_neg (by simp [hn', hs'])]
    by_cases hu0 : u = []
    · simp [World.put, hu0]
    · simp [World.put, hu0]

/-- what is set in the first stage -/
theorem scanA_sets {e : Ev} {x : Event} (h : Tells e x) (nw : Bool) {w : World} (hw : w.ready.stored ≠ some .undefined)
    (ha : x.action ≠ .remove) (hr : x.readable = true) :
    ∃ r vsn, orPublic r = after w.ready.stored x ∧ (∀ p ∈ vsn, p = (txt "DM_UDEV_RULES_VSN", some (txt "3"))) ∧
      (vsn ≠ [] ↔ isReady r = true) ∧
      (scanA false nw e w).2.sets = initSets e ++ vsn ++
        (match (match x.cookie with | .number v => some (v / 65536) | .absent => none | .refused => w.flags) with
          | some f => flagSets f ++ stateSets r
          | none => []) := by
  have hA := scanA_ready h nw hw
  have hae : e.action ≠ .remove := by rw [h.action]; exact ha
  obtain ⟨n1, n2, n3, n4⟩ := newDev_rest (begin nw w)
  have n4 : (newDev (begin nw w)).sets = [] := n4
  have n3 : (newDev (begin nw w)).flags = w.flags := n3
  unfold scanA at hA ⊢
  rw [stageA false hae] at hA ⊢
  obtain ⟨s, hs, hi⟩ := aInit_sets h hr (newDev (begin nw w))
  have hi : fn false e .aInit (newDev (begin nw w)) = (0, { newDev (begin nw w) with
      suspended := some s, name := e.name, uuid := e.uuid, current := false,
      claim := some ((newDev (begin nw w)).claim.getD false), sets := (newDev (begin nw w)).sets ++ initSets e }) := by
    simp only [fn, andThen, hi, Int.lt_irrefl, if_false]
    rw [subInit_none]
  have h0 := newDev_ok nw hw
  rw [hi] at hA ⊢
  simp only [Int.lt_irrefl, if_false] at hA ⊢
  generalize hw1 : ({ newDev (begin nw w) with suspended := some s, name := e.name, uuid := e.uuid, current := false, claim := some ((newDev (begin nw w)).claim.getD false), sets := (newDev (begin nw w)).sets ++ initSets e } : World) = w1 at hA ⊢
  have hcur : w1.current = false := by rw [← hw1]
  obtain ⟨-, -, -, f4⟩ := fin_rest (fn false e .aPre w1).2
  obtain ⟨-, p2, -, p4⟩ := scanPre_rest h (fun _ => .stored) { w1 with ready := { w1.ready with phase := .aPre } }
  rw [← pre_none (lvm := false) hcur] at p2 p4
  have p2 : (fn false e .aPre w1).2.sets = w1.sets := p2
  have p4 : (fn false e .aPre w1).2.flags =
    (match x.cookie with | .number v => some (v / 65536) | .absent => none | .refused => w1.flags) := p4
  have b1 : w1.sets = initSets e := by rw [← hw1]; simp [n4]
  have b2 : w1.flags = w.flags := by rw [← hw1]; exact n3
  rw [b1] at p2
  rw [b2] at p4
  rw [f4]
  have hpre : ∃ r, IsIn (fn false e .aPre w1).2.ready r := by
    have hw1r : w1.ready = (newDev (begin nw w)).ready := by rw [← hw1]
    have hw1s : w1.suspended = some s := by rw [← hw1]
    have hin : IsIn ({ w1.ready with phase := .aPre }) (w.ready.stored.getD .unprocessed) := by
      rw [hw1r]; exact ⟨h0.1, h0.2.1, h0.2.2⟩
    rw [pre_none hcur]
    simp only [scanPre]
    rcases cookieProps_ok h { w1 with ready := { w1.ready with phase := .aPre } } with ⟨hc, h1⟩ | ⟨hc, h1⟩ | ⟨v, hc, h1⟩
    · rw [h1]
      exact ⟨_, hin⟩
    · rw [h1]
      simp only [hw1s, Int.lt_irrefl, if_false]
      exact ⟨_, preState_ok hin rfl e s none⟩
    · rw [h1]
      simp only [hw1s, show ¬ ((1 : Int) < 0) by decide, if_false]
      exact ⟨_, preState_ok hin rfl e s (some (v / 65536))⟩
  obtain ⟨r, hpre⟩ := hpre
  have hfin := fin_ok hpre
  have hro : orPublic r = after w.ready.stored x := by
    have := hfin.2.1.symm.trans hA.2.1
    exact Option.some.inj this
  refine ⟨r, if isReady r then [(txt "DM_UDEV_RULES_VSN", some (txt "3"))] else [], hro, ?_, ?_, ?_⟩
  · intro p hp
    split at hp
    · simpa using hp
    · cases hp
  · cases isReady r <;> simp
  · unfold aExit
    simp only [hpre.get]
    rw [show (match x.cookie with | .number v => some (v / 65536) | .absent => none | .refused => w.flags) = (fn false e .aPre w1).2.flags from p4.symm]
    cases isReady r <;> cases (fn false e .aPre w1).2.flags <;> simp [World.put, p2]

theorem flagName_other : ∀ i < 16, flagName i ≠ txt "DM_UUID" ∧ flagName i ≠ txt "DM_NAME" ∧ flagName i ≠ txt ".DM_SUSPENDED" ∧
    flagName i ≠ txt "DM_UDEV_RULES_VSN" := by decide +kernel

theorem initSets_flag {e : Ev} {i : Nat} (hi : i < 16) : lastOf (initSets e) (flagName i) = none := by
  obtain ⟨h1, h2, h3, -⟩ := flagName_other i hi
  refine lastOf_absent fun p hp => ?_
  unfold initSets at hp
  rw [List.mem_append] at hp
  rcases hp with hp | hp
  · split at hp
    · cases hp
    · rw [List.mem_singleton] at hp; rw [hp]; exact h1.symm
  · simp only [List.mem_cons, List.not_mem_nil, or_false] at hp
    rcases hp with hp | hp
    · rw [hp]; exact h2.symm
    · rw [hp]; exact h3.symm

theorem orPublic_flags {r q : Ready} (h : orPublic r = q) (v i : Nat) : flagOn v q i = flagOn v r i := by
  subst h
  unfold orPublic
  split
  · next h => subst h; rfl
  · rfl

/-- C81: after an event with a cookie, udev is told exactly the flags of the cookie that are on, and those the ready state asks
    for: rules for disks are off for devices that are not to be used or flat, other rules for devices not to be used.  This
    holds whatever the request had for these variables, and whatever was set before. -/
theorem C81_flags_told_partial {c : Ubr.Ctx} {d : Str} {db0 db : Ubr.Db} {log : List (Str × Option Str)} {keys : List Str}
    {e : Ev} {x : Event} {v : Nat} {nw : Bool} {w : World} (h : Tells e x) (hw : w.ready.stored ≠ some .undefined)
    (ha : x.action ≠ .remove) (hr : x.readable = true) (hv : x.cookie = .number v)
    (hc : c.num = some d) (hd : Spec.UbrKey.Plain d) (hne : d ≠ []) (hf : Spec.Reply.Fresh db0)
    (hs : Serve c db0 db (log ++ (scanA false nw e w).2.sets)) (he : Spec.Sync.Entries db keys) :
    ∃ o, Ubr.exportLoop { db := db } keys = some o ∧ ∀ i < 16, ∀ t,
      (flagName i, t) ∈ o.udev ↔ t = txt "1" ∧ flagOn v (after w.ready.stored x) i = true := by
  obtain ⟨o, h1, -, h3, -⟩ := C79_reply_is_what_was_set hc hd hne hf hs he
  obtain ⟨r, vsn, e1, e2, -, e4⟩ := scanA_sets h nw hw ha hr
  refine ⟨o, h1, fun i hi t => ?_⟩
  rw [h3, e4, hv]
  simp only
  rw [lastOf_append, lastOf_append _ (flagSets _ ++ stateSets _), lastOf_append (flagSets _), lastOf_flagSets hi,
    lastOf_stateSets r hi, testBit_flags, orPublic_flags e1]
  unfold flagOn
  generalize (i == 3 && hidden r) = a
  generalize (i == 2 && (hidden r || r == .flat)) = b
  cases v.testBit (16 + i) <;> cases a <;> cases b <;> simp [eq_comm] <;> intro h <;> subst h <;> decide

theorem flagSets_other {f : Nat} {n : Str} (h : ∀ i < 16, flagName i ≠ n) : lastOf (flagSets f) n = none := by
  refine lastOf_absent fun p hp => ?_
  unfold flagSets at hp
  obtain ⟨i, hi, rfl⟩ := List.mem_map.mp hp
  exact h i (List.mem_range.mp hi)

theorem stateSets_other {r : Ready} {n : Str} (h : ∀ i < 16, flagName i ≠ n) : lastOf (stateSets r) n = none := by
  have h2 := h 2 (by decide)
  have h3 := h 3 (by decide)
  cases r <;> simp [stateSets, lastOf, h2, h3]

/-- C81: whatever the event, udev is told the name of the device and its identifier, if it has one.  The version of the rules
    is told for devices that are ready, and for others only if the request had it. -/
theorem C81_name_told {c : Ubr.Ctx} {d : Str} {db0 db : Ubr.Db} {log : List (Str × Option Str)} {keys : List Str}
    {e : Ev} {x : Event} {nw : Bool} {w : World} (h : Tells e x) (hw : w.ready.stored ≠ some .undefined)
    (ha : x.action ≠ .remove) (hr : x.readable = true)
    (hc : c.num = some d) (hd : Spec.UbrKey.Plain d) (hne : d ≠ []) (hf : Spec.Reply.Fresh db0)
    (hs : Serve c db0 db (log ++ (scanA false nw e w).2.sets)) (he : Spec.Sync.Entries db keys) :
    ∃ o, Ubr.exportLoop { db := db } keys = some o ∧ ∀ t,
      ((txt "DM_NAME", t) ∈ o.udev ↔ e.name = some t) ∧
      (e.uuid ≠ some [] → ((txt "DM_UUID", t) ∈ o.udev ↔ e.uuid = some t)) ∧
      (after w.ready.stored x ≠ .isPublic → isReady (after w.ready.stored x) = true →
        ((txt "DM_UDEV_RULES_VSN", t) ∈ o.udev ↔ t = txt "3")) ∧
      (isReady (after w.ready.stored x) = false →
        ((txt "DM_UDEV_RULES_VSN", t) ∈ o.udev ↔ lastOf log (txt "DM_UDEV_RULES_VSN") = some (some t) ∧ t ≠ [])) := by
  obtain ⟨o, h1, -, h3, -⟩ := C79_reply_is_what_was_set hc hd hne hf hs he
  obtain ⟨r, vsn, e1, e2, e3, e4⟩ := scanA_sets h nw hw ha hr
  refine ⟨o, h1, fun t => ?_⟩
  obtain ⟨hu, ⟨n, hn, hn'⟩, s, hss, hs'⟩ := h.readable.mp hr
  obtain ⟨u, hu⟩ := Option.isSome_iff_exists.mp hu
  have hfl : ∀ m, (∀ i < 16, flagName i ≠ m) → lastOf (scanA false nw e w).2.sets m = lastOf (initSets e ++ vsn) m := by
    intro m hm
    rw [e4, lastOf_append]
    generalize (match x.cookie with | .number v => some (v / 65536) | .absent => none | .refused => w.flags) = ff
    cases ff with
    | none => rfl
    | some f =>
      simp only
      rw [lastOf_append, flagSets_other hm, stateSets_other hm]
      rfl
  have hv : ∀ m, txt "DM_UDEV_RULES_VSN" ≠ m → lastOf vsn m = none :=
    fun m hm => lastOf_absent fun p hp => by rw [e2 p hp]; exact hm
  have hvi : lastOf (initSets e) (txt "DM_UDEV_RULES_VSN") = none := by
    refine lastOf_absent fun p hp => ?_
    unfold initSets at hp
    rw [List.mem_append] at hp
    rcases hp with hp | hp
    · split at hp
      · cases hp
      · rw [List.mem_singleton] at hp; rw [hp]; show txt _ ≠ txt _; decide
    · simp only [List.mem_cons, List.not_mem_nil, or_false] at hp
      rcases hp with hp | hp <;> rw [hp] <;> show txt _ ≠ txt _ <;> decide
  refine ⟨?_, fun hue => ?_, fun hp hy => ?_, fun hy => ?_⟩
  · rw [h3, lastOf_append, hfl _ fun i hi => (flagName_other i hi).2.1, lastOf_append, hv _ (by decide)]
    have : lastOf (initSets e) (txt "DM_NAME") = some (some n) := by
      unfold initSets
      rw [lastOf_append, hn]
      simp [lastOf, show txt ".DM_SUSPENDED" ≠ txt "DM_NAME" by decide]
    rw [this, hn]
    simp only [Option.or, Option.some.injEq]
    exact ⟨fun h => h.1, fun h => ⟨h, h ▸ hn'⟩⟩
  · rw [h3, lastOf_append, hfl _ fun i hi => (flagName_other i hi).1, lastOf_append, hv _ (by decide)]
    have : lastOf (initSets e) (txt "DM_UUID") = some (some u) := by
      unfold initSets
      rw [lastOf_append, if_neg hue, hu]
      simp [lastOf, show txt ".DM_SUSPENDED" ≠ txt "DM_UUID" by decide, show txt "DM_NAME" ≠ txt "DM_UUID" by decide]
    rw [this, hu]
    simp only [Option.or, Option.some.injEq]
    exact ⟨fun h => h.1, fun h => ⟨h, fun h0 => hue (by rw [hu, h, h0])⟩⟩
  · have hre : r = after w.ready.stored x := by
      rw [← e1]
      unfold orPublic
      split
      · next hh => exact absurd (by rw [← e1, orPublic, if_pos hh]) hp
      · rfl
    have hvn := e3.mpr (by rw [hre]; exact hy)
    have : lastOf vsn (txt "DM_UDEV_RULES_VSN") = some (some (txt "3")) := by
      clear e4 hfl hv e3
      induction vsn with
      | nil => exact absurd rfl hvn
      | cons p l ih =>
        have hp := e2 p (by simp)
        subst hp
        rw [lastOf, if_pos rfl]
        cases l with
        | nil => rfl
        | cons q l => rw [ih (fun y hy => e2 y (by simp [hy])) (by simp)]; rfl
    rw [h3, lastOf_append, hfl _ fun i hi => (flagName_other i hi).2.2.2, lastOf_append, this]
    simp only [Option.or, Option.some.injEq]
    exact ⟨fun h => h.1.symm, fun h => ⟨h.symm, by rw [h]; decide⟩⟩
  · have hvn : vsn = [] := by
      cases hq : vsn with
      | nil => rfl
      | cons p l =>
        have hir := e3.mp (by rw [hq]; simp)
        have : isReady (orPublic r) = true := by
          unfold orPublic
          split
          · rfl
          · exact hir
        rw [e1, hy] at this
        cases this
    rw [h3, lastOf_append, hfl _ fun i hi => (flagName_other i hi).2.2.2, lastOf_append, hvi, hvn]
    simp [lastOf]

/-- C81 is false of events without a cookie: no flag is set, also for a device that is private, so that udev is told what the
    request had for them. -/
theorem C81_no_cookie_counterexample {c : Ubr.Ctx} {d : Str} {db0 db : Ubr.Db} {log : List (Str × Option Str)} {keys : List Str}
    {e : Ev} {x : Event} {nw : Bool} {w : World} (h : Tells e x) (hw : w.ready.stored = some .isPrivate)
    (ha : x.action ≠ .remove) (hr : x.readable = true) (hv : x.cookie = .absent) (hu : x.suspended = false)
    (hc : c.num = some d) (hd : Spec.UbrKey.Plain d) (hne : d ≠ []) (hf : Spec.Reply.Fresh db0)
    (hs : Serve c db0 db (log ++ (scanA false nw e w).2.sets)) (he : Spec.Sync.Entries db keys)
    (hl : ∀ p ∈ log, ∀ i < 16, p.1 ≠ flagName i) :
    after w.ready.stored x = .isPrivate ∧
    ∃ o, Ubr.exportLoop { db := db } keys = some o ∧ ∀ i < 16, ∀ t, (flagName i, t) ∉ o.udev := by
  have haf : after w.ready.stored x = .isPrivate := by
    unfold after
    simp [hw, ha, hr, hv, hu, orPublic]
  refine ⟨haf, ?_⟩
  obtain ⟨o, h1, -, h3, -⟩ := C79_reply_is_what_was_set hc hd hne hf hs he
  obtain ⟨r, vsn, e1, e2, -, e4⟩ := scanA_sets h nw (by rw [hw]; simp) ha hr
  refine ⟨o, h1, fun i hi t hm => ?_⟩
  have hm := ((h3 _ _).mp hm).1
  rw [e4, hv] at hm
  simp only [List.append_nil] at hm
  have hvs : lastOf vsn (flagName i) = none :=
    lastOf_absent fun p hp => by rw [e2 p hp]; exact (flagName_other i hi).2.2.2.symm
  rw [lastOf_append, lastOf_append, hvs, initSets_flag hi, lastOf_absent fun p hp => hl p hp i hi] at hm
  cases hm

/-! ### the hypotheses are met -/

/-- a device is made, it has no table yet -/
def evAdd : Ev := ⟨none, .add, false, some (txt "LVM-x"), some (txt "vg-lv"), some (txt "0")⟩

/-- it is resumed, with a cookie that asks for no other rules -/
def evResume : Ev := ⟨some (decimal 528948), .change, false, some (txt "LVM-x"), some (txt "vg-lv"), some (txt "0")⟩

/-- it is found suspended -/
def evSuspended : Ev := ⟨none, .change, false, some (txt "LVM-x"), some (txt "vg-lv"), some (txt "1")⟩

/-- it is removed -/
def evRemove : Ev := ⟨some (decimal 528949), .remove, false, none, none, none⟩

/-- an event with a text that is no cookie -/
def evBad : Ev := ⟨some (txt "12z"), .change, false, some [], some (txt "vg-lv"), some (txt "0")⟩

theorem tellsAdd : Tells evAdd ⟨.absent, .add, false, true, false⟩ :=
  ⟨rfl, rfl, rfl, ⟨fun _ => ⟨rfl, ⟨_, rfl, by decide⟩, _, rfl, by decide⟩, fun _ => rfl⟩, by decide⟩

theorem tellsResume : Tells evResume ⟨.number 528948, .change, false, true, false⟩ :=
  ⟨⟨by decide, by decide, rfl⟩, rfl, rfl, ⟨fun _ => ⟨rfl, ⟨_, rfl, by decide⟩, _, rfl, by decide⟩, fun _ => rfl⟩, by decide⟩

theorem tellsSuspended : Tells evSuspended ⟨.absent, .change, false, true, true⟩ :=
  ⟨rfl, rfl, rfl, ⟨fun _ => ⟨rfl, ⟨_, rfl, by decide⟩, _, rfl, by decide⟩, fun _ => rfl⟩, by decide⟩

theorem tellsRemove : Tells evRemove ⟨.number 528949, .remove, false, false, false⟩ :=
  ⟨⟨by decide, by decide, rfl⟩, rfl, rfl, ⟨nofun, fun h => by cases h.1⟩, ⟨nofun, nofun⟩⟩

theorem tellsBad : Tells evBad ⟨.refused, .change, false, true, false⟩ :=
  ⟨⟨_, rfl, .inl ⟨122, by decide, rfl⟩⟩, rfl, rfl, ⟨fun _ => ⟨rfl, ⟨_, rfl, by decide⟩, _, rfl, by decide⟩, fun _ => rfl⟩, by decide⟩

/-- the life of a device -/
def evLife : List (Bool × Ev × Event) :=
  [(true, evAdd, ⟨.absent, .add, false, true, false⟩), (true, evResume, ⟨.number 528948, .change, false, true, false⟩),
    (true, evSuspended, ⟨.absent, .change, false, true, true⟩), (true, evBad, ⟨.refused, .change, false, true, false⟩),
    (true, evRemove, ⟨.number 528949, .remove, false, false, false⟩)]

theorem evLife_tells : ∀ t ∈ evLife, Tells t.2.1 t.2.2 ∧ t.1 = true := by
  intro t ht
  simp only [evLife, List.mem_cons, List.not_mem_nil, or_false] at ht
  rcases ht with h | h | h | h | h <;> subst h
  · exact ⟨tellsAdd, rfl⟩
  · exact ⟨tellsResume, rfl⟩
  · exact ⟨tellsSuspended, rfl⟩
  · exact ⟨tellsBad, rfl⟩
  · exact ⟨tellsRemove, rfl⟩

example : (dmRun evLife).completed = [4660, 4661] := by
  rw [C82_completed_once_partial evLife evLife_tells]; rfl

example : dmSeen evLife = .unavailable := by
  rw [dmSeen_eq fun t ht => (evLife_tells t ht).1]; rfl

example : dmSeen (evLife.take 2) = .isPrivate := by
  have := C80_resume_decides (hist := evLife.take 1) (t := (true, evResume, ⟨.number 528948, .change, false, true, false⟩)) (v := 528948)
    (fun t ht => (evLife_tells t (by
      simp only [evLife, List.take, List.cons_append, List.nil_append, List.mem_cons, List.not_mem_nil, or_false] at ht ⊢
      rcases ht with h | h <;> simp [h])).1) rfl rfl rfl rfl rfl
  exact this

/-- the variables are set one after the other, nobody has reserved them -/
def serveAll (c : Ubr.Ctx) (m : Str) : List (Str × Option Str) → Ubr.Db → Option Ubr.Db
  | [], db => some db
  | (n, v) :: l, db =>
    match Ubr.kvSet db c m ⟨.udev, n, Spec.Reply.bytes v, 0⟩ with
    | some (_, db') =>
      if Ubr.argsOk .udev n = true ∧ (v.any fun t => t.contains 0) = false ∧
        ((db'.recs (Spec.Reply.varKey (Ubr.orNull c.num) n)).any fun r => r.val == .scalar ((Spec.Reply.bytes v).getD [])) = true
      then serveAll c m l db' else none
    | none => none

theorem serveAll_serve {c : Ubr.Ctx} {m : Str} {db0 : Ubr.Db} (l : List (Str × Option Str)) {db db' : Ubr.Db}
    {log : List (Str × Option Str)} (hs : Serve c db0 db log) (h : serveAll c m l db = some db') : Serve c db0 db' (log ++ l) := by
  induction l generalizing db log with
  | nil =>
    cases h
    rw [List.append_nil]
    exact hs
  | cons p l ih =>
    obtain ⟨n, v⟩ := p
    unfold serveAll at h
    cases hk : Ubr.kvSet db c m ⟨.udev, n, Spec.Reply.bytes v, 0⟩ with
    | none => rw [hk] at h; cases h
    | some q =>
      rw [hk] at h
      obtain ⟨rc, db1⟩ := q
      simp only at h
      split at h
      · next hc =>
        obtain ⟨h1, h2, h3⟩ := hc
        rw [show log ++ (n, v) :: l = (log ++ [(n, v)]) ++ l by simp]
        refine ih (Serve.accepted hs ?_ hk ?_) h
        · intro t ht hm
          subst ht
          simp [hm] at h2
        · refine (Ubr.holds_iff h1).mpr ?_
          cases hr : db1.recs (Spec.Reply.varKey (Ubr.orNull c.num) n) with
          | none => rw [hr] at h3; cases h3
          | some r =>
            rw [hr] at h3
            exact ⟨r, _, rfl, by simpa using h3, Spec.Reply.text_bytes v⟩
      · cases h

/-- the device of the examples, known as private -/
def dmPrivate : World := { unknown with ready := { unknown.ready with stored := some .isPrivate } }

/-- a resumed device is served -/
example : ∃ db, Serve dev80 Ubr.Db.empty db ([] ++ (scanA false true evResume unknown).2.sets) ∧ Spec.Reply.Fresh Ubr.Db.empty ∧
    flagOn 528948 (after unknown.ready.stored ⟨.number 528948, .change, false, true, false⟩) 3 = true ∧
    flagOn 528948 (after unknown.ready.stored ⟨.number 528948, .change, false, true, false⟩) 4 = false := by
  have h : (serveAll dev80 (txt "/dm") (scanA false true evResume unknown).2.sets Ubr.Db.empty).isSome = true := by decide +kernel
  obtain ⟨db, hdb⟩ := Option.isSome_iff_exists.mp h
  exact ⟨db, serveAll_serve _ .start hdb, ⟨fun _ _ => rfl, fun _ _ => rfl⟩, by decide, by decide⟩

/-- a private device, and an event without a cookie -/
example : ∃ db, Serve dev80 Ubr.Db.empty db ([] ++ (scanA false true evAdd dmPrivate).2.sets) ∧ dmPrivate.ready.stored = some .isPrivate := by
  have h : (serveAll dev80 (txt "/dm") (scanA false true evAdd dmPrivate).2.sets Ubr.Db.empty).isSome = true := by decide +kernel
  obtain ⟨db, hdb⟩ := Option.isSome_iff_exists.mp h
  exact ⟨db, serveAll_serve _ .start hdb, rfl⟩

end Sid.Props
