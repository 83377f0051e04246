import Verif.Spec.DmLvm
import Verif.Props.Dm
/-
C83, C84: logical volumes of LVM.
-/
namespace Sid.Props
open Sid.DevState Sid.Dm Sid.Spec.Dm
open Sid.Event (Action)
open Sid.Spec.Client (decimal)
open Sid.Ifc (txt)
open Sid.Spec.Reply (Serve lastOf)

/-! ### composed names -/

theorem quote_cons (c : UInt8) (s : Str) : quote (c :: s) = (if c = 45 then [45, 45] else [c]) ++ quote s := rfl

theorem unquote_quote (s : Str) : unquote (quote s) = (s, []) := by
  induction s with
  | nil => rfl
  | cons c s ih =>
    rw [quote_cons]
    by_cases hc : c = 45
    · subst hc
      simp [unquote, ih]
    · rw [if_neg hc]
      cases hq : quote s with
      | nil =>
        rw [hq] at ih
        rw [unquote] at ih
        have : s = [] := by injection ih with h _; exact h.symm
        subst this
        rfl
      | cons d t =>
        rw [hq] at ih
        show unquote (c :: d :: t) = _
        rw [unquote, if_neg hc, ih]

theorem unquote_hyphen (s : Str) {d : UInt8} {t : Str} (hd : d ≠ 45) : unquote (quote s ++ 45 :: d :: t) = (s, d :: t) := by
  induction s with
  | nil =>
    show unquote (45 :: d :: t) = _
    rw [unquote, if_pos rfl, if_neg hd]
  | cons c s ih =>
    rw [quote_cons]
    by_cases hc : c = 45
    · subst hc
      simp [unquote, ih]
    · rw [if_neg hc]
      show unquote (c :: (quote s ++ 45 :: d :: t)) = _
      cases hq : quote s ++ 45 :: d :: t with
      | nil => simp at hq
      | cons a b =>
        rw [hq] at ih
        rw [unquote, if_neg hc, ih]

theorem quote_head {s : Str} (h : s ≠ []) (hh : s.head? ≠ some 45) : ∃ d t, quote s = d :: t ∧ d ≠ 45 := by
  cases s with
  | nil => exact absurd rfl h
  | cons c s =>
    have hc : c ≠ 45 := by simpa using hh
    exact ⟨c, quote s, by rw [quote_cons, if_neg hc]; rfl, hc⟩

/-- C83: whatever the names, hyphens included: the names found in the device-mapper name are those it was composed of. -/
theorem C83_names_found {vg lv layer : Str} (h : Names vg lv layer) : components (dmName vg lv layer) = (vg, lv, layer) := by
  obtain ⟨d, t, hq, hd⟩ := quote_head h.volume h.first
  unfold components dmName
  by_cases hl : layer = []
  · subst hl
    have e1 : unquote (quote vg ++ [45] ++ quote lv) = (vg, quote lv) := by
      rw [hq]
      simpa using unquote_hyphen vg hd
    rw [if_pos rfl, List.append_nil]
    simp only [e1, unquote_quote]
    rfl
  · obtain ⟨d', t', hq', hd'⟩ := quote_head hl h.firstLayer
    have e1 : unquote (quote vg ++ [45] ++ quote lv ++ (if layer = [] then [] else [45] ++ quote layer)) =
        (vg, quote lv ++ 45 :: quote layer) := by
      rw [if_neg hl, hq]
      simpa using unquote_hyphen vg hd (t := t ++ 45 :: quote layer)
    have e2 : unquote (quote lv ++ 45 :: quote layer) = (lv, quote layer) := by
      rw [hq']
      exact unquote_hyphen lv hd'
    simp only [e1, e2, unquote_quote]

/-- a device-mapper name without a hyphen is not composed -/
theorem unquote_plain {s : Str} (h : ∀ c ∈ s, c ≠ 45) : unquote s = (s, []) := by
  induction s with
  | nil => rfl
  | cons c s ih =>
    have hc := h c (by simp)
    have ih := ih fun d hd => h d (by simp [hd])
    cases s with
    | nil => rfl
    | cons d t => rw [unquote, if_neg hc, ih]

/-! ### the first phase -/

/-- what the submodule sets -/
def lvSets (vg lv layer : Str) : List (Str × Option Str) :=
  [(txt "DM_VG_NAME", some vg), (txt "DM_LV_NAME", some lv)] ++ (if layer = [] then [] else [(txt "DM_LV_LAYER", some layer)])

theorem lvmMatch_uuid {w : World} (h : LvmUuid w.uuid) : lvmMatch w = true := by
  obtain ⟨t, ht⟩ := h
  unfold lvmMatch
  rw [ht]
  show (List.take 4 (76 :: 86 :: 77 :: 45 :: t) == [76, 86, 77, 45]) = true
  simp

theorem whichSub_lv {w : World} (h : w.claim = some true ∨ w.claim = none ∧ LvmUuid w.uuid) : whichSub true w = true := by
  unfold whichSub
  rcases h with h | ⟨h, hu⟩
  · rw [h]
  · rw [h]
    simp [lvmMatch_uuid hu]

theorem subInit_lv {w : World} {vg lv layer : Str} (hc : w.claim = some true ∨ w.claim = none ∧ LvmUuid w.uuid)
    (hn : w.name = some (dmName vg lv layer)) (h : Names vg lv layer) :
    subInit true w = (0, { w with current := true, claim := some true, sets := w.sets ++ lvSets vg lv layer }) := by
  unfold subInit
  simp only [whichSub_lv hc, if_true]
  have hcl : some (w.claim.getD true) = some true := by rcases hc with h | ⟨h, -⟩ <;> rw [h] <;> rfl
  unfold lvmInit
  simp only [hn, C83_names_found h, h.group, h.volume, or_self, if_false, hcl]
  unfold lvSets World.put
  by_cases hl : layer = []
  · simp [hl]
  · simp [hl]

theorem init_lv {e : Ev} {x : Event} (h : Tells e x) (hr : x.readable = true) {vg lv layer : Str} (hl : IsLv e vg lv layer)
    {w : World} (hc : w.claim = some true ∨ w.claim = none) :
    ∃ s, (s = txt "1" ↔ x.suspended = true) ∧
      fn true e .aInit w = (0, { w with
        suspended := some s, name := e.name, uuid := e.uuid, claim := some true, current := true, sets := w.sets ++ initSets e ++ lvSets vg lv layer }) := by
  obtain ⟨s, hs, hi⟩ := aInit_sets h hr w
  refine ⟨s, hs, ?_⟩
  simp only [fn, andThen, hi, Int.lt_irrefl, if_false]
  rw [subInit_lv (vg := vg) (lv := lv) (layer := layer) _ hl.name hl.names]
  rcases hc with hc | hc
  · exact .inl hc
  · exact .inr ⟨hc, hl.uuid⟩

/-! ### the ready state -/

/-- the module itself took the event -/
theorem preState_code {c : DevState.Ctx Ready} {r : Ready} (h : IsIn c r) (hp : c.phase = .aPre) (e : Ev) (s : Str)
    (cookie : Option Nat) :
    (preState (fun _ => .stored) e s cookie.isSome (cookie.getD 0) c).2.phase = .aPre ∧
    ((preState (fun _ => .stored) e s cookie.isSome (cookie.getD 0) c).1 < 0 ↔
      cookie.isSome = true ∧ (e.synth = true ∨ e.action ≠ .change)) := by
  have hg := h.get
  unfold preState
  simp only [hg]
  have h' : IsIn { c with cached := r } r := ⟨h.1, h.2.1, .inr rfl⟩
  have hcap : capReady ({ c with cached := r } : DevState.Ctx Ready).phase = true := by rw [show _ = c.phase from rfl, hp]; rfl
  by_cases hb : cookie.isSome = true ∧ (e.synth = true ∨ e.action ≠ .change)
  · rw [if_pos hb]
    exact ⟨hp, by simp [hb]⟩
  · rw [if_neg hb]
    have good : ∀ q : Int × DevState.Ctx Ready, q.1 = 0 → q.2.phase = c.phase →
        q.2.phase = .aPre ∧ (q.1 < 0 ↔ cookie.isSome = true ∧ (e.synth = true ∨ e.action ≠ .change)) := by
      intro q h1 h2
      exact ⟨h2.trans hp, by rw [h1]; simp [hb]⟩
    have hset : ∀ n, readyOk r n = true → (Dm.setReady (fun _ => .stored) { c with cached := r } n).1 = 0 ∧
        (Dm.setReady (fun _ => .stored) { c with cached := r } n).2.phase = c.phase :=
      fun n hn => ⟨(h'.set hcap rfl hn).1, (h'.set hcap rfl hn).2.2.1⟩
    have hun : readyOk r .unavailable = true := by simp [readyOk, h.1]
    have hbf := hset _ (byFlags_ok (cookie.getD 0) h.1)
    by_cases hs : s = txt "1"
    · rw [if_pos hs]
      exact good _ (hset _ hun).1 (hset _ hun).2
    · rw [if_neg hs]
      unfold readySwitch
      cases r with
      | undefined => exact absurd rfl h.1
      | removed => exact good _ rfl rfl
      | uninitialized => exact good _ rfl rfl
      | unprocessed =>
        simp only [unprocessed]
        obtain ⟨h1, h2, h3, h4⟩ := h'.set hcap rfl (n := .unconfigured) rfl
        by_cases hcs : cookie.isSome = true
        · simp only [hcs, if_true]
          rw [if_neg (by rw [h1]; decide)]
          simp only [unconfigured, if_true]
          have := h2.set (by rw [h3]; exact hcap) h4 (byFlags_ok (cookie.getD 0) (by simp))
          simp only [hcs] at good
          exact good _ this.1 (this.2.2.1.trans h3)
        · rw [if_neg hcs]
          split
          · exact good _ (hset .isPublic rfl).1 (hset .isPublic rfl).2
          · split
            · exact good _ h1 h3
            · exact good _ rfl rfl
      | unconfigured =>
        simp only [unconfigured]
        split
        · exact good _ hbf.1 hbf.2
        · exact good _ rfl rfl
      | isPrivate =>
        simp only
        split
        · exact good _ hbf.1 hbf.2
        · exact good _ rfl rfl
      | flat =>
        simp only
        split
        · exact good _ hbf.1 hbf.2
        · exact good _ rfl rfl
      | unavailable =>
        simp only
        split
        · exact good _ hbf.1 hbf.2
        · exact good _ rfl rfl
      | isPublic =>
        simp only
        split
        · exact good _ hbf.1 hbf.2
        · exact good _ rfl rfl

/-- what the submodule makes of the state -/
def lvNext (init : Bool) (r : Ready) : Ready :=
  if init then (if r = .isPublic ∨ r = .isPrivate then .uninitialized else r)
  else if r = .uninitialized then .isPublic else r

theorem lvmPre_ok {w : World} {r : Ready} (h : IsIn w.ready r) (hp : w.ready.phase = .aPre) :
    IsIn (lvmPre (fun _ => .stored) w).2.ready (lvNext (w.flags.any fun f => f.testBit 8) r) := by
  have h8 : (w.flags.any fun f => decide (f &&& 0x100 ≠ 0)) = w.flags.any fun f => f.testBit 8 := by
    cases w.flags with
    | none => rfl
    | some f =>
      simp only [Option.any_some]
      rw [Bool.eq_iff_iff, decide_eq_true_iff]
      exact and_pow_ne (k := 8)
  have h' : IsIn { w.ready with cached := r } r := ⟨h.1, h.2.1, .inr rfl⟩
  have hcap : capReady ({ w.ready with cached := r } : DevState.Ctx Ready).phase = true := by
    rw [show _ = w.ready.phase from rfl, hp]; rfl
  have hset : ∀ n, readyOk r n = true → IsIn (Dm.setReady (fun _ => .stored) { w.ready with cached := r } n).2 n :=
    fun n hn => (h'.set hcap rfl hn).2.1
  unfold lvmPre
  simp only [h.get]
  unfold lvmSwitch lvNext
  simp only [h8]
  generalize (w.flags.any fun f => f.testBit 8) = b
  cases r with
  | undefined => exact absurd rfl h.1
  | isPublic => cases b; · simpa using h'
                · simpa using hset .uninitialized rfl
  | isPrivate => cases b; · simpa using h'
                 · simpa using hset .uninitialized rfl
  | uninitialized => cases b; · simpa using hset .isPublic rfl
                     · simpa using h'
  | removed => cases b <;> simpa using h'
  | unprocessed => cases b <;> simpa using h'
  | unconfigured => cases b <;> simpa using h'
  | flat => cases b <;> simpa using h'
  | unavailable => cases b <;> simpa using h'

theorem lvmPre_rest (kv : Ready → KvOutcome) (w : World) : ∃ c, (lvmPre kv w).2 = { w with ready := c } := ⟨_, rfl⟩

/-- the second phase for a volume: what the module makes of it, then what the submodule makes of it -/
theorem pre_lv {e : Ev} {x : Event} (h : Tells e x) {w : World} {r : Ready} {s : Str} (hin : IsIn w.ready r)
    (hs : w.suspended = some s) (hc : w.current = true) :
    let q := preAll x.cookie r e s
    IsIn (fn true e .aPre w).2.ready
      (if accepted x then lvNext (initialising x) q else q) ∧
    (fn true e .aPre w).2.completed = w.completed ∧ (fn true e .aPre w).2.sets = w.sets ∧
    (fn true e .aPre w).2.base = (match x.cookie with | .number v => some (v % 65536) | _ => w.base) ∧
    (fn true e .aPre w).2.flags = (match x.cookie with | .number v => some (v / 65536) | .absent => none | .refused => w.flags) ∧
    (fn true e .aPre w).2.claim = w.claim ∧ (fn true e .aPre w).2.name = w.name ∧
    (fn true e .aPre w).2.current = w.current := by
  intro q
  have hin : IsIn ({ w.ready with phase := .aPre }) r := ⟨hin.1, hin.2.1, hin.2.2⟩
  unfold fn andThen
  simp only [scanPre]
  rcases cookieProps_ok h { w with ready := { w.ready with phase := .aPre } } with ⟨hx, h1⟩ | ⟨hx, h1⟩ | ⟨v, hx, h1⟩
  · have hq : q = r := by simp only [q, preAll, hx]
    have ha : accepted x = false := by unfold accepted; rw [hx]
    rw [h1, hq, hx, ha]
    simpa using hin
  · have hq : q = preNext r e s none := by simp only [q, preAll, hx]
    have e1 := preState_ok hin rfl e s none
    obtain ⟨e2, e3⟩ := preState_code hin rfl e s none
    simp only [Option.isSome_none, Option.getD_none] at e1 e2 e3
    rw [h1, hq, hx]
    simp only [hs, Int.lt_irrefl, if_false, hc, if_true, show ((0 : Int) == 1) = false from rfl]
    have e3 : ¬ (preState (fun _ => .stored) e s false 0 { w.ready with phase := .aPre }).1 < 0 := by rw [e3]; simp
    simp only [e3, if_false, Int.lt_irrefl]
    generalize preState (fun _ => .stored) e s false 0 { w.ready with phase := .aPre } = p at e1 e2 e3 ⊢
    obtain ⟨p1, p2⟩ := p
    have := lvmPre_ok (w := { w with ready := p2, flags := none }) e1 e2
    refine ⟨?_, rfl, rfl, rfl, rfl, rfl, rfl, rfl⟩
    have hi : initialising x = false := by unfold initialising; rw [hx]
    have ha : accepted x = true := by unfold accepted; rw [hx]
    rw [if_pos ha, hi]
    exact this
  · have hq : q = preNext r e s (some (v / 65536)) := by simp only [q, preAll, hx]
    have e1 := preState_ok hin rfl e s (some (v / 65536))
    obtain ⟨e2, e3⟩ := preState_code hin rfl e s (some (v / 65536))
    simp only [Option.isSome_some, Option.getD_some, true_and] at e1 e2 e3
    rw [h1, hq, hx]
    simp only [hs, show ¬ ((1 : Int) < 0) by decide, if_false, hc, if_true, show ((1 : Int) == 1) = true from rfl]
    rw [h.synth, h.action] at e3
    generalize preState (fun _ => .stored) e s true (v / 65536) { w.ready with phase := .aPre } = p at e1 e2 e3 ⊢
    obtain ⟨p1, p2⟩ := p
    have ha : accepted x = true ↔ ¬ (x.synth = true ∨ x.action ≠ .change) := by
      unfold accepted
      rw [hx]
      simp
    by_cases hb : x.synth = true ∨ x.action ≠ .change
    · have e3 := e3.mpr hb
      simp only at e3
      simp only [e3, if_true, show (-1 : Int) < 0 by decide]
      rw [if_neg (fun hh => ha.mp hh hb)]
      exact ⟨e1, trivial, trivial, trivial, trivial, trivial, trivial, trivial⟩
    · have e3 : ¬ p1 < 0 := fun hh => hb (e3.mp hh)
      simp only [e3, if_false, Int.lt_irrefl]
      rw [if_pos (ha.mpr hb)]
      have := lvmPre_ok (w := { w with ready := p2, base := some (v % 65536), flags := some (v / 65536) }) e1 e2
      refine ⟨?_, rfl, rfl, rfl, rfl, rfl, rfl, rfl⟩
      have hi : initialising x = (v / 65536).testBit 8 := by unfold initialising; rw [hx, testBit_flags]
      rw [hi]
      exact this

theorem newDev_lv (w : World) : (newDev w).claim = w.claim ∧ (newDev w).name = w.name ∧ (newDev w).current = w.current ∧
    (newDev w).uuid = w.uuid := by
  unfold newDev
  split <;> exact ⟨rfl, rfl, rfl, rfl⟩

theorem fin_lv (w : World) : (fin w).claim = w.claim ∧ (fin w).name = w.name ∧ (fin w).current = w.current ∧
    (fin w).uuid = w.uuid := by
  have h1 : ∀ w : World, (aExit w).2.claim = w.claim ∧ (aExit w).2.name = w.name ∧ (aExit w).2.current = w.current ∧
      (aExit w).2.uuid = w.uuid := by
    intro w
    unfold aExit
    dsimp only
    split <;> split <;> exact ⟨rfl, rfl, rfl, rfl⟩
  have h2 : ∀ w : World, (defReady w).claim = w.claim ∧ (defReady w).name = w.name ∧ (defReady w).current = w.current ∧
      (defReady w).uuid = w.uuid := by
    intro w
    unfold defReady
    split <;> exact ⟨rfl, rfl, rfl, rfl⟩
  have h3 : ∀ w : World, (defRes w).claim = w.claim ∧ (defRes w).name = w.name ∧ (defRes w).current = w.current ∧
      (defRes w).uuid = w.uuid := by
    intro w
    unfold defRes
    split <;> exact ⟨rfl, rfl, rfl, rfl⟩
  unfold fin
  obtain ⟨a1, a2, a3, a4⟩ := h1 w
  obtain ⟨b1, b2, b3, b4⟩ := h2 (load (aExit w).2)
  obtain ⟨c1, c2, c3, c4⟩ := h3 (loadRes (defReady (load (aExit w).2)))
  refine ⟨?_, ?_, ?_, ?_⟩
  · rw [c1]; exact b1.trans a1
  · rw [c2]; exact b2.trans a2
  · rw [c3]; exact b3.trans a3
  · rw [c4]; exact b4.trans a4

/-- the default for devices nobody decided about, after the submodule -/
theorem orPublic_lv (init : Bool) (q : Ready) (h : init = true → q ≠ .unprocessed) :
    orPublic (lvNext init q) = lvNext init (orPublic q) := by
  cases init
  · cases q <;> rfl
  · have := h rfl
    cases q <;> first | rfl | exact absurd rfl this

/-- the first stage of the scan of a volume -/
theorem scanA_lv {e : Ev} {x : Event} (h : Tells e x) (hsc : scanned x = true) {vg lv layer : Str} (hl : IsLv e vg lv layer)
    (nw : Bool) {w : World} (hw : w.ready.stored ≠ some .undefined) (hc : w.claim = some true ∨ w.claim = none) :
    ∃ r vsn, (scanA true nw e w).1 = 0 ∧ IsIn (scanA true nw e w).2.ready (afterLvm w.ready.stored x) ∧
      orPublic r = afterLvm w.ready.stored x ∧ (∀ p ∈ vsn, p = (txt "DM_UDEV_RULES_VSN", some (txt "3"))) ∧
      (scanA true nw e w).2.claim = some true ∧ (scanA true nw e w).2.name = e.name ∧
      (scanA true nw e w).2.current = true ∧
      (scanA true nw e w).2.completed = w.completed ∧
      (scanA true nw e w).2.base = (match x.cookie with | .number v => some (v % 65536) | _ => (begin nw w).base) ∧
      (scanA true nw e w).2.sets = initSets e ++ lvSets vg lv layer ++ vsn ++
        (match (match x.cookie with | .number v => some (v / 65536) | .absent => none | .refused => w.flags) with
          | some f => flagSets f ++ stateSets r
          | none => []) := by
  have hxa : x.action ≠ .remove ∧ x.readable = true := by simpa [scanned] using hsc
  obtain ⟨ha, hr⟩ := hxa
  have hae : e.action ≠ .remove := by rw [h.action]; exact ha
  obtain ⟨n1, n2, n3, n4⟩ := newDev_rest (begin nw w)
  obtain ⟨m1, -, -, -⟩ := newDev_lv (begin nw w)
  have h0 := newDev_ok nw hw
  obtain ⟨s, hs, hi⟩ := init_lv h hr hl (w := newDev (begin nw w)) (by rw [m1]; exact hc)
  unfold scanA
  rw [stageA true hae, hi]
  simp only [Int.lt_irrefl, if_false]
  generalize hw1 : ({ newDev (begin nw w) with suspended := some s, name := e.name, uuid := e.uuid, claim := some true, current := true, sets := (newDev (begin nw w)).sets ++ initSets e ++ lvSets vg lv layer } : World) = w1
  have w1r : w1.ready = (newDev (begin nw w)).ready := by rw [← hw1]
  have w1s : w1.suspended = some s := by rw [← hw1]
  have w1c : w1.current = true := by rw [← hw1]
  have w1n : w1.name = e.name := by rw [← hw1]
  have w1l : w1.claim = some true := by rw [← hw1]
  have w1f : w1.flags = w.flags := by rw [← hw1]; exact n3
  have w1m : w1.completed = w.completed := by rw [← hw1]; exact n2
  have w1b : w1.base = (begin nw w).base := by rw [← hw1]; exact n1
  have w1t : w1.sets = initSets e ++ lvSets vg lv layer := by rw [← hw1]; simp [show (newDev (begin nw w)).sets = [] from n4]
  rw [← w1r] at h0
  obtain ⟨p1, p2, p3, p4, p5, p6, p7, p8⟩ := pre_lv h h0 w1s w1c
  generalize hrr : w.ready.stored.getD .unprocessed = r at p1 h0
  have hx0 := preNext_after h ha hr hs hrr
  have hnu : accepted x = true → initialising x = true →
      (preAll x.cookie r e s) ≠ .unprocessed := by
    unfold accepted initialising preAll
    cases x.cookie with
    | refused => intro hh; cases hh
    | absent => intro _ hh; cases hh
    | number v =>
      simp only [preNext, h.synth, h.action]
      intro hh _
      have hh : ¬ (x.synth = true ∨ x.action ≠ .change) := by simpa using hh
      rw [if_neg hh]
      split
      · simp
      · split
        · next hq => rcases hq with hq | hq <;> rw [hq] <;> simp
        · unfold byFlags
          split
          · simp
          · split <;> simp
  generalize (preAll x.cookie r e s) = q at p1 hx0 hnu
  obtain ⟨f1, f2, f3, f4⟩ := fin_rest (fn true e .aPre w1).2
  obtain ⟨g1, g2, g3, -⟩ := fin_lv (fn true e .aPre w1).2
  generalize hq' : (if accepted x = true then lvNext (initialising x) q else q) = q' at p1
  have hfin := fin_ok p1
  have hro : orPublic q' = afterLvm w.ready.stored x := by
    unfold afterLvm taken
    simp only [hsc, Bool.true_and]
    rw [← hq', ← hx0]
    by_cases hac : accepted x = true
    · rw [if_pos hac, if_neg (by simp [hac]), orPublic_lv _ _ (hnu hac)]
      rfl
    · rw [if_neg hac, if_pos (by simpa using hac)]
  rw [hro] at hfin
  refine ⟨q', if isReady q' then [(txt "DM_UDEV_RULES_VSN", some (txt "3"))] else [], trivial, hfin, hro, ?_, ?_, ?_, ?_, ?_, ?_, ?_⟩
  · intro p hp
    split at hp
    · simpa using hp
    · cases hp
  · exact g1.trans (p6.trans w1l)
  · exact g2.trans (p7.trans w1n)
  · exact g3.trans (p8.trans w1c)
  · exact f3.trans (p2.trans w1m)
  · rw [f1, p4, w1b]
  · rw [f4]
    unfold aExit
    simp only [p1.get]
    rw [← w1f, ← p5]
    rw [w1t] at p3
    cases isReady q' <;> cases (fn true e .aPre w1).2.flags <;> simp [World.put, p3]

theorem actionCurrent_rest (w : World) : (actionCurrent w).2.ready = w.ready ∧ (actionCurrent w).2.claim = w.claim ∧
    (actionCurrent w).2.name = w.name ∧ (actionCurrent w).2.current = w.current ∧ (actionCurrent w).2.uuid = w.uuid := by
  unfold actionCurrent
  split <;> exact ⟨rfl, rfl, rfl, rfl, rfl⟩

/-- a volume the daemon knows: claimed by the submodule, with a composed name -/
structure Known (w : World) (r : Ready) : Prop where
  isIn : IsIn w.ready r
  claim : w.claim = some true
  name : ∃ vg lv layer, Names vg lv layer ∧ w.name = some (dmName vg lv layer)

/-- what is completed for an event -/
def completes (x : Event) (base : Option Nat) : List Nat :=
  if x.action = .remove then (match x.cookie with | .number v => [v % 65536] | .absent => base.toList | .refused => [])
  else if x.readable = true then (match x.cookie with | .number v => [v % 65536] | _ => base.toList) else []

/-- a scan of a volume -/
theorem scan_lv {e : Ev} {x : Event} (h : Tells e x) (hsc : scanned x = true) {vg lv layer : Str} (hl : IsLv e vg lv layer)
    (nw : Bool) {w : World} (hw : w.ready.stored ≠ some .undefined) (hc : w.claim = some true ∨ w.claim = none) :
    Known (scan true nw e w).2 (afterLvm w.ready.stored x) ∧ (scan true nw e w).1 = 0 ∧ (scan true nw e w).2.current = true ∧
    (scan true nw e w).2.completed = w.completed ++ completes x (begin nw w).base := by
  obtain ⟨r, vsn, h1, h2, -, -, h5, h6, h7, h8, h9, -⟩ := scanA_lv h hsc hl nw hw hc
  have hxa : x.action ≠ .remove ∧ x.readable = true := by simpa [scanned] using hsc
  unfold scan
  simp only [h1, Int.lt_irrefl, if_false, stageB]
  obtain ⟨a1, a2, a3, a4, -⟩ := actionCurrent_rest (scanA true nw e w).2
  refine ⟨⟨by rw [a1]; exact h2, by rw [a2]; exact h5, vg, lv, layer, hl.names, by rw [a3, h6]; exact hl.name⟩, trivial, by rw [a4]; exact h7, ?_⟩
  rw [actionCurrent_completed, h8, h9]
  unfold completes
  simp only [hxa.1, hxa.2, if_false, if_true]
  cases x.cookie <;> rfl

/-- an event of a known volume for which there is no scan -/
theorem scan_lv_other {e : Ev} {x : Event} (h : Tells e x) (hsc : scanned x = false) (nw : Bool) {w : World} {r : Ready}
    (hk : Known w r) : Known (scan true nw e w).2 r ∧
    (scan true nw e w).2.completed = w.completed ++ completes x (begin nw w).base := by
  have hw : w.ready.stored ≠ some .undefined := by rw [hk.isIn.2.1]; exact fun e => hk.isIn.1 (Option.some.inj e)
  have h0 := newDev_ok nw hw
  rw [hk.isIn.2.1] at h0
  have h0 : IsIn (newDev (begin nw w)).ready r := h0
  obtain ⟨n1, n2, -, -⟩ := newDev_rest (begin nw w)
  obtain ⟨m1, m2, -, -⟩ := newDev_lv (begin nw w)
  have n2 : (newDev (begin nw w)).completed = w.completed := n2
  have m1 : (newDev (begin nw w)).claim = some true := m1.trans hk.claim
  obtain ⟨vg, lv, layer, hn, hname⟩ := hk.name
  have m2 : (newDev (begin nw w)).name = some (dmName vg lv layer) := m2.trans hname
  unfold scan scanA
  by_cases hr : e.action = .remove
  · have hx : x.action = .remove := by rw [← h.action]; exact hr
    rw [stageR true hr]
    unfold completes
    rw [if_pos hx]
    simp only [fn, andThen]
    rcases cookieProps_ok h (newDev (begin nw w)) with ⟨hc, h1⟩ | ⟨hc, h1⟩ | ⟨v, hc, h1⟩
    · rw [h1, hc]
      simp only [show (-1 : Int) < 0 by decide, if_true, List.append_nil]
      exact ⟨⟨h0, m1, vg, lv, layer, hn, m2⟩, n2⟩
    · rw [h1, hc]
      simp only [Int.lt_irrefl, if_false]
      rw [subInit_lv (w := { newDev (begin nw w) with flags := none }) (.inl m1) m2 hn]
      simp only [Int.lt_irrefl, if_false, stageB]
      generalize hu : ({ newDev (begin nw w) with flags := none, current := true, claim := some true, sets := (newDev (begin nw w)).sets ++ lvSets vg lv layer } : World) = u
      obtain ⟨a1, a2, a3, -, -⟩ := actionCurrent_rest u
      refine ⟨⟨?_, ?_, vg, lv, layer, hn, ?_⟩, ?_⟩
      · rw [a1, ← hu]; exact h0
      · rw [a2, ← hu]
      · rw [a3, ← hu]; exact m2
      · rw [actionCurrent_completed, ← hu]
        show (newDev (begin nw w)).completed ++ (newDev (begin nw w)).base.toList = _
        rw [n1, n2]
    · rw [h1, hc]
      simp only [show ¬ ((1 : Int) < 0) by decide, Int.lt_irrefl, if_false]
      rw [subInit_lv (w := { newDev (begin nw w) with base := some (v % 65536), flags := some (v / 65536) }) (.inl m1) m2 hn]
      simp only [Int.lt_irrefl, if_false, stageB]
      generalize hu : ({ newDev (begin nw w) with base := some (v % 65536), flags := some (v / 65536), current := true, claim := some true, sets := (newDev (begin nw w)).sets ++ lvSets vg lv layer } : World) = u
      obtain ⟨a1, a2, a3, -, -⟩ := actionCurrent_rest u
      refine ⟨⟨?_, ?_, vg, lv, layer, hn, ?_⟩, ?_⟩
      · rw [a1, ← hu]; exact h0
      · rw [a2, ← hu]
      · rw [a3, ← hu]; exact m2
      · rw [actionCurrent_completed, ← hu]
        show (newDev (begin nw w)).completed ++ [v % 65536] = _
        rw [n2]
  · have hx : x.action ≠ .remove := by rw [← h.action]; exact hr
    rw [stageA true hr]
    have hb : x.readable = false := by simpa [scanned, hx] using hsc
    rcases aInit_ok h (newDev (begin nw w)) with ⟨-, hi⟩ | ⟨hb', -⟩
    · have hi : fn true e .aInit (newDev (begin nw w)) = (-1, newDev (begin nw w)) := by simp [fn, andThen, hi]
      rw [hi]
      unfold completes
      simp only [show (-1 : Int) < 0 by decide, if_true, hx, if_false, hb, Bool.false_eq_true, List.append_nil]
      exact ⟨⟨h0, m1, vg, lv, layer, hn, m2⟩, n2⟩
    · rw [hb] at hb'; cases hb'

/-- a volume after a sequence of events -/
def lvRun (hist : List (Bool × Ev × Event)) : World := hist.foldl (fun w t => (scan true t.1 t.2.1 w).2) unknown

/-- the state readers are told after a sequence of events -/
def lvSeen (hist : List (Bool × Ev × Event)) : Ready := Spec.DevState.seen .undefined (lvRun hist).ready

/-- the specification after a sequence of events -/
def specLv (hist : List (Bool × Ev × Event)) : Option Ready := hist.foldl (fun r t => some (afterLvm r t.2.2)) none

theorem lvRun_snoc (hist : List (Bool × Ev × Event)) (t : Bool × Ev × Event) :
    lvRun (hist ++ [t]) = (scan true t.1 t.2.1 (lvRun hist)).2 := by
  unfold lvRun
  rw [List.foldl_append]
  rfl

theorem specLv_snoc (hist : List (Bool × Ev × Event)) (t : Bool × Ev × Event) :
    specLv (hist ++ [t]) = some (afterLvm (specLv hist) t.2.2) := by
  unfold specLv
  rw [List.foldl_append]
  rfl

theorem lvHist_prefix {hist : List (Bool × Ev × Event)} {t : Bool × Ev × Event} (h : LvHist (hist ++ [t])) : LvHist hist where
  tells u hu := h.tells u (by simp [hu])
  first u hu := h.first u (by rw [List.head?_append, hu]; rfl)
  isLv u hu := h.isLv u (by simp [hu])

theorem afterLvm_other {old : Option Ready} {x : Event} (h : scanned x = false) : afterLvm old x = old.getD .unprocessed := by
  unfold afterLvm taken
  simp only [h, Bool.false_and, if_true]
  unfold after
  have : x.action = .remove ∨ x.readable = false := by
    by_cases hx : x.action = .remove
    · exact .inl hx
    · exact .inr (by simpa [scanned, hx] using h)
  simp [this]

theorem lvRun_known (hist : List (Bool × Ev × Event)) (h : LvHist hist) :
    (hist = [] ∧ specLv hist = none) ∨ ∃ r, specLv hist = some r ∧ Known (lvRun hist) r := by
  generalize hn : hist.length = n
  induction n generalizing hist with
  | zero => exact .inl ⟨List.length_eq_zero_iff.mp hn, by rw [List.length_eq_zero_iff.mp hn]; rfl⟩
  | succ n ih =>
    right
    have hne : hist ≠ [] := by rintro rfl; simp at hn
    obtain ⟨init, t, rfl⟩ : ∃ init t, hist = init ++ [t] := ⟨hist.dropLast, hist.getLast hne, (List.dropLast_concat_getLast hne).symm⟩
    have ih := ih init (lvHist_prefix h) (by simpa using hn)
    have ht := h.tells t (by simp)
    rw [lvRun_snoc, specLv_snoc]
    refine ⟨_, rfl, ?_⟩
    rcases ih with ⟨h1, h2⟩ | ⟨r, h1, h2⟩
    · subst h1
      have hs : scanned t.2.2 = true := h.first t rfl
      obtain ⟨vg, lv, layer, hl⟩ := h.isLv t (by simp) hs
      exact (scan_lv ht hs hl t.1 (w := unknown) (by simp [unknown, fresh]) (.inr rfl)).1
    · have hst : (lvRun init).ready.stored = some r := h2.isIn.2.1
      cases hs : scanned t.2.2 with
      | true =>
        obtain ⟨vg, lv, layer, hl⟩ := h.isLv t (by simp) hs
        have := (scan_lv ht hs hl t.1 (w := lvRun init) (by rw [hst]; exact fun e => h2.isIn.1 (Option.some.inj e)) (.inl h2.claim)).1
        rw [h1, ← hst]
        exact this
      | false =>
        rw [h1, afterLvm_other hs]
        exact (scan_lv_other ht hs t.1 h2).1

/-- C84: for every sequence of events of a logical volume: the ready state kept, and told to whoever asks, is the one the
    specification `afterLvm` leads to. -/
theorem C84_ready_state (hist : List (Bool × Ev × Event)) (h : LvHist hist) :
    (lvRun hist).ready.stored = specLv hist ∧ lvSeen hist = (specLv hist).getD .undefined := by
  unfold lvSeen
  rcases lvRun_known hist h with ⟨h1, h2⟩ | ⟨r, h1, h2⟩
  · subst h1
    exact ⟨rfl, rfl⟩
  · rw [h1]
    refine ⟨h2.isIn.2.1, ?_⟩
    rw [Spec.DevState.seen, h2.isIn.get]
    rfl

theorem afterLvm_reach {old : Option Ready} (x : Event) (h : ∀ r, old = some r → r ≠ .removed) : afterLvm old x ≠ .removed := by
  have h0 : old.getD .unprocessed ≠ .removed := by
    cases old with
    | none => simp
    | some r => exact h r rfl
  have ho : ∀ r, r ≠ .removed → orPublic r ≠ .removed := by
    intro r hr
    unfold orPublic
    split
    · simp
    · exact hr
  have h1 : after old x ≠ .removed := by
    unfold after
    simp only
    generalize old.getD .unprocessed = r at h0
    split
    · exact h0
    · split
      · exact ho _ h0
      · split
        · exact ho _ h0
        · split
          · simp
          · split
            · exact h0
            · unfold shown
              split
              · simp
              · split <;> simp
      · split
        · simp
        · split
          · simp
          · exact ho _ h0
  unfold afterLvm
  simp only
  split
  · exact h1
  · split
    · split
      · simp
      · exact h1
    · split
      · simp
      · exact h1

theorem specLv_reach (hist : List (Bool × Ev × Event)) (r : Ready) (h : specLv hist = some r) : r ≠ .removed := by
  have key : ∀ (l : List (Bool × Ev × Event)) (o : Option Ready), (∀ r, o = some r → r ≠ .removed) →
      ∀ r, l.foldl (fun r t => some (afterLvm r t.2.2)) o = some r → r ≠ .removed := by
    intro l
    induction l with
    | nil => intro o ho; exact ho
    | cons t l ih =>
      intro o ho
      rw [List.foldl_cons]
      refine ih _ ?_
      rintro r rfl'
      cases rfl'
      exact afterLvm_reach t.2.2 ho
  exact key hist none (by simp) r h

theorem lvSeen_snoc {hist : List (Bool × Ev × Event)} {t : Bool × Ev × Event} (h : LvHist (hist ++ [t])) :
    lvSeen (hist ++ [t]) = afterLvm (specLv hist) t.2.2 := by
  rw [(C84_ready_state _ h).2, specLv_snoc]
  rfl

theorem specLv_seen {hist : List (Bool × Ev × Event)} (h : LvHist hist) {r : Ready} (hr : r ≠ .undefined) (hs : lvSeen hist = r) :
    specLv hist = some r := by
  rw [(C84_ready_state _ h).2] at hs
  cases ho : specLv hist with
  | none => rw [ho] at hs; exact absurd hs.symm hr
  | some q => rw [ho] at hs; exact congrArg some hs

/-- C84: when a volume is resumed with a cookie that says it is being initialised, and the cookie does not ask for a flat
    device, it is not to be used, whatever was before. -/
theorem C84_initialising {hist : List (Bool × Ev × Event)} {t : Bool × Ev × Event} {v : Nat} (h : LvHist (hist ++ [t]))
    (ht : taken t.2.2 = true) (hv : t.2.2.cookie = .number v) (hi : v.testBit 24 = true) (hs : t.2.2.suspended = false)
    (hf : shown v ≠ .flat) : lvSeen (hist ++ [t]) = .uninitialized := by
  rw [lvSeen_snoc h]
  have hini : initialising t.2.2 = true := by unfold initialising; rw [hv]; exact hi
  have hsc : scanned t.2.2 = true ∧ accepted t.2.2 = true := by simpa [taken] using ht
  have hxa : t.2.2.action ≠ .remove ∧ t.2.2.readable = true := by simpa [scanned] using hsc.1
  have hac : ¬ (t.2.2.synth = true ∨ t.2.2.action ≠ .change) := by
    have := hsc.2
    unfold accepted at this
    rw [hv] at this
    simpa using this
  have hrm : (specLv hist).getD .unprocessed ≠ .removed := by
    cases ho : specLv hist with
    | none => simp
    | some r => exact specLv_reach hist r ho
  unfold afterLvm
  simp only [ht, hini, Bool.true_eq_false, if_false, if_true]
  have ha : after (specLv hist) t.2.2 = if (specLv hist).getD .unprocessed = .uninitialized then .uninitialized else shown v := by
    unfold after
    simp only [hxa.1, hxa.2, hv, hac, hs, hrm, Bool.true_eq_false, or_self, if_false, Bool.false_eq_true, false_or]
    split
    · next hh => exact hh
    · rfl
  rw [ha]
  split
  · simp
  · rw [if_pos]
    unfold shown at hf ⊢
    split
    · exact .inr rfl
    · split
      · next h1 h2 => rw [if_neg h1, if_pos h2] at hf; exact absurd rfl hf
      · exact .inl rfl

/-- C84: a volume not to be used stays so as long as every event that is taken finds it suspended or says that it is being
    initialised and does not ask for a flat device.  Missing: events without a cookie. -/
theorem C84_hidden_until_initialised_partial {hist l : List (Bool × Ev × Event)} (h : LvHist (hist ++ l))
    (h0 : lvSeen hist = .uninitialized ∨ lvSeen hist = .unavailable)
    (hl : ∀ t ∈ l, taken t.2.2 = true → t.2.2.suspended = true ∨ ∃ v, t.2.2.cookie = .number v ∧ v.testBit 24 = true ∧ shown v ≠ .flat) :
    lvSeen (hist ++ l) = .uninitialized ∨ lvSeen (hist ++ l) = .unavailable := by
  induction l generalizing hist with
  | nil => simpa using h0
  | cons t l ih =>
    rw [show hist ++ t :: l = (hist ++ [t]) ++ l by simp] at h ⊢
    have hp : LvHist (hist ++ [t]) := ⟨fun u hu => h.tells u (List.mem_append_left _ hu),
      fun u hu => h.first u (by rw [List.head?_append, hu]; rfl), fun u hu => h.isLv u (List.mem_append_left _ hu)⟩
    refine ih h ?_ fun u hu => hl u (by simp [hu])
    have hsp : specLv hist = some .uninitialized ∨ specLv hist = some .unavailable := by
      rcases h0 with h0 | h0
      · exact .inl (specLv_seen (lvHist_prefix hp) (by simp) h0)
      · exact .inr (specLv_seen (lvHist_prefix hp) (by simp) h0)
    by_cases ht : taken t.2.2 = true
    · rcases hl t (by simp) ht with hs | ⟨v, hv, hi, hf⟩
      · right
        rw [lvSeen_snoc hp]
        have hsc : scanned t.2.2 = true ∧ accepted t.2.2 = true := by simpa [taken] using ht
        have hxa : t.2.2.action ≠ .remove ∧ t.2.2.readable = true := by simpa [scanned] using hsc.1
        have ha : after (specLv hist) t.2.2 = .unavailable := by
          unfold after
          simp only [hxa.1, hxa.2, hs, Bool.true_eq_false, or_self, if_false, if_true]
          have := hsc.2
          unfold accepted at this
          cases hck : t.2.2.cookie with
          | refused => rw [hck] at this; cases this
          | absent => rfl
          | number v =>
            rw [hck] at this
            simp only
            rw [if_neg (by simpa using this)]
        unfold afterLvm
        simp [ht, ha]
      · by_cases hs : t.2.2.suspended = true
        · right
          rw [lvSeen_snoc hp]
          have hsc : scanned t.2.2 = true ∧ accepted t.2.2 = true := by simpa [taken] using ht
          have hxa : t.2.2.action ≠ .remove ∧ t.2.2.readable = true := by simpa [scanned] using hsc.1
          have ha : after (specLv hist) t.2.2 = .unavailable := by
            have := hsc.2
            unfold accepted at this
            rw [hv] at this
            unfold after
            simp only [hxa.1, hxa.2, hv, hs, Bool.true_eq_false, or_self, if_false, if_true]
            rw [if_neg (by simpa using this)]
          unfold afterLvm
          simp [ht, ha]
        · exact .inl (C84_initialising hp ht hv hi (by simpa using hs) hf)
    · rw [lvSeen_snoc hp]
      have : afterLvm (specLv hist) t.2.2 = (specLv hist).getD .unprocessed := by
        have ht : taken t.2.2 = false := by simpa using ht
        unfold afterLvm
        simp only [ht, if_true]
        have hop : orPublic ((specLv hist).getD .unprocessed) = (specLv hist).getD .unprocessed := by
          rcases hsp with h | h <;> rw [h] <;> rfl
        unfold after
        simp only
        split
        · rfl
        · next hx =>
          have hsc : scanned t.2.2 = true := by
            simp only [not_or] at hx
            simp [scanned, hx.1, hx.2]
          have hacc : accepted t.2.2 = false := by simpa [taken, hsc] using ht
          unfold accepted at hacc
          cases hck : t.2.2.cookie with
          | refused => exact hop
          | absent => rw [hck] at hacc; cases hacc
          | number v =>
            rw [hck] at hacc
            simp only
            rw [if_pos (by simp at hacc; cases hsy : t.2.2.synth <;> simp [hsy] at hacc ⊢; exact hacc)]
            exact hop
      rw [this]
      rcases hsp with h | h <;> rw [h] <;> simp

/-- C84: the next cookie that does not say so makes the volume usable. -/
theorem C84_initialised {hist : List (Bool × Ev × Event)} {t : Bool × Ev × Event} {v : Nat} (h : LvHist (hist ++ [t]))
    (h0 : lvSeen hist = .uninitialized) (ht : taken t.2.2 = true) (hv : t.2.2.cookie = .number v) (hi : v.testBit 24 = false)
    (hs : t.2.2.suspended = false) : lvSeen (hist ++ [t]) = .isPublic := by
  have hsp := specLv_seen (lvHist_prefix h) (by simp) h0
  rw [lvSeen_snoc h, hsp]
  have hini : initialising t.2.2 = false := by unfold initialising; rw [hv]; exact hi
  have hsc : scanned t.2.2 = true ∧ accepted t.2.2 = true := by simpa [taken] using ht
  have hxa : t.2.2.action ≠ .remove ∧ t.2.2.readable = true := by simpa [scanned] using hsc.1
  have hac : ¬ (t.2.2.synth = true ∨ t.2.2.action ≠ .change) := by
    have := hsc.2
    unfold accepted at this
    rw [hv] at this
    simpa using this
  unfold afterLvm after
  simp [ht, hini, hxa.1, hxa.2, hv, hac, hs]

/-- C84 is false of events without a cookie, such as those made with udevadm trigger: the volume that is being initialised
    becomes public. -/
theorem C84_no_cookie_counterexample {hist : List (Bool × Ev × Event)} {t : Bool × Ev × Event} (h : LvHist (hist ++ [t]))
    (h0 : lvSeen hist = .uninitialized) (ht : taken t.2.2 = true) (hv : t.2.2.cookie = .absent) (hs : t.2.2.suspended = false) :
    lvSeen (hist ++ [t]) = .isPublic := by
  have hsp := specLv_seen (lvHist_prefix h) (by simp) h0
  rw [lvSeen_snoc h, hsp]
  have hini : initialising t.2.2 = false := by unfold initialising; rw [hv]
  have hsc : scanned t.2.2 = true ∧ accepted t.2.2 = true := by simpa [taken] using ht
  have hxa : t.2.2.action ≠ .remove ∧ t.2.2.readable = true := by simpa [scanned] using hsc.1
  unfold afterLvm after
  simp [ht, hini, hxa.1, hxa.2, hv, hs, orPublic]

/-- C84: and a volume for use by LVM alone that was being initialised becomes public as well, although the cookie asks for
    no other rules. -/
theorem C84_private_counterexample {hist : List (Bool × Ev × Event)} {t : Bool × Ev × Event} {v : Nat} (h : LvHist (hist ++ [t]))
    (h0 : lvSeen hist = .uninitialized) (ht : taken t.2.2 = true) (hv : t.2.2.cookie = .number v) (hi : v.testBit 24 = false)
    (hs : t.2.2.suspended = false) (hp : v.testBit 19 = true) :
    shown v = .isPrivate ∧ lvSeen (hist ++ [t]) = .isPublic :=
  ⟨by unfold shown; rw [if_pos hp], C84_initialised h h0 ht hv hi hs⟩

/-- C84 is false of a flat volume: it stays flat while it is being initialised. -/
theorem C84_flat_counterexample {hist : List (Bool × Ev × Event)} {t : Bool × Ev × Event} {v : Nat} (h : LvHist (hist ++ [t]))
    (h0 : lvSeen hist ≠ .uninitialized) (ht : taken t.2.2 = true) (hv : t.2.2.cookie = .number v)
    (hs : t.2.2.suspended = false) (hf : shown v = .flat) : lvSeen (hist ++ [t]) = .flat := by
  rw [lvSeen_snoc h]
  have hsc : scanned t.2.2 = true ∧ accepted t.2.2 = true := by simpa [taken] using ht
  have hxa : t.2.2.action ≠ .remove ∧ t.2.2.readable = true := by simpa [scanned] using hsc.1
  have hac : ¬ (t.2.2.synth = true ∨ t.2.2.action ≠ .change) := by
    have := hsc.2
    unfold accepted at this
    rw [hv] at this
    simpa using this
  have hne : ¬ ((specLv hist).getD .unprocessed = .removed ∨ (specLv hist).getD .unprocessed = .uninitialized) := by
    cases ho : specLv hist with
    | none => simp
    | some r =>
      have hr : lvSeen hist = r := by rw [(C84_ready_state _ (lvHist_prefix h)).2, ho]; rfl
      rintro (hh | hh)
      · exact specLv_reach hist r ho hh
      · exact h0 (hr.trans hh)
  have ha : after (specLv hist) t.2.2 = .flat := by
    unfold after
    simp only [hxa.1, hxa.2, hv, hac, hs, hne, Bool.true_eq_false, or_self, if_false, Bool.false_eq_true]
    exact hf
  unfold afterLvm
  simp [ht, ha]

/-! ### what udev is told -/

theorem flagName_lv : ∀ i < 16, flagName i ≠ txt "DM_VG_NAME" ∧ flagName i ≠ txt "DM_LV_NAME" ∧ flagName i ≠ txt "DM_LV_LAYER" := by
  decide +kernel

theorem initSets_lv (e : Ev) {n : Str} (h : n = txt "DM_VG_NAME" ∨ n = txt "DM_LV_NAME" ∨ n = txt "DM_LV_LAYER") :
    lastOf (initSets e) n = none := by
  refine lastOf_absent fun p hp => ?_
  unfold initSets at hp
  rw [List.mem_append] at hp
  rcases hp with hp | hp
  · split at hp
    · cases hp
    · rw [List.mem_singleton] at hp; rw [hp]
      rcases h with h | h | h <;> rw [h] <;> show txt _ ≠ txt _ <;> decide
  · simp only [List.mem_cons, List.not_mem_nil, or_false] at hp
    rcases hp with hp | hp <;> rw [hp] <;> rcases h with h | h | h <;> rw [h] <;> show txt _ ≠ txt _ <;> decide

theorem lvRun_ok {hist : List (Bool × Ev × Event)} (h : LvHist hist) : (lvRun hist).ready.stored ≠ some .undefined ∧
    ((lvRun hist).claim = some true ∨ (lvRun hist).claim = none) := by
  rcases lvRun_known hist h with ⟨h1, -⟩ | ⟨r, -, h2⟩
  · subst h1
    exact ⟨by simp [lvRun, unknown, fresh], .inr rfl⟩
  · exact ⟨by rw [h2.isIn.2.1]; exact fun e => h2.isIn.1 (Option.some.inj e), .inl h2.claim⟩

/-- C83: whatever happened to a logical volume before, and whatever the request had for these variables: udev is told the names
    of the group and of the volume its device-mapper name is composed of, and that of the layer if there is one. -/
theorem C83_names_told_partial {c : Ubr.Ctx} {d : Str} {db0 db : Ubr.Db} {log : List (Str × Option Str)} {keys : List Str}
    {hist : List (Bool × Ev × Event)} {e : Ev} {x : Event} {nw : Bool} {vg lv layer : Str} (hh : LvHist hist)
    (h : Tells e x) (hsc : scanned x = true) (hl : IsLv e vg lv layer)
    (hc : c.num = some d) (hd : Spec.UbrKey.Plain d) (hne : d ≠ []) (hf : Spec.Reply.Fresh db0)
    (hs : Serve c db0 db (log ++ (scanA true nw e (lvRun hist)).2.sets)) (he : Spec.Sync.Entries db keys) :
    ∃ o, Ubr.exportLoop { db := db } keys = some o ∧ ∀ t,
      ((txt "DM_VG_NAME", t) ∈ o.udev ↔ t = vg) ∧ ((txt "DM_LV_NAME", t) ∈ o.udev ↔ t = lv) ∧
      (layer ≠ [] → ((txt "DM_LV_LAYER", t) ∈ o.udev ↔ t = layer)) ∧
      (layer = [] → ((txt "DM_LV_LAYER", t) ∈ o.udev ↔ lastOf log (txt "DM_LV_LAYER") = some (some t) ∧ t ≠ [])) := by
  obtain ⟨hw, hcl⟩ := lvRun_ok hh
  obtain ⟨o, h1, -, h3, -⟩ := C79_reply_is_what_was_set hc hd hne hf hs he
  obtain ⟨r, vsn, -, -, -, e2, -, -, -, -, -, e4⟩ := scanA_lv h hsc hl nw hw hcl
  refine ⟨o, h1, fun t => ?_⟩
  have hall : ∀ n, n = txt "DM_VG_NAME" ∨ n = txt "DM_LV_NAME" ∨ n = txt "DM_LV_LAYER" →
      lastOf (log ++ (scanA true nw e (lvRun hist)).2.sets) n = (lastOf (lvSets vg lv layer) n).or (lastOf log n) := by
    intro n hn
    have hfn : ∀ i < 16, flagName i ≠ n := by
      intro i hi
      obtain ⟨q1, q2, q3⟩ := flagName_lv i hi
      rcases hn with rfl | rfl | rfl
      · exact q1
      · exact q2
      · exact q3
    have hv : lastOf vsn n = none := lastOf_absent fun p hp => by
      rw [e2 p hp]
      rcases hn with rfl | rfl | rfl <;> show txt _ ≠ txt _ <;> decide
    rw [e4, lastOf_append, lastOf_append]
    generalize (match x.cookie with | .number v => some (v / 65536) | .absent => none | .refused => (lvRun hist).flags) = ff
    have hff : lastOf (match ff with | some f => flagSets f ++ stateSets r | none => []) n = none := by
      cases ff with
      | none => rfl
      | some f =>
        simp only
        rw [lastOf_append, flagSets_other hfn, stateSets_other hfn]
        rfl
    rw [hff, lastOf_append, hv, lastOf_append, initSets_lv e hn]
    cases lastOf (lvSets vg lv layer) n <;> rfl
  have d1 : txt "DM_VG_NAME" ≠ txt "DM_LV_NAME" := by decide
  have d2 : txt "DM_VG_NAME" ≠ txt "DM_LV_LAYER" := by decide
  have d3 : txt "DM_LV_NAME" ≠ txt "DM_LV_LAYER" := by decide
  have l1 : lastOf (lvSets vg lv layer) (txt "DM_VG_NAME") = some (some vg) := by
    unfold lvSets
    by_cases hly : layer = [] <;> simp [hly, lastOf, d1.symm, d2.symm]
  have l2 : lastOf (lvSets vg lv layer) (txt "DM_LV_NAME") = some (some lv) := by
    unfold lvSets
    by_cases hly : layer = [] <;> simp [hly, lastOf, d1, d3.symm]
  have l3 : lastOf (lvSets vg lv layer) (txt "DM_LV_LAYER") = if layer = [] then none else some (some layer) := by
    unfold lvSets
    by_cases hly : layer = [] <;> simp [hly, lastOf, d2, d3]
  refine ⟨?_, ?_, fun hly => ?_, fun hly => ?_⟩
  · rw [h3, hall _ (.inl rfl), l1]
    simp only [Option.or, Option.some.injEq]
    exact ⟨fun h => h.1.symm, fun h => ⟨h.symm, h ▸ hl.names.group⟩⟩
  · rw [h3, hall _ (.inr (.inl rfl)), l2]
    simp only [Option.or, Option.some.injEq]
    exact ⟨fun h => h.1.symm, fun h => ⟨h.symm, h ▸ hl.names.volume⟩⟩
  · rw [h3, hall _ (.inr (.inr rfl)), l3, if_neg hly]
    simp only [Option.or, Option.some.injEq]
    exact ⟨fun h => h.1.symm, fun h => ⟨h.symm, h ▸ hly⟩⟩
  · rw [h3, hall _ (.inr (.inr rfl)), l3, if_pos hly]
    rfl

/-- C84: after an event with a cookie, udev is told the flags that are on in the cookie and those the state asks for: as long as
    the volume is being initialised, the rules for disks and other rules are off. -/
theorem C84_flags_told {c : Ubr.Ctx} {d : Str} {db0 db : Ubr.Db} {log : List (Str × Option Str)} {keys : List Str}
    {hist : List (Bool × Ev × Event)} {e : Ev} {x : Event} {v : Nat} {nw : Bool} {vg lv layer : Str} (hh : LvHist hist)
    (h : Tells e x) (hsc : scanned x = true) (hl : IsLv e vg lv layer) (hv : x.cookie = .number v)
    (hc : c.num = some d) (hd : Spec.UbrKey.Plain d) (hne : d ≠ []) (hf : Spec.Reply.Fresh db0)
    (hs : Serve c db0 db (log ++ (scanA true nw e (lvRun hist)).2.sets)) (he : Spec.Sync.Entries db keys) :
    ∃ o, Ubr.exportLoop { db := db } keys = some o ∧ ∀ i < 16, ∀ t,
      (flagName i, t) ∈ o.udev ↔ t = txt "1" ∧ flagOn v (afterLvm (specLv hist) x) i = true := by
  obtain ⟨hw, hcl⟩ := lvRun_ok hh
  obtain ⟨o, h1, -, h3, -⟩ := C79_reply_is_what_was_set hc hd hne hf hs he
  obtain ⟨r, vsn, -, -, e1, -, -, -, -, -, -, e4⟩ := scanA_lv h hsc hl nw hw hcl
  rw [(C84_ready_state hist hh).1] at e1
  refine ⟨o, h1, fun i hi t => ?_⟩
  rw [h3, e4, hv]
  simp only
  rw [lastOf_append, lastOf_append _ (flagSets _ ++ stateSets _), lastOf_append (flagSets _), lastOf_flagSets hi,
    lastOf_stateSets r hi, testBit_flags, orPublic_flags e1]
  unfold flagOn
  generalize (i == 3 && hidden r) = a
  generalize (i == 2 && (hidden r || r == .flat)) = b
  cases v.testBit (16 + i) <;> cases a <;> cases b <;> simp [eq_comm] <;> intro h <;> subst h <;> decide

/-! ### where it goes wrong -/

/-- the submodule refuses a name that is not composed: the scan fails, and whatever waits for the cookie goes on waiting -/
theorem scan_refused {e : Ev} {x : Event} (h : Tells e x) (hsc : scanned x = true) (nw : Bool) {w : World} {n : Str}
    (hn : e.name = some n) (hp : ∀ c ∈ n, c ≠ 45) (hc : w.claim = some true ∨ (begin nw w).current = true) :
    (scan true nw e w).1 = -1 ∧ (scan true nw e w).2.completed = w.completed := by
  have hxa : x.action ≠ .remove ∧ x.readable = true := by simpa [scanned] using hsc
  obtain ⟨ha, hr⟩ := hxa
  have hae : e.action ≠ .remove := by rw [h.action]; exact ha
  obtain ⟨-, n2, -, -⟩ := newDev_rest (begin nw w)
  obtain ⟨m1, -, m3, -⟩ := newDev_lv (begin nw w)
  obtain ⟨s, -, hi⟩ := aInit_sets h hr (newDev (begin nw w))
  have hws : ∀ u : World, u.claim = (newDev (begin nw w)).claim → u.current = (newDev (begin nw w)).current → whichSub true u = true := by
    intro u h1 h2
    unfold whichSub
    rw [h1, h2, m1, m3]
    rcases hc with hc | hc
    · rw [show (begin nw w).claim = some true from hc]
    · rw [hc]
      cases (begin nw w).claim with
      | none => simp
      | some b => cases b <;> simp
  have hf : (fn true e .aInit (newDev (begin nw w))).1 = -1 ∧ (fn true e .aInit (newDev (begin nw w))).2.completed = w.completed := by
    simp only [fn, andThen, hi, Int.lt_irrefl, if_false]
    unfold subInit
    generalize hu : ({ newDev (begin nw w) with suspended := some s, name := e.name, uuid := e.uuid, sets := (newDev (begin nw w)).sets ++ initSets e } : World) = u
    have hwu := hws u (by rw [← hu]) (by rw [← hu])
    have hun : u.name = some n := by rw [← hu]; exact hn
    simp only [hwu, if_true]
    unfold lvmInit
    have hcm : components n = (n, [], []) := by
      unfold components
      rw [unquote_plain hp]
      rfl
    simp only [hun, hcm, or_true, if_true]
    exact ⟨trivial, by rw [← hu]; exact n2⟩
  unfold scan scanA
  rw [stageA true hae]
  simp only [hf.1, show (-1 : Int) < 0 by decide, if_true]
  exact ⟨trivial, hf.2⟩

/-- C83, C82 are false of a device that takes the place of a volume: its name is read as that of a volume, and if it is not
    composed, the scan fails, so that its cookie is not completed. -/
theorem C83_replaced_counterexample {hist : List (Bool × Ev × Event)} {e : Ev} {x : Event} {n : Str} (hh : LvHist hist)
    (hne : hist ≠ []) (h : Tells e x) (hsc : scanned x = true) (nw : Bool) (hn : e.name = some n) (hp : ∀ c ∈ n, c ≠ 45) :
    (scan true nw e (lvRun hist)).1 = -1 ∧ (scan true nw e (lvRun hist)).2.completed = (lvRun hist).completed := by
  rcases lvRun_known hist hh with ⟨h1, -⟩ | ⟨r, -, h2⟩
  · exact absurd h1 hne
  · exact scan_refused h hsc nw hn hp (.inl h2.claim)

/-- C83, C82 are false of devices other than volumes, whatever is known of them, if the worker served a volume before: the scan
    fails, so that the cookie is not completed. -/
theorem C83_same_worker_counterexample {hist : List (Bool × Ev × Event)} {e1 e2 : Ev} {x1 x2 : Event} {n vg lv layer : Str} {nw : Bool}
    (hh : LvHist hist) (h1 : Tells e1 x1) (hs1 : scanned x1 = true) (hl : IsLv e1 vg lv layer)
    (h2 : Tells e2 x2) (hs2 : scanned x2 = true) (hn : e2.name = some n) (hp : ∀ c ∈ n, c ≠ 45) (w : World) :
    let w2 := { w with current := (scan true nw e1 (lvRun hist)).2.current }
    (scan true false e2 w2).1 = -1 ∧ (scan true false e2 w2).2.completed = w.completed := by
  obtain ⟨hw, hcl⟩ := lvRun_ok hh
  have hcur := (scan_lv h1 hs1 hl nw hw hcl).2.2.1
  intro w2
  exact scan_refused (w := w2) h2 hs2 false hn hp (.inr hcur)

/-! ### devices of others -/

/-- nothing says that the device is a volume -/
structure NotLv (w : World) : Prop where
  claim : w.claim ≠ some true
  uuid : ¬ LvmUuid w.uuid

theorem lvmMatch_other {w : World} (h : ¬ LvmUuid w.uuid) : lvmMatch w = false := by
  cases hm : lvmMatch w with
  | false => rfl
  | true =>
    unfold lvmMatch at hm
    cases hu : w.uuid with
    | none => rw [hu] at hm; cases hm
    | some u =>
      rw [hu] at hm
      refine absurd ⟨u.drop 4, ?_⟩ h
      have hm : List.take 4 u = txt "LVM-" := by simpa using hm
      rw [hu, ← hm, List.take_append_drop]

theorem subInit_other {w : World} (h : NotLv w) (hc : w.current = false) : subInit true w = subInit false w := by
  have : whichSub true w = false := by
    unfold whichSub
    cases hcl : w.claim with
    | none => simp [lvmMatch_other h.uuid, hc]
    | some b =>
      cases b with
      | true => exact absurd hcl h.claim
      | false => simp [hc]
  rw [subInit_none]
  unfold subInit
  rw [this]
  rfl

theorem aInit_cases (e : Ev) (w : World) : aInit e w = (-1, w) ∨
    ∃ s l, aInit e w = (0, { w with suspended := s, name := e.name, uuid := e.uuid, sets := l }) := by
  unfold aInit
  split
  · next u n s hu hn hs =>
    split
    · exact .inl rfl
    · right
      simp only [hu, hn]
      by_cases hu0 : u = []
      · exact ⟨some s, _, by simp [hu0, World.put]; rfl⟩
      · exact ⟨some s, _, by simp [hu0, World.put]; rfl⟩
  · exact .inl rfl

theorem cookieProps_lv (e : Ev) (w : World) : (cookieProps e w).2.2.claim = w.claim ∧ (cookieProps e w).2.2.uuid = w.uuid ∧
    (cookieProps e w).2.2.current = w.current := by
  unfold cookieProps
  split
  · exact ⟨rfl, rfl, rfl⟩
  · split <;> exact ⟨rfl, rfl, rfl⟩

theorem scanPre_lv (kv : Ready → KvOutcome) (e : Ev) (w : World) : (scanPre kv e w).2.claim = w.claim ∧ (scanPre kv e w).2.uuid = w.uuid := by
  obtain ⟨h1, h2, -⟩ := cookieProps_lv e w
  unfold scanPre
  dsimp only
  split
  · exact ⟨h1, h2⟩
  · split <;> exact ⟨h1, h2⟩

theorem scan_other {e : Ev} {w : World} (h : NotLv w) (he : ¬ LvmUuid e.uuid) :
    scan true true e w = scan false true e w ∧ NotLv (scan false true e w).2 := by
  obtain ⟨m1, -, m3, m4⟩ := newDev_lv (begin true w)
  have h0 : NotLv (newDev (begin true w)) := ⟨by rw [m1]; exact h.claim, by rw [m4]; exact h.uuid⟩
  have hc0 : (newDev (begin true w)).current = false := m3
  have key : ∀ r : Int × World, NotLv r.2 → NotLv (if r.1 < 0 then r else stage false 2 e r.2).2 := by
    intro r hr
    split
    · exact hr
    · rw [stageB]
      obtain ⟨-, a2, -, -, a5⟩ := actionCurrent_rest r.2
      exact ⟨by show (actionCurrent r.2).2.claim ≠ _; rw [a2]; exact hr.claim, by show ¬ LvmUuid (actionCurrent r.2).2.uuid; rw [a5]; exact hr.uuid⟩
  have main : scanA true true e w = scanA false true e w ∧ NotLv (scanA false true e w).2 := by
    unfold scanA
    by_cases hr : e.action = .remove
    · rw [stageR true hr, stageR false hr]
      generalize newDev (begin true w) = u at h0 hc0
      obtain ⟨c1, c2, c3⟩ := cookieProps_lv e u
      have hn : NotLv (cookieProps e u).2.2 := ⟨by rw [c1]; exact h0.claim, by rw [c2]; exact h0.uuid⟩
      have heq : fn true e .removeInit u = fn false e .removeInit u := by
        simp only [fn, andThen]
        rw [subInit_other hn (c3.trans hc0)]
      rw [heq]
      refine ⟨rfl, ?_⟩
      simp only [fn, andThen]
      rw [subInit_none]
      generalize (cookieProps e u).2.2 = p at hn
      generalize (if (cookieProps e u).1 < 0 then (-1 : Int) else 0) = q
      split
      · exact hn
      · refine ⟨?_, hn.uuid⟩
        show some (p.claim.getD false) ≠ some true
        have := hn.claim
        cases hp : p.claim with
        | none => simp
        | some b => rw [hp] at this; exact this
    · rw [stageA true hr, stageA false hr]
      generalize newDev (begin true w) = u at h0 hc0
      rcases aInit_cases e u with hi | ⟨s, l, hi⟩
      · have e1 : ∀ b, fn b e .aInit u = (-1, u) := fun b => by simp [fn, andThen, hi]
        rw [e1, e1]
        simp only [show (-1 : Int) < 0 by decide, if_true]
        exact ⟨trivial, h0⟩
      · have hn : NotLv { u with suspended := s, name := e.name, uuid := e.uuid, sets := l } := ⟨h0.claim, he⟩
        have e1 : fn false e .aInit u = (0, { u with suspended := s, name := e.name, uuid := e.uuid, sets := l, current := false, claim := some (u.claim.getD false) }) := by
          simp only [fn, andThen, hi, Int.lt_irrefl, if_false]
          rw [subInit_none]
        have e2 : fn true e .aInit u = fn false e .aInit u := by
          simp only [fn, andThen, hi, Int.lt_irrefl, if_false]
          rw [subInit_other hn hc0]
        rw [e2, e1]
        simp only [Int.lt_irrefl, if_false]
        rw [pre_none (lvm := true) rfl, pre_none (lvm := false) rfl]
        refine ⟨rfl, ?_⟩
        obtain ⟨g1, -, -, g4⟩ := fin_lv (scanPre (fun _ => .stored) e { u with ready := { u.ready with phase := .aPre }, suspended := s, name := e.name, uuid := e.uuid, sets := l, current := false, claim := some (u.claim.getD false) }).2
        obtain ⟨q1, q2⟩ := scanPre_lv (fun _ => .stored) e { u with ready := { u.ready with phase := .aPre }, suspended := s, name := e.name, uuid := e.uuid, sets := l, current := false, claim := some (u.claim.getD false) }
        refine ⟨?_, ?_⟩
        · rw [g1, q1]
          have := h0.claim
          cases hp : u.claim with
          | none => simp
          | some b => rw [hp] at this; exact this
        · rw [g4, q2]
          exact he
  unfold scan
  dsimp only
  rw [main.1]
  refine ⟨?_, key _ main.2⟩
  rw [stageB, stageB]

theorem foldl_same {α β : Type} {f g : α → β → α} {P : α → Prop} {Q : β → Prop}
    (h : ∀ w t, P w → Q t → f w t = g w t ∧ P (g w t)) (l : List β) (hq : ∀ t ∈ l, Q t) (w : α) (hp : P w) :
    l.foldl f w = l.foldl g w := by
  induction l generalizing w with
  | nil => rfl
  | cons t l ih =>
    obtain ⟨h1, h2⟩ := h w t hp (hq t (by simp))
    rw [List.foldl_cons, List.foldl_cons, h1]
    exact ih (fun u hu => hq u (by simp [hu])) _ h2

theorem unknown_notLv : NotLv unknown := ⟨nofun, by rintro ⟨t, ht⟩; cases ht⟩

theorem step_other (w : World) (t : Bool × Ev × Event) (hw : NotLv w) (ht : t.1 = true ∧ ¬ LvmUuid t.2.1.uuid) :
    (scan true t.1 t.2.1 w).2 = (scan false t.1 t.2.1 w).2 ∧ NotLv (scan false t.1 t.2.1 w).2 := by
  obtain ⟨k1, k2⟩ := scan_other hw ht.2
  rw [ht.1]
  exact ⟨congrArg Prod.snd k1, k2⟩

/-- C83: a device that is no volume of LVM is treated as if the module for LVM was not there, if each command is served by a worker
    of its own.  (So C80, C81 and C82 hold of it.) -/
theorem C83_other_devices_partial (hist : List (Bool × Ev × Event)) (h : ∀ t ∈ hist, t.1 = true ∧ ¬ LvmUuid t.2.1.uuid) :
    lvRun hist = dmRun hist := by
  unfold lvRun dmRun
  exact foldl_same (P := NotLv) (Q := fun t => t.1 = true ∧ ¬ LvmUuid t.2.1.uuid) step_other hist h unknown unknown_notLv

/-- C82: every cookie that comes with an event of a volume is completed once, in the order of the events, and no other one is, if
    each command is served by a worker of its own. -/
theorem C82_volumes_partial (hist : List (Bool × Ev × Event)) (h : LvHist hist) (hnw : ∀ t ∈ hist, t.1 = true) :
    (lvRun hist).completed = hist.filterMap fun t => toComplete t.2.2 := by
  generalize hn : hist.length = n
  induction n generalizing hist with
  | zero => rw [List.length_eq_zero_iff.mp hn]; rfl
  | succ n ih =>
    have hne : hist ≠ [] := by rintro rfl; simp at hn
    obtain ⟨init, t, rfl⟩ : ∃ init t, hist = init ++ [t] := ⟨hist.dropLast, hist.getLast hne, (List.dropLast_concat_getLast hne).symm⟩
    have hp := lvHist_prefix h
    have ih := ih init hp (fun u hu => hnw u (by simp [hu])) (by simpa using hn)
    have ht := h.tells t (by simp)
    have ht1 := hnw t (by simp)
    rw [lvRun_snoc, List.filterMap_append, ← ih]
    have hcm : (scan true t.1 t.2.1 (lvRun init)).2.completed = (lvRun init).completed ++ completes t.2.2 none := by
      obtain ⟨hw, hcl⟩ := lvRun_ok hp
      rw [ht1]
      cases hs : scanned t.2.2 with
      | true =>
        obtain ⟨vg, lv, layer, hl⟩ := h.isLv t (by simp) hs
        exact (scan_lv ht hs hl true hw hcl).2.2.2
      | false =>
        rcases lvRun_known init hp with ⟨h1, -⟩ | ⟨r, -, h2⟩
        · subst h1
          have := h.first t rfl
          rw [hs] at this
          cases this
        · exact (scan_lv_other ht hs true h2).2
    rw [hcm]
    congr 1
    unfold completes
    simp only [List.filterMap_cons, List.filterMap_nil]
    unfold toComplete
    cases t.2.2.cookie with
    | absent => simp
    | refused => simp
    | number v =>
      by_cases ha : t.2.2.action = .remove
      · simp [ha]
      · cases hr : t.2.2.readable <;> simp [ha]

/-! ### the hypotheses are met -/

/-- the volume a-b of the group v, with a snapshot's layer -/
theorem dmName_ex : dmName (txt "v") (txt "a-b") (txt "cow") = txt "v-a--b-cow" := by decide +kernel

/-- the volume is made -/
def lvAdd : Ev := ⟨none, .add, false, some (txt "LVM-x"), some (txt "v-a--b"), some (txt "0")⟩

/-- it is resumed, with a cookie that says that it is being initialised and that asks for no other rules -/
def lvInitEv : Ev := ⟨some (decimal 17306164), .change, false, some (txt "LVM-x"), some (txt "v-a--b"), some (txt "0")⟩

/-- it is resumed again, with a cookie that asks for no other rules -/
def lvDone : Ev := ⟨some (decimal 528949), .change, false, some (txt "LVM-x"), some (txt "v-a--b"), some (txt "0")⟩

/-- an event made by hand -/
def lvTrigger : Ev := ⟨none, .change, true, some (txt "LVM-x"), some (txt "v-a--b"), some (txt "0")⟩

theorem tellsLvAdd : Tells lvAdd ⟨.absent, .add, false, true, false⟩ :=
  ⟨rfl, rfl, rfl, ⟨fun _ => ⟨rfl, ⟨_, rfl, by decide⟩, _, rfl, by decide⟩, fun _ => rfl⟩, by decide⟩

theorem tellsLvInit : Tells lvInitEv ⟨.number 17306164, .change, false, true, false⟩ :=
  ⟨⟨by decide, by decide, rfl⟩, rfl, rfl, ⟨fun _ => ⟨rfl, ⟨_, rfl, by decide⟩, _, rfl, by decide⟩, fun _ => rfl⟩, by decide⟩

theorem tellsLvDone : Tells lvDone ⟨.number 528949, .change, false, true, false⟩ :=
  ⟨⟨by decide, by decide, rfl⟩, rfl, rfl, ⟨fun _ => ⟨rfl, ⟨_, rfl, by decide⟩, _, rfl, by decide⟩, fun _ => rfl⟩, by decide⟩

theorem tellsLvTrigger : Tells lvTrigger ⟨.absent, .change, true, true, false⟩ :=
  ⟨rfl, rfl, rfl, ⟨fun _ => ⟨rfl, ⟨_, rfl, by decide⟩, _, rfl, by decide⟩, fun _ => rfl⟩, by decide⟩

/-- the life of the volume -/
def lvLife : List (Bool × Ev × Event) :=
  [(true, lvAdd, ⟨.absent, .add, false, true, false⟩), (true, lvInitEv, ⟨.number 17306164, .change, false, true, false⟩),
    (true, lvDone, ⟨.number 528949, .change, false, true, false⟩), (true, evRemove, ⟨.number 528949, .remove, false, false, false⟩)]

/-- the life of the volume, if somebody triggers an event -/
def lvLife2 : List (Bool × Ev × Event) :=
  [(true, lvAdd, ⟨.absent, .add, false, true, false⟩), (true, lvInitEv, ⟨.number 17306164, .change, false, true, false⟩),
    (true, lvTrigger, ⟨.absent, .change, true, true, false⟩)]

theorem isLv_ex {e : Ev} (h1 : e.uuid = some (txt "LVM-x")) (h2 : e.name = some (txt "v-a--b")) : IsLv e (txt "v") (txt "a-b") [] where
  uuid := ⟨txt "x", by rw [h1]; decide⟩
  name := by rw [h2]; decide +kernel
  names := ⟨by decide, by decide, by decide, by decide⟩

theorem lvLife_hist : LvHist lvLife where
  tells t ht := by
    simp only [lvLife, List.mem_cons, List.not_mem_nil, or_false] at ht
    rcases ht with h | h | h | h <;> subst h
    · exact tellsLvAdd
    · exact tellsLvInit
    · exact tellsLvDone
    · exact tellsRemove
  first t ht := by cases ht; rfl
  isLv t ht hs := by
    simp only [lvLife, List.mem_cons, List.not_mem_nil, or_false] at ht
    rcases ht with h | h | h | h <;> subst h
    · exact ⟨_, _, _, isLv_ex rfl rfl⟩
    · exact ⟨_, _, _, isLv_ex rfl rfl⟩
    · exact ⟨_, _, _, isLv_ex rfl rfl⟩
    · cases hs

theorem lvLife2_hist : LvHist lvLife2 where
  tells t ht := by
    simp only [lvLife2, List.mem_cons, List.not_mem_nil, or_false] at ht
    rcases ht with h | h | h <;> subst h
    · exact tellsLvAdd
    · exact tellsLvInit
    · exact tellsLvTrigger
  first t ht := by cases ht; rfl
  isLv t ht hs := by
    simp only [lvLife2, List.mem_cons, List.not_mem_nil, or_false] at ht
    rcases ht with h | h | h <;> subst h <;> exact ⟨_, _, _, isLv_ex rfl rfl⟩

example : lvSeen (lvLife.take 2) = .uninitialized :=
  C84_initialising (hist := lvLife.take 1) (v := 17306164) (lvHist_prefix (lvHist_prefix (hist := lvLife.take 2 ++ [_]) lvLife_hist))
    (by decide) rfl (by decide) rfl (by decide)

example : lvSeen lvLife2 = .isPublic :=
  C84_no_cookie_counterexample (hist := lvLife2.take 2) lvLife2_hist
    (C84_initialising (hist := lvLife2.take 1) (v := 17306164) (lvHist_prefix (hist := lvLife2.take 2) lvLife2_hist)
      (by decide) rfl (by decide) rfl (by decide)) (by decide) rfl rfl

/-- the cookie asked for a private device -/
example : lvSeen (lvLife.take 3) = .isPublic :=
  (C84_private_counterexample (hist := lvLife.take 2) (v := 528949) (lvHist_prefix (hist := lvLife.take 3) lvLife_hist)
    (C84_initialising (hist := lvLife.take 1) (v := 17306164) (lvHist_prefix (lvHist_prefix (hist := lvLife.take 2 ++ [_]) lvLife_hist))
      (by decide) rfl (by decide) rfl (by decide)) (by decide) rfl (by decide) rfl (by decide)).2

example : (lvRun lvLife).completed = [4660, 4661, 4661] := by
  rw [C82_volumes_partial lvLife lvLife_hist (by decide)]; rfl

/-- a cookie that asks for a flat device is one -/
example : shown 17040948 = .flat ∧ (17040948 : Nat).testBit 24 = true := by decide

/-- the volume is served -/
example : ∃ db, Serve dev80 Ubr.Db.empty db ([] ++ (scanA true true lvInitEv (lvRun (lvLife.take 1))).2.sets) ∧
    Spec.Reply.Fresh Ubr.Db.empty ∧
    flagOn 17306164 (afterLvm (specLv (lvLife.take 1)) ⟨.number 17306164, .change, false, true, false⟩) 2 = true := by
  have h : (serveAll dev80 (txt "/dm") (scanA true true lvInitEv (lvRun (lvLife.take 1))).2.sets Ubr.Db.empty).isSome = true := by
    decide +kernel
  obtain ⟨db, hdb⟩ := Option.isSome_iff_exists.mp h
  exact ⟨db, serveAll_serve _ .start hdb, ⟨fun _ _ => rfl, fun _ _ => rfl⟩, by decide⟩

/-- an encrypted device, in a worker that served the volume -/
def cryptEv : Ev := ⟨some (decimal 528950), .change, false, some (txt "CRYPT-x"), some (txt "home"), some (txt "0")⟩

theorem tellsCrypt : Tells cryptEv ⟨.number 528950, .change, false, true, false⟩ :=
  ⟨⟨by decide, by decide, rfl⟩, rfl, rfl, ⟨fun _ => ⟨rfl, ⟨_, rfl, by decide⟩, _, rfl, by decide⟩, fun _ => rfl⟩, by decide⟩

theorem lvHist_nil : LvHist [] where
  tells t ht := absurd ht (List.not_mem_nil)
  first t ht := by cases ht
  isLv t ht := absurd ht (List.not_mem_nil)

theorem crypt_plain : ∀ c ∈ txt "home", c ≠ 45 := by decide

example (w : World) :
    (scan true false cryptEv { w with current := (scan true true lvAdd (lvRun [])).2.current }).2.completed = w.completed := by
  have h := C83_same_worker_counterexample (nw := true) lvHist_nil tellsLvAdd rfl (isLv_ex rfl rfl) tellsCrypt rfl rfl crypt_plain w
  exact h.2

example : ¬ LvmUuid cryptEv.uuid := by
  rintro ⟨t, ht⟩
  have := congrArg (fun o : Option Str => (o.getD []).head?) ht
  simp [cryptEv] at this
  revert this
  show ¬ (some 67 = some 76)
  decide

end Sid.Props
