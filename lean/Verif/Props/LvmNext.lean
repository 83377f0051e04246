import Verif.Proof.LvmNext
import Mathlib.Data.List.Induction
/-
C95: which volume group is activated when a device with a physical volume has been scanned.
-/
namespace Sid.Props
open Sid (Str)
open Sid.Ifc (txt)
open Sid.UStr Sid.LvmNext Sid.Spec.UStr Sid.Spec.LvmNext

/-- the arguments of the scan of a device -/
def pvscanArgv (bin dev : Str) : List Str :=
  [bin, txt "pvscan", txt "--cache", txt "--listvg", txt "--checkcomplete", txt "--vgonline", txt "--autoactivation", txt "event",
    txt "--udevoutput", txt "--journal=output", txt "/dev/" ++ dev]

/-- the arguments of the activation of a volume group -/
def vgchangeArgv (bin vg : Str) : List Str :=
  [bin, txt "vgchange", txt "-aay", txt "--autoactivation", txt "event", vg]

theorem argv_pvscan {bin dev : Str} (hb : Word bin) (hd : Word dev) : argv bin (pvscanArgs ++ dev) = some (pvscanArgv bin dev) := by
  have := argv_join hb (ws := (pvscanArgv bin dev).tail) (by
    intro w hw
    simp only [pvscanArgv, List.tail_cons, List.mem_cons, List.not_mem_nil, or_false] at hw
    rcases hw with h | h | h | h | h | h | h | h | h | h
    all_goals subst h
    all_goals first
      | exact word_of (by decide) (by decide)
      | exact word_append (word_of (by decide) (by decide)) hd)
  have e : pvscanArgs ++ dev = List.intercalate [32] (pvscanArgv bin dev).tail := by
    have e1 : List.intercalate [32] (pvscanArgv bin dev).tail = List.intercalate [32] (pvscanArgv bin []).tail ++ dev := by
      simp [pvscanArgv, List.intercalate, List.intersperse]
    rw [e1]
    refine congrArg (· ++ dev) ?_
    show pvscanArgs = List.intercalate [32] (pvscanArgv [] []).tail
    decide +kernel
  rw [e, this]
  rfl

theorem argv_vgchange {bin vg : Str} (hb : Word bin) (hv : Word vg) : argv bin (vgchangeArgs ++ vg) = some (vgchangeArgv bin vg) := by
  have := argv_join hb (ws := (vgchangeArgv bin vg).tail) (by
    intro w hw
    simp only [vgchangeArgv, List.tail_cons, List.mem_cons, List.not_mem_nil, or_false] at hw
    rcases hw with h | h | h | h | h
    all_goals subst h
    all_goals first
      | exact word_of (by decide) (by decide)
      | exact hv)
  have e : vgchangeArgs ++ vg = List.intercalate [32] (vgchangeArgv bin vg).tail := by
    have e1 : List.intercalate [32] (vgchangeArgv bin vg).tail = List.intercalate [32] (vgchangeArgv bin []).tail ++ vg := by
      simp [vgchangeArgv, List.intercalate, List.intersperse]
    rw [e1]
    refine congrArg (· ++ vg) ?_
    show vgchangeArgs = List.intercalate [32] (vgchangeArgv [] []).tail
    decide +kernel
  rw [e, this]
  rfl

/-- **C95 (partial).** After `pvscan` has been run the records are those its output gives: for each key the value of the last line
    giving one, and what was there before for every other key. Missing: lines longer than 2047 characters, and lines of just a key and
    an equals sign. -/
theorem C95_records_partial (w : World) (dev out : Str) (s : St) (hout : w.pvscanOut = some out) (hset : ∀ l ∈ lines out, ∀ k v, KeyVal l k v → w.canSet k v = true)
    (hl : ∀ l ∈ lines out, Usual l) :
    ∃ s', scanNext w dev s = some (0, s') ∧
      ∀ k, (∀ v, Says (lines out) k v → s'.recs k = some v) ∧ (Silent (lines out) k → s'.recs k = s.recs k) := by
  obtain ⟨rs, h1, h2⟩ := outLines_usual (lines out) hset hl s.recs
  refine ⟨{ s with recs := rs, ran := s.ran ++ [argv w.bin (pvscanArgs ++ dev)] }, ?_, h2⟩
  simp only [scanNext, combToStr, Option.getD_none, Option.getD_some, List.nil_append, hout, stdoutRecv_lines, h1, Option.map_some]

/-- **C95 (partial).** A physical volume claimed for the submodule for LVM: `pvscan` is run for that device; if it reports a complete
    volume group, exactly this volume group is then activated, once, and nothing else is run; if it reports none, nothing is activated.
    Missing: the lines as above, and names with blanks or quotes. -/
theorem C95_activation_partial (w : World) (dev out o : Str) (s : St) (claims : List (Option Bool)) (lvm : Nat)
    (hchosen : matchNext claims s.chosen = some lvm)
    (hout : w.pvscanOut = some out) (ho : w.vgchangeOut = some o) (hset : ∀ l ∈ lines out, ∀ k v, KeyVal l k v → w.canSet k v = true) (hun : w.canUnset = true)
    (hl : ∀ l ∈ lines out, Usual l) (hs : s.recs (txt "LVM_VG_NAME_COMPLETE") = none) (hbin : Word w.bin) (hdev : Word dev) :
    ∃ s1 s2, dmScanNext w claims lvm dev s = some (0, s1) ∧ dmActionNext w lvm s1 = some (0, s2) ∧
      s1.ran = s.ran ++ [some (pvscanArgv w.bin dev)] ∧
      (∀ vg, Says (lines out) (txt "LVM_VG_NAME_COMPLETE") vg → Word vg →
        s2.ran = s.ran ++ [some (pvscanArgv w.bin dev), some (vgchangeArgv w.bin vg)]) ∧
      (Silent (lines out) (txt "LVM_VG_NAME_COMPLETE") → s2.ran = s1.ran) ∧
      s2.recs (txt "LVM_VG_NAME_COMPLETE") = none ∧
      ∀ w', dmActionNext w' lvm s2 = some (0, s2) := by
  obtain ⟨rs, h1, h2⟩ := outLines_usual (lines out) hset hl s.recs
  have h3 := h2 completeKey
  have hsn : dmScanNext w claims lvm dev s =
      some (0, ⟨rs, some lvm, s.ran ++ [some (pvscanArgv w.bin dev)]⟩) := by
    simp only [dmScanNext, hchosen, if_true, scanNext, combToStr, Option.getD_none, Option.getD_some, List.nil_append, hout,
      stdoutRecv_lines, h1, Option.map_some, argv_pvscan hbin hdev]
  have again : ∀ (s2 : St), s2.recs completeKey = none → ∀ w', dmActionNext w' lvm s2 = some (0, s2) := by
    intro s2 h w'
    simp only [dmActionNext, actionNext, h]
    split <;> rfl
  rcases says_or_silent (lines out) completeKey with hsil | ⟨vg, hsay⟩
  · have hnone : rs completeKey = none := by rw [h3.2 hsil]; exact hs
    refine ⟨_, ⟨rs, some lvm, s.ran ++ [some (pvscanArgv w.bin dev)]⟩, hsn, again _ hnone w, rfl, ?_, fun _ => rfl, hnone, again _ hnone⟩
    intro vg hsay
    obtain ⟨a, l, b, e, hkv, -⟩ := hsay
    exact absurd hkv (hsil l (by rw [e]; simp) vg)
  · have hsome := h3.1 vg hsay
    have hact : dmActionNext w lvm ⟨rs, some lvm, s.ran ++ [some (pvscanArgv w.bin dev)]⟩ =
        some (0, ⟨store rs completeKey none, some lvm, (s.ran ++ [some (pvscanArgv w.bin dev)]) ++ [argv w.bin (vgchangeArgs ++ vg)]⟩) := by
      simp only [dmActionNext, if_true, actionNext, hsome, combToStr, Option.getD_none, Option.getD_some, List.nil_append, ho, hun,
        stdoutRecv_lines, outLines_off, Option.map_some]
    have hgone : store rs completeKey none completeKey = none := by simp [store]
    refine ⟨_, _, hsn, hact, rfl, ?_, ?_, hgone, again _ hgone⟩
    · intro vg' hsay' hw
      have := h3.1 vg' hsay'
      rw [hsome] at this
      cases this
      simp [argv_vgchange hbin hw]
    · intro hsil
      obtain ⟨a, l, b, e, hkv, -⟩ := hsay
      exact absurd hkv (hsil l (by rw [e]; simp) vg)

/-- the last answer that claims the device -/
theorem matchNext_concat (l : List (Option Bool)) (x : Option Bool) (c : Option Nat) :
    matchNext (l ++ [x]) c = if x = some true then some l.length else matchNext l c := by
  simp [matchNext, List.zipIdx_append, List.foldl_append]

/-- **C95.** The submodule run is the last one claiming the device; one that does not claim it is not run. -/
theorem C95_chosen (claims : List (Option Bool)) (i : Nat) :
    matchNext claims none = some i ↔ claims[i]? = some (some true) ∧ ∀ j, i < j → claims[j]? ≠ some (some true) := by
  induction claims using List.reverseRecOn with
  | nil => simp [matchNext]
  | append_singleton l x ih =>
    rw [matchNext_concat]
    by_cases hx : x = some true
    · subst hx
      rw [if_pos rfl]
      constructor
      · intro h
        cases h
        refine ⟨by simp, fun j hj => ?_⟩
        rw [List.getElem?_eq_none (by simp; omega)]
        simp
      · rintro ⟨h1, h2⟩
        have hi : i < l.length + 1 := by
          have := (List.getElem?_eq_some_iff.mp h1).1
          simpa using this
        by_cases hi' : i = l.length
        · rw [hi']
        · exact absurd (by simp) (h2 l.length (by omega))
    · rw [if_neg hx, ih]
      constructor
      · rintro ⟨h1, h2⟩
        have hi := (List.getElem?_eq_some_iff.mp h1).1
        refine ⟨by rw [List.getElem?_append_left hi]; exact h1, fun j hj => ?_⟩
        by_cases hj' : j < l.length
        · rw [List.getElem?_append_left hj']; exact h2 j hj
        · rw [List.getElem?_append_right (by omega)]
          cases e : j - l.length with
          | zero => simpa using hx
          | succ n => simp
      · rintro ⟨h1, h2⟩
        have hi : i < l.length := by
          by_cases hi : i < l.length
          · exact hi
          · exfalso
            rw [List.getElem?_append_right (by omega)] at h1
            cases e : i - l.length with
            | zero => rw [e] at h1; simp at h1; exact hx h1
            | succ n => rw [e] at h1; simp at h1
        refine ⟨by rwa [List.getElem?_append_left hi] at h1, fun j hj => ?_⟩
        by_cases hj' : j < l.length
        · have := h2 j hj
          rwa [List.getElem?_append_left hj'] at this
        · rw [List.getElem?_eq_none (by omega)]; simp

/-- **C95.** The submodule for LVM claims exactly the devices whose file system type is that of a physical volume. -/
theorem C95_claims (t : Option Str) : lvmMatchNext t = true ↔ t = some (txt "LVM2_member") := by
  cases t with
  | none => simp [lvmMatchNext]
  | some t => simp [lvmMatchNext]

/-- **C95.** A device claimed by none of the submodules: nothing is run. -/
theorem C95_not_claimed (w : World) (dev : Str) (s : St) (claims : List (Option Bool)) (lvm : Nat) (hs : s.chosen = none)
    (h : ∀ c ∈ claims, c ≠ some true) :
    dmScanNext w claims lvm dev s = some (0, s) ∧ dmActionNext w lvm s = some (0, s) := by
  have hm : matchNext claims none = none := by
    cases e : matchNext claims none with
    | none => rfl
    | some i =>
      obtain ⟨h1, -⟩ := (C95_chosen claims i).mp e
      exact absurd rfl (h _ (List.mem_of_getElem? h1))
  refine ⟨?_, by simp [dmActionNext, hs]⟩
  obtain ⟨rs, ch, ran⟩ := s
  subst hs
  simp [dmScanNext, hm]

/-- **C95.** If `pvscan` cannot be run, the scan fails and nothing is recorded; if `vgchange` cannot be run, the action fails and the
    volume group stays recorded; whatever `vgchange` writes, it is not recorded and not run. -/
theorem C95_failure (w : World) (dev : Str) (s : St) :
    (w.pvscanOut = none → scanNext w dev s = some (-1, s)) ∧
    (∀ vg, s.recs (txt "LVM_VG_NAME_COMPLETE") = some vg → w.vgchangeOut = none → actionNext w s = some (-1, s)) ∧
    (∀ o, w.vgchangeOut = some o → ∃ s', actionNext w s = some (0, s') ∧
      ∀ k, k ≠ txt "LVM_VG_NAME_COMPLETE" → s'.recs k = s.recs k) := by
  refine ⟨fun h => by simp [scanNext, combToStr, h], fun vg hv h => ?_, fun o ho => ?_⟩
  · have hv' : s.recs completeKey = some vg := hv
    simp [actionNext, hv', combToStr, h]
  · cases hv : s.recs completeKey with
    | none => exact ⟨s, by simp [actionNext, hv], fun _ _ => rfl⟩
    | some vg =>
      refine ⟨⟨if w.canUnset then store s.recs completeKey none else s.recs, s.chosen, s.ran ++ [argv w.bin (vgchangeArgs ++ vg)]⟩,
        by simp [actionNext, hv, combToStr, ho, stdoutRecv_lines, outLines_off], fun k hk => ?_⟩
      have hk' : k ≠ completeKey := hk
      dsimp only
      split
      · simp [store, hk']
      · rfl

/-- **C95.** The counterexample for long lines: nothing behind the first line of 2048 or more characters is looked at, so a volume
    group reported there is not activated, and one reported before is, although the output says otherwise. -/
theorem C95_counterexample_long_line (w : World) (dev out : Str) (s : St) (a b : List Str) (long : Str)
    (hout : w.pvscanOut = some out) (hset : ∀ l ∈ a, ∀ k v, KeyVal l k v → w.canSet k v = true) (hl : lines out = a ++ long :: b)
    (ha : ∀ l ∈ a, Usual l) (hlong : 2048 ≤ long.length) :
    ∃ s', scanNext w dev s = some (0, s') ∧
      ∀ k, (∀ v, Says a k v → s'.recs k = some v) ∧ (Silent a k → s'.recs k = s.recs k) := by
  obtain ⟨rs, h1, h2⟩ := outLines_usual a hset ha s.recs
  have h3 : outLines true w.canSet s.recs (lines out) = some rs := by
    rw [hl, outLines_prefix a (long :: b) s.recs rs h1 ha hset, outLines]
    have : long.length > lineMax - 1 := by simp [lineMax]; omega
    simp only [outLine, Bool.not_true, Bool.false_eq_true, if_false, if_pos this]
  refine ⟨⟨rs, s.chosen, s.ran ++ [argv w.bin (pvscanArgs ++ dev)]⟩, ?_, h2⟩
  simp only [scanNext, combToStr, Option.getD_none, Option.getD_some, List.nil_append, hout, stdoutRecv_lines, h3, Option.map_some]

/-- **C95.** If a record cannot be stored, the lines behind are not looked at either; the scan does not fail. -/
theorem C95_store_failure (w : World) (dev out : Str) (s : St) (a b : List Str) (l k v : Str)
    (hout : w.pvscanOut = some out) (hl : lines out = a ++ l :: b) (ha : ∀ l ∈ a, Usual l)
    (hset : ∀ l ∈ a, ∀ k v, KeyVal l k v → w.canSet k v = true) (hlen : l.length ≤ 2047) (hkv : KeyVal l k v) (hno : w.canSet k v = false) :
    ∃ s', scanNext w dev s = some (0, s') ∧
      ∀ k, (∀ v, Says a k v → s'.recs k = some v) ∧ (Silent a k → s'.recs k = s.recs k) := by
  obtain ⟨rs, h1, h2⟩ := outLines_usual a hset ha s.recs
  have h3 : outLines true w.canSet s.recs (lines out) = some rs := by
    rw [hl, outLines_prefix a (l :: b) s.recs rs h1 ha hset, outLines]
    have : ¬ l.length > lineMax - 1 := by simp [lineMax]; omega
    simp only [outLine, Bool.not_true, Bool.false_eq_true, if_false, if_neg this, (C70_key_value l k v).mpr hkv, Option.map_some, storeKv, hno]
  refine ⟨⟨rs, s.chosen, s.ran ++ [argv w.bin (pvscanArgs ++ dev)]⟩, ?_, h2⟩
  simp only [scanNext, combToStr, Option.getD_none, Option.getD_some, List.nil_append, hout, stdoutRecv_lines, h3, Option.map_some]

/-- **C95.** The counterexample for names with blanks: a value of several words makes several arguments of it, so each of the words is
    activated as a volume group of its own. -/
theorem C95_counterexample_blank (w : World) (s : St) (o : Str) (names : List Str) (ho : w.vgchangeOut = some o) (hbin : Word w.bin)
    (hn : ∀ n ∈ names, Word n) (hne : names ≠ [])
    (hs : s.recs (txt "LVM_VG_NAME_COMPLETE") = some (List.intercalate [32] names)) :
    ∃ s', actionNext w s = some (0, s') ∧
      s'.ran = s.ran ++ [some ([w.bin, txt "vgchange", txt "-aay", txt "--autoactivation", txt "event"] ++ names)] := by
  have hs' : s.recs completeKey = some (List.intercalate [32] names) := hs
  have key : argv w.bin (vgchangeArgs ++ List.intercalate [32] names) =
      some ([w.bin, txt "vgchange", txt "-aay", txt "--autoactivation", txt "event"] ++ names) := by
    have := argv_join hbin (ws := [txt "vgchange", txt "-aay", txt "--autoactivation", txt "event"] ++ names) (by
      intro x hx
      rcases List.mem_append.mp hx with hx | hx
      · simp only [List.mem_cons, List.not_mem_nil, or_false] at hx
        rcases hx with h | h | h | h
        all_goals subst h
        all_goals exact word_of (by decide) (by decide)
      · exact hn x hx)
    cases names with
    | nil => exact absurd rfl hne
    | cons n ns =>
      have e : List.intercalate [32] ([txt "vgchange", txt "-aay", txt "--autoactivation", txt "event"] ++ n :: ns) =
          vgchangeArgs ++ List.intercalate [32] (n :: ns) := by
        have e0 : vgchangeArgs = txt "vgchange" ++ [32] ++ txt "-aay" ++ [32] ++ txt "--autoactivation" ++ [32] ++ txt "event" ++ [32] := by
          decide +kernel
        rw [e0]
        simp [List.intercalate, List.intersperse]
      rw [← e, this]
      rfl
  refine ⟨⟨if w.canUnset then store s.recs completeKey none else s.recs, s.chosen, s.ran ++ [_]⟩, ?_, rfl⟩
  simp only [actionNext, hs', combToStr, Option.getD_none, Option.getD_some, List.nil_append, ho, stdoutRecv_lines, outLines_off,
    Option.map_some, key]

/-- **C95.** The counterexample for lines without a value: the first such line, if the lines before it are as usual, makes the code
    read behind the end of the line. -/
theorem C95_counterexample_no_value (w : World) (dev out : Str) (s : St) (a b : List Str) (l : Str)
    (hout : w.pvscanOut = some out) (hset : ∀ l ∈ a, ∀ k v, KeyVal l k v → w.canSet k v = true) (hl : lines out = a ++ l :: b)
    (ha : ∀ l ∈ a, Usual l) (hlen : l.length ≤ 2047) (hv : NoValue l) : scanNext w dev s = none := by
  obtain ⟨rs, h1, h2⟩ := outLines_usual a hset ha s.recs
  have h3 : outLines true w.canSet s.recs (lines out) = none := by
    rw [hl, outLines_prefix a (l :: b) s.recs rs h1 ha hset, outLines]
    have : ¬ l.length > lineMax - 1 := by simp [lineMax]; omega
    simp only [outLine, Bool.not_true, Bool.false_eq_true, if_false, if_neg this, (C70_counterexample_no_value l).mpr hv, Option.map_none]
  simp only [scanNext, combToStr, Option.getD_none, Option.getD_some, List.nil_append, hout, stdoutRecv_lines, h3, Option.map_none]

namespace LvmNextExample

/-- a world in which everything works -/
def world (out : String) : World := ⟨txt "/sbin/lvm", some (txt out), some (txt "  2 logical volume(s) in volume group"), fun _ _ => true, true⟩

def start : St := ⟨fun _ => none, none, []⟩

/-- the output of `pvscan --udevoutput` for the last device of a volume group -/
def complete : String := "LVM_VG_NAME_COMPLETE='vg0'\n"

/-- `pvscan` reports the volume group complete: it is activated -/
example : ((dmScanNext (world complete) [none, some true] 1 (txt "sda") start).bind fun r =>
      (dmActionNext (world complete) 1 r.2).map fun r => (r.1, r.2.ran)) =
    some (0, [some (pvscanArgv (txt "/sbin/lvm") (txt "sda")), some (vgchangeArgv (txt "/sbin/lvm") (txt "vg0"))]) := by
  decide +kernel

/-- the hypotheses of the theorem hold of it -/
example : lines (txt complete) = [txt "LVM_VG_NAME_COMPLETE='vg0'"] ∧
    KeyVal (txt "LVM_VG_NAME_COMPLETE='vg0'") (txt "LVM_VG_NAME_COMPLETE") (txt "vg0") ∧ matchNext [none, some true] none = some 1 :=
  ⟨by decide +kernel, (C70_key_value _ _ _).mp (by decide +kernel), by decide⟩

example : Usual (txt "LVM_VG_NAME_COMPLETE='vg0'") := by
  refine ⟨by decide, fun h => ?_⟩
  have := (C70_counterexample_no_value _).mpr h
  revert this
  decide +kernel

example : Word (txt "vg0") ∧ Word (txt "/sbin/lvm") := ⟨word_of (by decide) (by decide), word_of (by decide) (by decide)⟩

/-- an incomplete one is not -/
example : ((dmScanNext (world "LVM_VG_NAME_INCOMPLETE='vg0'\n") [none, some true] 1 (txt "sda") start).bind fun r =>
      (dmActionNext (world "") 1 r.2).map fun r => (r.1, r.2.ran)) =
    some (0, [some (pvscanArgv (txt "/sbin/lvm") (txt "sda"))]) := by
  decide +kernel

/-- a line with an empty value is undefined behaviour -/
example : (dmScanNext (world "A='b'\nLVM_VG_NAME_COMPLETE=\n") [some true] 0 (txt "sda") start).isNone = true := by
  decide +kernel

example : NoValue (txt "LVM_VG_NAME_COMPLETE=") := (C70_counterexample_no_value _).mp (by decide +kernel)

/-- two volume groups of one record -/
example : ((dmScanNext (world "LVM_VG_NAME_COMPLETE='vg0 vg1'\n") [some true] 0 (txt "sda") start).bind fun r =>
      (dmActionNext (world "") 0 r.2).map fun r => (r.1, r.2.ran.tail)) =
    some (0, [some [txt "/sbin/lvm", txt "vgchange", txt "-aay", txt "--autoactivation", txt "event", txt "vg0", txt "vg1"]]) := by
  decide +kernel

/-- a name with a quote: nothing is run in the process made -/
example : ((dmScanNext (world "LVM_VG_NAME_COMPLETE=\"vg'0\"\n") [some true] 0 (txt "sda") start).bind fun r =>
      (dmActionNext (world "") 0 r.2).map fun r => (r.1, r.2.ran.tail)) = some (0, [none]) := by
  decide +kernel

/-- of several lines the last one counts -/
example : ((dmScanNext (world "LVM_VG_NAME_COMPLETE='a'\nnonsense\nLVM_VG_NAME_COMPLETE='b'\n\n") [some true] 0 (txt "sda") start).map
      fun r => (r.2.recs (txt "LVM_VG_NAME_COMPLETE"))) = some (some (txt "b")) := by
  decide +kernel

/-- two submodules claiming a device: the last one is used -/
example : matchNext [some true, some true, some false] none = some 1 := by decide

/-- a long line -/
example (n : Nat) (h : 2048 ≤ n) : lines (List.replicate n 97) = [] ++ List.replicate n 97 :: [] := by
  rw [lines, pieces_plain (by simp [List.mem_replicate])]
  cases n with
  | zero => cases h
  | succ n => simp [List.replicate_succ]

end LvmNextExample

end Sid.Props
