import Verif.Proof.UbrMod
/-
C77: the module that handles a device.
-/
namespace Sid.Props
open Sid.Mod Sid.Spec.Mod
open Sid.Event (DevType)
open Sid.Ifc (txt)

/-! ### C77 -/

/-- C77 (partial: devices the kernel gives numbers of its extended range only if they are NVMe devices; see the
    counterexamples).  The module is the one named like the driver of the device in the kernel's table, with underscores for
    dashes; for NVMe devices it is "nvme".  Without a driver there is none. -/
theorem C77_module_of_driver_partial {chars blocks : List Driver} (hc : ∀ d ∈ chars, Proper d) (hb : ∀ d ∈ blocks, Proper d)
    {sys : Sys} (hp : sys.procDevices = procDevices chars blocks) {major : Nat} (h0 : 0 < major) (h1 : major < 2 ^ 31)
    (name : Option Str) (type : DevType) (depth : Nat) :
    (driverOf blocks major = none → lookup sys name type (depth + 1) (BitVec.ofNat 32 major) = some none) ∧
    (∀ driver, driverOf blocks major = some driver → driver ≠ ascii "blkext" →
      lookup sys name type (depth + 1) (BitVec.ofNat 32 major) = some (some (moduleFor driver))) ∧
    (∀ t, driverOf blocks major = some (ascii "blkext") → name = some (ascii "nvme" ++ t) → type ≠ .unknown →
      lookup sys name type (depth + 1) (BitVec.ofNat 32 major) = some (some (ascii "nvme"))) := by
  have hs := scan_proc h0 h1 hc hb
  rw [← hp] at hs
  refine ⟨fun h => ?_, fun driver h hd => ?_, fun t h hn ht => ?_⟩
  · rw [lookup.eq_def]; simp only [hs, h]
  · rw [lookup.eq_def]; simp only [hs, h]
    simp only [name_printed (driverOf_proper hb h)]
    rw [if_neg (show ¬ driver = blkext from hd)]
    rfl
  · have e : isNvme name = some true := by rw [hn]; simp [isNvme, nvme, ascii, txt]
    rw [lookup.eq_def]; simp only [hs, h]
    simp only [name_printed (driverOf_proper hb h)]
    rw [if_pos (show ascii "blkext" = blkext from rfl)]
    cases type with
    | unknown => exact absurd rfl ht
    | disk => simp only [e]; rfl
    | partition => simp only [e]; rfl

/-- C77 is false of partitions with a number of the extended range: whatever driver the whole disk has, its module is not
    found.  (The comparison with "blkext" is the wrong way round.) -/
theorem C77_extended_partition_counterexample {chars blocks : List Driver} (hc : ∀ d ∈ chars, Proper d)
    (hb : ∀ d ∈ blocks, Proper d) {sys : Sys} (hp : sys.procDevices = procDevices chars blocks) {major disk minor : Nat}
    (h0 : 0 < major) (h1 : major < 2 ^ 31) (g0 : 0 < disk) (g1 : disk < 2 ^ 31)
    (hx : driverOf blocks major = some (ascii "blkext")) (hw : sys.wholeDev = some (devFile disk minor))
    {driver name : Str} (hd : driverOf blocks disk = some driver) (hd' : driver ≠ ascii "blkext")
    (hn : ∀ t, name ≠ ascii "nvme" ++ t) (depth : Nat) :
    lookup sys (some name) .partition (depth + 2) (BitVec.ofNat 32 major) = some none := by
  have hs := scan_proc h0 h1 hc hb
  rw [← hp] at hs
  have e : isNvme (some name) = some false := by
    simp only [isNvme, Option.map_some, Option.some.injEq, beq_eq_false_iff_ne]
    intro e
    exact hn (name.drop 4) (by rw [show ascii "nvme" = nvme from rfl, ← e, List.take_append_drop])
  rw [lookup, hs, hx]
  simp only [name_printed (driverOf_proper hb hx)]
  rw [if_pos (show ascii "blkext" = blkext from rfl)]
  simp only [e, Option.bind_some, wholeMajor_dev g0 g1 hw]
  rw [if_neg (by decide), (C77_module_of_driver_partial hc hb hp g0 g1 _ _ depth).2.1 driver hd hd']
  have hne : canonMod driver ≠ blkext := by
    intro h
    apply hd'
    have key : ∀ (a b : Str), 95 ∉ b → canonMod a = b → a = b := by
      intro a
      induction a with
      | nil => intro b _ h; simpa [canonMod] using h
      | cons c a ih =>
        intro b hb h
        cases b with
        | nil => simp [canonMod] at h
        | cons x b =>
          simp only [canonMod, List.map_cons, List.cons.injEq] at h
          obtain ⟨h1, h2⟩ := h
          have := ih b (fun m => hb (by simp [m])) h2
          split at h1
          · exact absurd (by simp [← h1]) hb
          · rw [h1, this]
    exact key driver blkext (by decide) h
  simp only [Option.map_some, unlessOther, Option.some.injEq]
  exact if_pos hne

/-- C77 is false, and worse, of partitions if the whole disk has such a number as well: the search goes on for ever, here until
    the stack, however large, is used up. -/
theorem C77_extended_disk_counterexample {chars blocks : List Driver} (hc : ∀ d ∈ chars, Proper d)
    (hb : ∀ d ∈ blocks, Proper d) {sys : Sys} (hp : sys.procDevices = procDevices chars blocks) {disk minor : Nat}
    (g0 : 0 < disk) (g1 : disk < 2 ^ 31) (hx : driverOf blocks disk = some (ascii "blkext"))
    (hw : sys.wholeDev = some (devFile disk minor)) {name : Str} (hn : ∀ t, name ≠ ascii "nvme" ++ t) (depth : Nat) :
    lookup sys (some name) .partition depth (BitVec.ofNat 32 disk) = none ∧
    lookup sys (some name) .disk (depth + 1) (BitVec.ofNat 32 disk) = some none := by
  have hs := scan_proc g0 g1 hc hb
  rw [← hp] at hs
  have e : isNvme (some name) = some false := by
    simp only [isNvme, Option.map_some, Option.some.injEq, beq_eq_false_iff_ne]
    intro e
    exact hn (name.drop 4) (by rw [show ascii "nvme" = nvme from rfl, ← e, List.take_append_drop])
  constructor
  · induction depth with
    | zero => rfl
    | succ depth ih =>
      rw [lookup, hs, hx]
      simp only [name_printed (driverOf_proper hb hx)]
      rw [if_pos (show ascii "blkext" = blkext from rfl)]
      simp only [e, Option.bind_some, wholeMajor_dev g0 g1 hw]
      rw [if_neg (by decide), ih]
      rfl
  · rw [lookup, hs, hx]
    simp only [name_printed (driverOf_proper hb hx)]
    rw [if_pos (show ascii "blkext" = blkext from rfl)]
    simp only [e]
    rfl

open Sid.Ubr in
/-- C77: once found the module stays the same for the device: after whatever modules write, reserve and unreserve, in any
    process, it is the one remembered, whatever is in the files then. -/
theorem C77_module_remembered {db db' db'' : Db} {c : Ctx} {sys : Sys} {name : Option Str} {type : DevType} {depth : Nat}
    {major : BitVec 32} {m : Str} (h : baseModName db c sys name type depth major = some (some m, db'))
    (ho : ∀ r, db.recs (modKey c) = some r → r.owner = txt "/" ∧ ¬ Spec.Perm.frgWr r ∧ ¬ Spec.Perm.subWr r ∧ ¬ Spec.Perm.supWr r)
    {isWorker : Bool} {l : List (Str × Call)} (hl : ∀ x ∈ l, Spec.Perm.ModName x.1) (hr : calls isWorker db' l = some db'')
    (sys' : Sys) (name' : Option Str) (type' : DevType) (depth' : Nat) (major' : BitVec 32) :
    baseModName db'' c sys' name' type' depth' major' = some (some m, db'') := by
  have key : ∃ r, db'.recs (modKey c) = some r ∧ valueText r = some m ∧ r.owner = txt "/" ∧ ¬ Spec.Perm.frgWr r ∧
      ¬ Spec.Perm.subWr r ∧ ¬ Spec.Perm.supWr r := by
    unfold baseModName at h
    cases hm : remembered db c with
    | some m' =>
      simp only [hm, Option.some.injEq, Prod.mk.injEq] at h
      obtain ⟨rfl, rfl⟩ := h
      obtain ⟨r, h1, h2⟩ := remembered_iff hm
      exact ⟨r, h1, h2, ho r h1⟩
    | none =>
      simp only [hm] at h
      cases hk : lookup sys name type depth major with
      | none => simp [hk] at h
      | some o =>
        cases o with
        | none => simp [hk] at h
        | some m' =>
          simp only [hk, Option.bind_some, Option.map_eq_some_iff] at h
          obtain ⟨⟨ret, d⟩, h1, h2⟩ := h
          simp only [Prod.mk.injEq] at h2
          obtain ⟨h2, rfl⟩ := h2
          obtain ⟨rfl, hd⟩ := core_set h1
          simp only [show ¬ (0 : Int) < 0 by decide, if_false, Option.some.injEq] at h2
          subst h2
          rw [hd]
          refine ⟨_, writeRec_key db _ _ (modKey_head c), ?_, rfl, ?_, ?_, ?_⟩
          · exact valueText_stored (lookup_noNul depth hk)
          · unfold Spec.Perm.frgWr; simp only [setRec]; decide
          · unfold Spec.Perm.subWr; simp only [setRec]; decide
          · unfold Spec.Perm.supWr; simp only [setRec]; decide
  obtain ⟨r, h1, h2, h3, h4, h5, h6⟩ := key
  have hc : ∀ w, ¬ Spec.Perm.Confusable r.owner w := by
    rintro w (⟨a, b, o', w', e, -⟩ | ⟨p, a, o', w', e, -, ne⟩)
    · rw [h3] at e; exact absurd e (by simp [txt])
    · rw [h3, show txt "/" = [47] from rfl] at e
      cases p with
      | nil => simp at e; exact ne e.1.symm
      | cons x p => simp at e
  have := calls_keep (modKey_head c) l h1 (fun x hx => (wrAllowed_neg ⟨[], h3⟩ (by
      obtain ⟨t, -, ht⟩ := hl x hx; exact ⟨t, ht⟩) (hc _)).mpr (by
    obtain ⟨t, ht0, ht⟩ := hl x hx
    have hb : Spec.Perm.Below r.owner x.1 := .inr ⟨h3, t, ht0, ht⟩
    rintro (e | e | ⟨-, e⟩ | ⟨-, e⟩ | ⟨-, -, e⟩)
    · rw [ht] at e; simp at e; exact ht0 e
    · rw [ht, h3] at e
      have : t = [] := by simpa [txt] using e
      exact ht0 this
    · exact h5 e
    · exact h6 e
    · exact h4 e)) hr
  simp only [baseModName, remembered_some this, h2]

/-- a machine with two drivers, and devices of them: the table as the kernel prints it and what is found -/
def drivers : List Driver := [(8, ascii "sd"), (253, ascii "device-mapper"), (259, ascii "blkext")]

example : (∀ d ∈ drivers, Proper d) ∧ (∀ d ∈ [(1, ascii "mem"), (8, ascii "Bogus")], Proper d) ∧
    procDevices [(1, ascii "mem"), (8, ascii "Bogus")] drivers =
      ascii "Character devices:\n  1 mem\n  8 Bogus\n\nBlock devices:\n  8 sd\n253 device-mapper\n259 blkext\n" ∧
    driverOf drivers 253 = some (ascii "device-mapper") ∧ moduleFor (ascii "device-mapper") = ascii "device_mapper" ∧
    driverOf drivers 259 = some (ascii "blkext") ∧ driverOf drivers 7 = none := by
  refine ⟨?_, ?_, by decide +kernel, by decide, by decide, by decide, by decide⟩
  · unfold Proper; decide
  · unfold Proper; decide

open Sid.Ubr in
/-- the module of a device found, in an empty database, where nothing is remembered yet -/
example : (baseModName Db.empty {} ⟨procDevices [] drivers, none⟩ (some (ascii "dm-0")) .disk 1 253).map (·.1) =
    some (some (ascii "device_mapper")) ∧ (∀ r, Db.empty.recs (modKey {}) = some r → r.owner = txt "/") := by
  refine ⟨by decide +kernel, ?_⟩
  intro r h
  cases h

end Sid.Props
