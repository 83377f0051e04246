import Verif.Spec.SysDeps
import Verif.Props.UbrGroup
import Verif.Props.UbrStack
/-
C89 (what a device lies on is recorded as the kernel shows it).
-/
namespace Sid.Props
open Sid.Ubr Sid.Spec.Delta Sid.Spec.Sync Sid.Spec.Group
open Sid.Spec.SysDeps (IsNum IsDisk NoNumber slave PartOf)
open Sid.Ifc (txt)

theorem seq_line {n : Nat} : ∀ {s : Str}, 10 ∉ s → s.length < n → Mod.fgets n (s ++ [10]) = (s ++ [10], []) := by
  induction n with
  | zero => intro s _ h; omega
  | succ n ih =>
    intro s hs hl
    cases s with
    | nil => simp [Mod.fgets]
    | cons c s =>
      simp only [List.mem_cons, not_or] at hs
      have := ih (s := s) hs.2 (by simp only [List.length_cons] at hl; omega)
      simp only [List.cons_append, Mod.fgets]
      rw [this]
      have hc : c ≠ 10 := fun e => hs.1 e.symm
      simp [hc]

theorem readDseq_disk {sys : Sysfs} {d n : Str} (h : IsDisk sys d n) : readDseq sys d = some n := by
  obtain ⟨⟨h1, h2, h3⟩, h4⟩ := h
  have h10 : (10 : UInt8) ∉ n := fun hm => absurd (h3 10 hm).1 (by decide)
  unfold readDseq Mod.sysfsGet
  rw [h4, Option.bind_some, if_neg (by simp), seq_line h10 (by omega)]
  dsimp only
  rw [List.getLast?_concat, if_pos rfl, List.dropLast_concat]

theorem readDseq_none {sys : Sysfs} {d : Str} (h : NoNumber sys d) : readDseq sys d = none := by
  unfold readDseq
  rw [h]
  rfl

theorem slave_eq (path name : Str) : slavesPath path ++ [47] ++ name = slave path name := by
  unfold slavesPath slave sysRoot
  rw [show txt "/slaves/" = [47] ++ txt "slaves" ++ [47] from by decide]
  simp only [List.append_assoc]

theorem slaves_eq (path : Str) : slavesPath path = txt "/sys" ++ path ++ txt "/slaves" := by
  unfold slavesPath sysRoot
  rw [show txt "/slaves" = [47] ++ txt "slaves" from by decide]
  simp only [List.append_assoc]

/-- the numbers found are those of the disks shown -/
theorem slaveDseq_iff {sys : Sysfs} {path : Str} {names : List Str} (h : Spec.SysDeps.Lists sys path names) {x : Str} (hx : x ∈ names)
    (n : Str) : slaveDseq sys path x = some n ↔ x.head? ≠ some 46 ∧ IsDisk sys (slave path x) n := by
  unfold slaveDseq
  by_cases hd : x.head? = some 46
  · simp [hd]
  rw [if_neg hd, slave_eq]
  rcases h.shown x hx hd with h1 | ⟨m, h1⟩
  · rw [readDseq_none h1]
    constructor
    · intro e; cases e
    · rintro ⟨-, -, e⟩; rw [h1] at e; cases e
  · rw [readDseq_disk h1]
    constructor
    · intro e; cases e; exact ⟨hd, h1⟩
    · rintro ⟨-, -, e⟩
      rw [h1.2] at e
      simp only [Option.some.injEq, List.append_cancel_right_eq] at e
      rw [e]

theorem num_plain {n : Str} (h : IsNum n) : 58 ∉ n := fun hm => absurd (h.2.2 58 hm).2 (by decide)

theorem dseqs_nodup {sys : Sysfs} {path : Str} {names : List Str} (h : Spec.SysDeps.Lists sys path names) :
    (names.filterMap (slaveDseq sys path)).Nodup := by
  have : ∀ l : List Str, l.Nodup → (∀ x ∈ l, x ∈ names) → (l.filterMap (slaveDseq sys path)).Nodup := by
    intro l
    induction l with
    | nil => intro _ _; simp
    | cons x l ih =>
      intro hn hs
      obtain ⟨h1, h2⟩ := List.nodup_cons.mp hn
      have ih := ih h2 fun y hy => hs y (List.mem_cons_of_mem _ hy)
      cases e : slaveDseq sys path x with
      | none => rw [List.filterMap_cons_none e]; exact ih
      | some n =>
        rw [List.filterMap_cons_some e, List.nodup_cons]
        refine ⟨?_, ih⟩
        intro hm
        obtain ⟨y, hy, e'⟩ := List.mem_filterMap.mp hm
        have a := (slaveDseq_iff h (hs x (by simp)) n).mp e
        have b := (slaveDseq_iff h (hs y (List.mem_cons_of_mem _ hy)) n).mp e'
        rw [h.different x (hs x (by simp)) y (hs y (List.mem_cons_of_mem _ hy)) a.1 b.1 n a.2 b.2] at h1
        exact h1 hy
  exact this names h.distinct fun _ hx => hx

/-- C89 (partial: a device below that shows no number, as partitions do, is left out; see
    `C89_counterexample_on_partition`).  After an event of a disk that is not its removal, it is recorded as lying on exactly those
    disks the kernel lists for it, and each of these as having it on top. -/
theorem C89_disk_partial (db0 db : Db) (hs : Synced Rel db0) (hc : Consistent db0) (h : Life db0 db) (c : Ctx) (hd : DevOk c)
    (uid : Str) (hu : c.uid = some uid) (sys : Sysfs) (path : Str) (names : List Str) (hl : Spec.SysDeps.Lists sys path names) :
    ∃ db', updateFromSysfs sys db c .disk false path = some (0, db') ∧ Life db0 db' ∧
      ∀ n, 58 ∉ n →
        (Lists db' (.dev uid) (disk n) ↔ ∃ x ∈ names, x.head? ≠ some 46 ∧ IsDisk sys (slave path x) n) ∧
        (IsIn db' (disk n) (.dev uid) ↔ ∃ x ∈ names, x.head? ≠ some 46 ∧ IsDisk sys (slave path x) n) := by
  have hp : ∀ n ∈ names.filterMap (slaveDseq sys path), 58 ∉ n := by
    intro n hn
    obtain ⟨x, hx, e⟩ := List.mem_filterMap.mp hn
    exact num_plain ((slaveDseq_iff hl hx n).mp e).2.1
  obtain ⟨db', e, h1⟩ := C49_dependencies db0 db hs hc h c hd uid hu _ (dseqs_nodup hl) hp
  have hm : ∀ n, n ∈ names.filterMap (slaveDseq sys path) ↔ ∃ x ∈ names, x.head? ≠ some 46 ∧ IsDisk sys (slave path x) n := by
    intro n
    rw [List.mem_filterMap]
    constructor
    · rintro ⟨x, hx, e⟩; exact ⟨x, hx, (slaveDseq_iff hl hx n).mp e⟩
    · rintro ⟨x, hx, e⟩; exact ⟨x, hx, (slaveDseq_iff hl hx n).mpr e⟩
  refine ⟨db', ?_, .group (x := .deps c _) h ⟨hd, dseqs_nodup hl, hp⟩ e, ?_⟩
  · simp only [gcall] at e
    simp only [updateFromSysfs, updateDisk, Bool.false_eq_true, if_false]
    rw [slaves_eq, hl.listed]
    simp only
    rw [e]
    rfl
  · intro n hn
    have := h1 n hn
    rw [hm] at this
    exact this

theorem dropSlashes_self {s : Str} (h : s.getLast? ≠ some 47) : dropSlashes s = s := by
  unfold dropSlashes
  cases e : s.reverse with
  | nil => simp at e; simp [e]
  | cons a l =>
    have : s = l.reverse ++ [a] := by rw [← List.reverse_reverse s, e]; simp
    rw [this, List.getLast?_concat] at h
    have ha : a ≠ 47 := fun e => h (by rw [e])
    rw [List.dropWhile_cons_of_neg (by simpa using ha)]
    rw [this]; simp

theorem last_append (a : Str) {b : Str} (h : b ≠ []) : (a ++ b).getLast? = b.getLast? := by
  rw [List.getLast?_append]
  cases e : b.getLast? with
  | none => exact absurd (List.getLast?_eq_none_iff.mp e) h
  | some x => rfl

theorem dirname_part {path d : Str} (h : PartOf path d) : dirname (sysRoot ++ path) = sysRoot ++ d := by
  obtain ⟨name, h1, h2, rfl, h3, h4⟩ := h
  have hr : sysRoot ++ (d ++ [47] ++ name) = (sysRoot ++ d) ++ [47] ++ name := by simp
  have hd : (sysRoot ++ d).getLast? ≠ some 47 := by
    rw [last_append _ h3]; exact h4
  have hn : (sysRoot ++ d) ≠ [] := by simp [h3]
  rw [hr]
  generalize sysRoot ++ d = q at *
  have e1 : dropSlashes (q ++ [47] ++ name) = q ++ [47] ++ name := by
    apply dropSlashes_self
    rw [last_append _ h1]
    intro e
    exact h2 (List.mem_of_getLast? e)
  have e2 : ((q ++ [47] ++ name).reverse.dropWhile (· ≠ 47)).reverse = q ++ [47] := by
    rw [List.reverse_append, List.dropWhile_append_of_pos (by
      intro a ha
      simp only [List.mem_reverse] at ha
      simp only [ne_eq, decide_not, Bool.not_eq_eq_eq_not, Bool.not_true, decide_eq_false_iff_not]
      exact fun e => h2 (e ▸ ha))]
    simp
  have e3 : dropSlashes (q ++ [47]) = q := by
    unfold dropSlashes
    rw [List.reverse_append]
    simp only [List.reverse_cons, List.reverse_nil, List.nil_append, List.cons_append]
    rw [List.dropWhile_cons_of_pos (by simp)]
    exact dropSlashes_self hd
  unfold dirname
  rw [e1, e2, e3]
  dsimp only
  rw [if_neg hn]

/-- C89.  After an event of a partition that is not its removal, it is recorded as lying on exactly the disk it is a part of. -/
theorem C89_partition (db0 db : Db) (hs : Synced Rel db0) (hc : Consistent db0) (h : Life db0 db) (c : Ctx) (hd : DevOk c)
    (uid : Str) (hu : c.uid = some uid) (sys : Sysfs) (path d n : Str) (hp : PartOf path d) (hn : IsDisk sys (txt "/sys" ++ d) n) :
    ∃ db', updateFromSysfs sys db c .partition false path = some (0, db') ∧ Life db0 db' ∧
      ∀ m, 58 ∉ m → (Lists db' (.dev uid) (disk m) ↔ m = n) ∧ (IsIn db' (disk m) (.dev uid) ↔ m = n) := by
  have hp' : ∀ x ∈ [n], 58 ∉ x := by
    intro x hx
    rw [List.mem_singleton] at hx
    rw [hx]; exact num_plain hn.1
  obtain ⟨db', e, h1⟩ := C49_dependencies db0 db hs hc h c hd uid hu [n] (by simp) hp'
  refine ⟨db', ?_, .group (x := .deps c _) h ⟨hd, by simp, hp'⟩ e, ?_⟩
  · simp only [gcall] at e
    simp only [updateFromSysfs, updatePart, Bool.false_eq_true, if_false]
    rw [dirname_part hp, show sysRoot = txt "/sys" from rfl, readDseq_disk hn, Option.bind_some, e]
    rfl
  · intro m hm
    have := h1 m hm
    simpa using this

/-- C89.  When a disk or partition is removed, it is recorded as lying on nothing, whatever sysfs still shows. -/
theorem C89_removed (db0 db : Db) (hs : Synced Rel db0) (hc : Consistent db0) (h : Life db0 db) (c : Ctx) (hd : DevOk c)
    (uid : Str) (hu : c.uid = some uid) (sys : Sysfs) (path : Str) (type : Event.DevType) (ht : type ≠ .unknown) :
    ∃ db', updateFromSysfs sys db c type true path = some (0, db') ∧ Life db0 db' ∧
      ∀ n, 58 ∉ n → ¬ Lists db' (.dev uid) (disk n) ∧ ¬ IsIn db' (disk n) (.dev uid) := by
  obtain ⟨db', e, h1⟩ := C49_dependencies db0 db hs hc h c hd uid hu [] (by simp) (by simp)
  refine ⟨db', ?_, .group (x := .deps c _) h ⟨hd, by simp, by simp⟩ e, ?_⟩
  · simp only [gcall] at e
    cases type with
    | unknown => exact absurd rfl ht
    | disk => simp only [updateFromSysfs, updateDisk, if_true]; rw [e]; rfl
    | partition => simp only [updateFromSysfs, updatePart, if_true]; rw [e]; rfl
  · intro n hn
    have := h1 n hn
    simpa using this

/-- C89, the use of it.  A module that asks what the device of the command lies on, directly, gets exactly the disks the kernel lists
    (if it may read the lists). -/
theorem C89_asked_partial (db0 db : Db) (hs : Synced Rel db0) (hc : Consistent db0) (h : Life db0 db) (c : Ctx) (hd : DevOk c)
    (uid : Str) (hu : c.uid = some uid) (sys : Sysfs) (path : Str) (names : List Str) (hl : Spec.SysDeps.Lists sys path names)
    (dseq owner : Str) :
    ∃ db', updateFromSysfs sys db c .disk false path = some (0, db') ∧ (Spec.Stack.Readable db' owner →
      Spec.Stack.Finds (fun fuel => stackGet db' c dseq owner .immAnc fuel none) fun k =>
        ∃ n, k = (disk n).name ∧ ∃ x ∈ names, x.head? ≠ some 46 ∧ IsDisk sys (slave path x) n) := by
  obtain ⟨db', e, hlife, h1⟩ := C89_disk_partial db0 db hs hc h c hd uid hu sys path names hl
  refine ⟨db', e, fun hr => ?_⟩
  obtain ⟨base, hi⟩ := life_inv (synced_inv hs hc) hlife
  have h58 : 58 ∉ uid := hd uid hu
  obtain ⟨r, k, f1, f2⟩ := (C50_immediate db' c dseq owner hi.1 hr none uid).1 (.inl ⟨rfl, hu, h58⟩)
  refine ⟨r, k, f1, fun x => (f2 x).trans ?_⟩
  constructor
  · rintro ⟨n, ⟨-, hln⟩, rfl⟩
    obtain ⟨m, hm, e⟩ := hi.1.ofDev uid h58 _ hln
    refine ⟨m, e, ((h1 m hm).1).mp ?_⟩
    unfold Lists
    rw [← e]
    exact hln
  · rintro ⟨n, rfl, y, hy, hy1, hy2⟩
    exact ⟨n, ⟨h58, ((h1 n (num_plain hy2.1)).1).mpr ⟨y, hy, hy1, hy2⟩⟩, rfl⟩

/-- C89 fails when the devices below cannot be listed: the scan goes on as if all was well, with what was recorded before. -/
theorem C89_counterexample_unlisted (sys : Sysfs) (db : Db) (c : Ctx) (path : Str)
    (h : sys.dir (txt "/sys" ++ path ++ txt "/slaves") = none) : updateFromSysfs sys db c .disk false path = some (0, db) := by
  simp only [updateFromSysfs, updateDisk, Bool.false_eq_true, if_false]
  rw [slaves_eq, h]
  rfl

/-- C89 fails for a device on partitions, which show no number: it is recorded as lying on nothing. -/
theorem C89_counterexample_on_partition (db0 db : Db) (hs : Synced Rel db0) (hc : Consistent db0) (h : Life db0 db) (c : Ctx)
    (hd : DevOk c) (uid : Str) (hu : c.uid = some uid) (sys : Sysfs) (path : Str) (names : List Str)
    (hl : Spec.SysDeps.Lists sys path names) (hp : ∀ x ∈ names, x.head? ≠ some 46 → NoNumber sys (slave path x)) :
    ∃ db', updateFromSysfs sys db c .disk false path = some (0, db') ∧ ∀ n, 58 ∉ n → ¬ Lists db' (.dev uid) (disk n) := by
  obtain ⟨db', e, -, h1⟩ := C89_disk_partial db0 db hs hc h c hd uid hu sys path names hl
  refine ⟨db', e, fun n hn hx => ?_⟩
  obtain ⟨x, hx, h2, -, h3⟩ := (h1 n hn).1.mp hx
  rw [hp x hx h2] at h3
  cases h3

/-- C89 fails for a partition of a disk that shows no number: the message about it uses memory that was given back. -/
theorem C89_counterexample_freed (sys : Sysfs) (db : Db) (c : Ctx) (path d : Str) (hp : PartOf path d)
    (h : NoNumber sys (txt "/sys" ++ d)) : updateFromSysfs sys db c .partition false path = none := by
  simp only [updateFromSysfs, updatePart, Bool.false_eq_true, if_false]
  rw [dirname_part hp, show sysRoot = txt "/sys" from rfl, readDseq_none h]
  rfl

namespace SysDepsExample

/-- a volume on a disk and a partition of another one -/
def sys : Sysfs where
  dir p := if p = txt "/sys/devices/virtual/block/dm-0/slaves" then some [txt ".", txt "..", txt "sda", txt "sdb1"] else none
  file p :=
    if p = txt "/sys/devices/virtual/block/dm-0/slaves/sda/diskseq" then some (txt "12" ++ [10])
    else if p = txt "/sys/devices/pci/block/sdb/diskseq" then some (txt "13" ++ [10]) else none

theorem listed : Spec.SysDeps.Lists sys (txt "/devices/virtual/block/dm-0") [txt ".", txt "..", txt "sda", txt "sdb1"] := by
  have hb : NoNumber sys (slave (txt "/devices/virtual/block/dm-0") (txt "sdb1")) := by unfold NoNumber; decide +kernel
  refine ⟨by decide +kernel, by decide +kernel, ?_, ?_⟩
  · intro x hx hd
    simp only [List.mem_cons, List.not_mem_nil, or_false] at hx
    rcases hx with rfl | rfl | rfl | rfl
    · exact absurd (by decide) hd
    · exact absurd (by decide) hd
    · exact .inr ⟨txt "12", ⟨by decide, by decide, by decide⟩, by decide +kernel⟩
    · exact .inl hb
  · intro x hx y hy hdx hdy n h1 h2
    simp only [List.mem_cons, List.not_mem_nil, or_false] at hx hy
    have hb' : ∀ n, ¬ IsDisk sys (slave (txt "/devices/virtual/block/dm-0") (txt "sdb1")) n := by
      intro n h
      have := h.2
      rw [hb] at this
      cases this
    rcases hx with rfl | rfl | rfl | rfl
    · exact absurd (by decide) hdx
    · exact absurd (by decide) hdx
    · rcases hy with rfl | rfl | rfl | rfl
      · exact absurd (by decide) hdy
      · exact absurd (by decide) hdy
      · rfl
      · exact absurd h2 (hb' n)
    · exact absurd h1 (hb' n)

/-- the volume is recorded as lying on the disk only -/
example : ((updateFromSysfs sys Db.empty { uid := some (txt "u1") } .disk false (txt "/devices/virtual/block/dm-0")).map fun r =>
    (r.1, (r.2.recs (txt "::D:u1:::#GMB")).map (·.val))) = some (0, some (.vector [txt ":ALS:M:/:dseq:12:"])) := by decide +kernel

example : PartOf (txt "/devices/pci/block/sdb/sdb1") (txt "/devices/pci/block/sdb") ∧
    IsDisk sys (txt "/sys" ++ txt "/devices/pci/block/sdb") (txt "13") := by
  refine ⟨⟨txt "sdb1", by decide, by decide, by decide, by decide, by decide⟩, ⟨by decide, by decide, by decide⟩, by decide +kernel⟩

end SysDepsExample

end Sid.Props
