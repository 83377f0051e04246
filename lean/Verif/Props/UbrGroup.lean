import Verif.Proof.UbrGroup
/-
C49 (group membership is consistent in both directions).
-/
namespace Sid.Props
open Sid.Ubr Sid.Spec.Delta Sid.Spec.Sync Sid.Spec.Group
open Sid.Ifc (txt)

/-- C49: after anything that happens in a worker (groups and aliases created, devices added and removed, groups destroyed, aliases
    renamed, dependencies read from sysfs, other calls of modules, exports), of any groups and devices: the device is in the list
    of the group's members iff the group is in the list of what the device is in. -/
theorem C49_bidirectional (db0 db : Db) (hs : Synced Rel db0) (hc : Consistent db0) (h : Life db0 db) (a b : Ent) (ha : a.Valid)
    (hb : b.Valid) : Lists db a b ↔ IsIn db b a := by
  obtain ⟨base, hi⟩ := life_inv (synced_inv hs hc) h
  exact hi.1.both a b ha hb

/-- C49: at any time each of these calls comes to an end with a result. -/
theorem C49_total (db0 db : Db) (hs : Synced Rel db0) (hc : Consistent db0) (h : Life db0 db) (x : GCall) (hx : CallOk x) :
    ∃ rc db', gcall db x = some (rc, db') ∧ Life db0 db' := by
  obtain ⟨base, hi⟩ := life_inv (synced_inv hs hc) h
  obtain ⟨rc, db', e, -⟩ := gcall_inv hi hx
  exact ⟨rc, db', e, .group h hx e⟩

/-- C49: a device added to a group is in it, one removed from it is not; other devices and other groups stay as they are. -/
theorem C49_add_del (db0 db : Db) (hs : Synced Rel db0) (hc : Consistent db0) (h : Life db0 db) (c : Ctx) (hd : DevOk c) (uid : Str)
    (hu : c.uid = some uid) (owner : Str) (ns : Ns) (cat name : Str) (hn : ns ≠ .undefined ∧ cat ≠ [] ∧ name ≠ []) (adding : Bool) :
    ∃ db', gcall db (if adding then .add c owner ns cat name else .del c owner ns cat name) = some (0, db') ∧
      (∀ b : Ent, b.Valid → (IsIn db' b (.grp (txt "GRP") ns owner (some cat) name) ↔
        if b.name = (Ent.dev uid).name then adding = true else IsIn db b (.grp (txt "GRP") ns owner (some cat) name))) ∧
      ∀ a b : Ent, a.Valid → b.Valid → a.name ≠ (Ent.grp (txt "GRP") ns owner (some cat) name).name →
        (IsIn db' b a ↔ IsIn db b a) := by
  obtain ⟨base, hi⟩ := life_inv (synced_inv hs hc) h
  have hv : (Ent.grp (txt "GRP") ns owner (some cat) name).Valid := Or.inr rfl
  obtain ⟨db', e, i, hm, ho⟩ := handleDevs_ok (vdevs := none) (op := if adding then .plus else .minus) hi hd hv
    (by intro l hl; cases hl)
  refine ⟨db', ?_, ?_, ?_⟩
  · cases adding <;> simp only [Bool.false_eq_true, if_false, if_true, gcall, grpAdd, grpDel] <;>
      rw [if_neg (by simp [hn])] <;> exact e
  · intro b hb
    rw [← i.1.both _ b hv hb, ← hi.1.both _ b hv hb]
    unfold Lists
    rw [hm, hu]
    cases adding <;> simp only [Bool.false_eq_true, if_false, if_true, Result, Option.getD_none, Option.getD_some,
      List.mem_singleton] <;> split <;> simp_all
  · intro a b ha hb hne
    rw [← i.1.both a b ha hb, ← hi.1.both a b ha hb]
    exact ho.lists a b ha hne

/-- C49: the same for aliases: a device has an alias after it was added and does not have it after it was removed. -/
theorem C49_alias (db0 db : Db) (hs : Synced Rel db0) (hc : Consistent db0) (h : Life db0 db) (c : Ctx) (hd : DevOk c) (uid : Str)
    (hu : c.uid = some uid) (owner : Str) (key name : Str) (hn : key ≠ [] ∧ name ≠ []) (adding : Bool) :
    ∃ db', gcall db (if adding then .aliasAdd c owner key name else .aliasDel c owner key name) = some (0, db') ∧
      (∀ b : Ent, b.Valid → (IsIn db' b (.grp (txt "ALS") .module owner (some key) name) ↔
        if b.name = (Ent.dev uid).name then adding = true else IsIn db b (.grp (txt "ALS") .module owner (some key) name))) ∧
      ∀ a b : Ent, a.Valid → b.Valid → a.name ≠ (Ent.grp (txt "ALS") .module owner (some key) name).name →
        (IsIn db' b a ↔ IsIn db b a) := by
  obtain ⟨base, hi⟩ := life_inv (synced_inv hs hc) h
  have hv : (Ent.grp (txt "ALS") .module owner (some key) name).Valid := Or.inl rfl
  obtain ⟨db', e, i, hm, ho⟩ := handleDevs_ok (vdevs := none) (op := if adding then .plus else .minus) hi hd hv
    (by intro l hl; cases hl)
  refine ⟨db', ?_, ?_, ?_⟩
  · cases adding <;> simp only [Bool.false_eq_true, if_false, if_true, gcall, aliasAdd, aliasDel] <;>
      rw [if_neg (by simp [hn])] <;> exact e
  · intro b hb
    rw [← i.1.both _ b hv hb, ← hi.1.both _ b hv hb]
    unfold Lists
    rw [hm, hu]
    cases adding <;> simp only [Bool.false_eq_true, if_false, if_true, Result, Option.getD_none, Option.getD_some,
      List.mem_singleton] <;> split <;> simp_all
  · intro a b ha hb hne
    rw [← i.1.both a b ha hb, ← hi.1.both a b ha hb]
    exact ho.lists a b ha hne

/-- C49: destroying a group of the module's own namespace: if there is none the call fails; if it has members it fails with
    -ENOTEMPTY unless forced; else it succeeds and no device is in the group any more.  Other groups stay as they are. -/
theorem C49_destroy (db0 db : Db) (hs : Synced Rel db0) (hc : Consistent db0) (h : Life db0 db) (c : Ctx) (owner : Str)
    (cat : Option Str) (name : Str) (hn : name ≠ []) (force : Bool) :
    ∃ rc db', gcall db (.destroy c owner .module cat name force) = some (rc, db') ∧
      (rc = 0 ∨ rc = -1 ∨ rc = -39) ∧
      (rc = -39 ↔ force = false ∧ mem db ((Ent.grp (txt "GRP") .module owner cat name).key (txt "#GMB")) ≠ []) ∧
      (rc = 0 → ∀ b : Ent, b.Valid → ¬ IsIn db' b (.grp (txt "GRP") .module owner cat name)) ∧
      (rc ≠ 0 → db' = db) ∧
      ∀ a b : Ent, a.Valid → b.Valid → a.name ≠ (Ent.grp (txt "GRP") .module owner cat name).name →
        (IsIn db' b a ↔ IsIn db b a) := by
  obtain ⟨base, hi⟩ := life_inv (synced_inv hs hc) h
  have hv : (Ent.grp (txt "GRP") .module owner cat name).Valid := Or.inr rfl
  obtain ⟨rc, db', e, i, ho, hr⟩ := doDestroy_ok (db := db) (c := c) (owner := owner) (dom := domGroup) (ns := .module) (cat := cat)
    (name := name) (force := force) hi hv
  have hoth : ∀ a b : Ent, a.Valid → b.Valid → a.name ≠ (Ent.grp (txt "GRP") .module owner cat name).name →
        (IsIn db' b a ↔ IsIn db b a) := by
    intro a b ha hb hne
    rw [← i.1.both a b ha hb, ← hi.1.both a b ha hb]
    exact ho.lists a b ha hne
  have e' : gcall db (.destroy c owner .module cat name force) = some (rc, db') := by
    simp only [gcall, grpDestroy]
    rw [if_neg (by simp [hn])]
    exact e
  refine ⟨rc, db', e', ?_⟩
  change (db.recs (opKey ((Ent.grp (txt "GRP") .module owner cat name).key (txt "#GMB")) .set) = none ∧ _) ∨
    (mem db ((Ent.grp (txt "GRP") .module owner cat name).key (txt "#GMB")) ≠ [] ∧ _) ∨
    ((mem db ((Ent.grp (txt "GRP") .module owner cat name).key (txt "#GMB")) = [] ∨ _) ∧ _ ∧ _ ∧
      mem db' ((Ent.grp (txt "GRP") .module owner cat name).key (txt "#GMB")) = []) at hr
  rcases hr with ⟨h1, rfl, rfl⟩ | ⟨h1, h2, rfl, rfl⟩ | ⟨h1, rfl, -, h4⟩
  · refine ⟨by simp, ?_, by simp, by simp, hoth⟩
    simp [mem, h1, members]
  · exact ⟨by simp, by simp [h1, h2], by simp, by simp, hoth⟩
  · refine ⟨by simp, ?_, ?_, by simp, hoth⟩
    · rcases h1 with h1 | h1 <;> simp [h1]
    · intro _ b hb
      rw [← i.1.both _ b hv hb]
      unfold Lists
      rw [h4]
      simp

/-- C49: calls without a name, or without the category where one is needed, are refused with -EINVAL and change nothing. -/
theorem C49_unnamed_refused (db : Db) (c : Ctx) (owner : Str) (ns : Ns) (fl : Flags) (cat : Option Str) (x y : Str) (force : Bool) :
    ∀ g ∈ [GCall.create c owner ns fl cat [], .add c owner ns x [], .add c owner ns [] x, .del c owner ns x [], .del c owner ns [] x,
      .destroy c owner ns cat [] force, .create c owner .undefined fl cat x, .add c owner .undefined x y,
      .del c owner .undefined x y, .destroy c owner .undefined cat x force, .aliasAdd c owner [] x, .aliasAdd c owner x [],
      .aliasDel c owner [] x, .aliasDel c owner x [], .aliasRename c owner [] x y, .aliasRename c owner x [] y,
      .aliasRename c owner x y []], gcall db g = some (-22, db) := by
  intro g hg
  simp only [List.mem_cons, List.not_mem_nil, or_false] at hg
  rcases hg with rfl | rfl | rfl | rfl | rfl | rfl | rfl | rfl | rfl | rfl | rfl | rfl | rfl | rfl | rfl | rfl | rfl <;>
    simp [gcall, grpCreate, grpAdd, grpDel, grpDestroy, aliasAdd, aliasDel, aliasRename]

/-- C49: an alias renamed (one the module may read) has no devices any more, those it had have the new one. -/
theorem C49_rename (db0 db : Db) (hs : Synced Rel db0) (hc : Consistent db0) (h : Life db0 db) (c : Ctx) (hd : DevOk c)
    (owner key old new : Str) (hk : key ≠ [] ∧ old ≠ [] ∧ new ≠ [])
    (hne : (Ent.grp (txt "ALS") .module owner (some key) old).name ≠ (Ent.grp (txt "ALS") .module owner (some key) new).name)
    (r : Rec) (hr : getRec db owner (composeKey ((Ent.grp (txt "ALS") .module owner (some key) old).key (txt "#GMB"))) = .ok r)
    (hm : mem db ((Ent.grp (txt "ALS") .module owner (some key) old).key (txt "#GMB")) ≠ []) :
    ∃ db', gcall db (.aliasRename c owner key old new) = some (0, db') ∧
      ∀ b : Ent, b.Valid → ¬ IsIn db' b (.grp (txt "ALS") .module owner (some key) old) ∧
        (IsIn db' b (.grp (txt "ALS") .module owner (some key) new) ↔
          IsIn db b (.grp (txt "ALS") .module owner (some key) old) ∨ IsIn db b (.grp (txt "ALS") .module owner (some key) new)) := by
  obtain ⟨base, hi⟩ := life_inv (synced_inv hs hc) h
  have hv : ∀ n, (Ent.grp (txt "ALS") .module owner (some key) n).Valid := fun _ => Or.inl rfl
  have hset : IsSet (db.recs (opKey ((Ent.grp (txt "ALS") .module owner (some key) old).key (txt "#GMB")) .set)) := by
    obtain ⟨-, -, hall⟩ := hi
    exact (hall _ ⟨_, hv old, Or.inl rfl⟩).set
  have hrec : db.recs (opKey ((Ent.grp (txt "ALS") .module owner (some key) old).key (txt "#GMB")) .set) = some r := by
    unfold getRec at hr
    change (match db.recs (opKey ((Ent.grp (txt "ALS") .module owner (some key) old).key (txt "#GMB")) .set) with
      | none => _
      | some r => _) = _ at hr
    revert hr
    cases db.recs (opKey ((Ent.grp (txt "ALS") .module owner (some key) old).key (txt "#GMB")) .set) with
    | none => intro hr; cases hr
    | some r' =>
      dsimp only
      split
      · intro hr; cases hr; rfl
      · intro hr; cases hr
  obtain ⟨l, hl, hasc⟩ := hset r hrec
  have hmem : mem db ((Ent.grp (txt "ALS") .module owner (some key) old).key (txt "#GMB")) = l := by
    unfold mem
    rw [hrec]
    obtain ⟨s, f, g, o, v⟩ := r
    dsimp only at hl
    subst hl
    rfl
  obtain ⟨y, l', rfl⟩ : ∃ y l', l = y :: l' := by
    cases l with
    | nil => exact absurd hmem hm
    | cons y l' => exact ⟨y, l', rfl⟩
  obtain ⟨db1, e1, i1, m1, o1⟩ := handleDevs_ok (vdevs := some (y :: l')) (op := .plus) hi hd (hv new) (by
    intro l hl
    cases hl
    refine ⟨hasc, fun x hx => ?_⟩
    rw [← hmem] at hx
    exact hi.1.ofGroup _ _ _ _ _ (hv old) x hx)
  obtain ⟨rc, db2, e2, i2, o2, r2⟩ := doDestroy_ok (db := db1) (c := c) (owner := owner) (dom := domAlias) (ns := .module)
    (cat := some key) (name := old) (force := true) i1 (hv old)
  change (db1.recs (opKey ((Ent.grp (txt "ALS") .module owner (some key) old).key (txt "#GMB")) .set) = none ∧ _) ∨
    (mem db1 ((Ent.grp (txt "ALS") .module owner (some key) old).key (txt "#GMB")) ≠ [] ∧ _) ∨
    (_ ∧ _ ∧ _ ∧ mem db2 ((Ent.grp (txt "ALS") .module owner (some key) old).key (txt "#GMB")) = []) at r2
  -- the old alias still has its devices when it is destroyed
  have hold : Lists db1 (.grp (txt "ALS") .module owner (some key) old) = Lists db (.grp (txt "ALS") .module owner (some key) old) := by
    funext b
    exact propext (o1.lists _ b (hv old) hne)
  obtain ⟨uid, hu, hy⟩ := hi.1.ofGroup _ _ _ _ _ (hv old) y (by rw [hmem]; simp)
  have hstill : y ∈ mem db1 ((Ent.grp (txt "ALS") .module owner (some key) old).key (txt "#GMB")) := by
    have : Lists db1 (.grp (txt "ALS") .module owner (some key) old) (.dev uid) := by
      rw [hold]
      unfold Lists
      rw [← hy, hmem]
      simp
    unfold Lists at this
    rwa [← hy] at this
  rcases r2 with ⟨h1, -⟩ | ⟨-, h1, -⟩ | ⟨-, rfl, -, h2⟩
  · exact absurd hstill (by simp [mem, h1, members])
  · cases h1
  refine ⟨db2, ?_, ?_⟩
  · simp only [gcall, aliasRename]
    rw [if_neg (by simp [hk])]
    change (match getRec db owner (composeKey ((Ent.grp (txt "ALS") .module owner (some key) old).key (txt "#GMB"))) with
      | .error e => _
      | .ok r => _) = _
    rw [hr]
    dsimp only
    rw [hl]
    dsimp only
    unfold renameFound
    rw [show handleDevs db c owner (some (y :: l')) domAlias .module (some key) new .plus = some (0, db1) from e1]
    simp only [Option.bind_some]
    rw [if_neg (by decide)]
    exact e2
  · intro b hb
    rw [← i2.1.both _ b (hv old) hb, ← i2.1.both _ b (hv new) hb, ← hi.1.both _ b (hv old) hb, ← hi.1.both _ b (hv new) hb]
    refine ⟨?_, ?_⟩
    · unfold Lists
      rw [h2]
      simp
    · rw [o2.lists _ b (hv new) hne.symm]
      unfold Lists
      rw [m1, hmem]
      simp only [Result, Option.getD_some]
      exact or_comm

/-- C49: a device lies on exactly the disks read from sysfs, and these know it. -/
theorem C49_dependencies (db0 db : Db) (hs : Synced Rel db0) (hc : Consistent db0) (h : Life db0 db) (c : Ctx) (hd : DevOk c)
    (uid : Str) (hu : c.uid = some uid) (dseqs : List Str) (hn : dseqs.Nodup) (hp : ∀ n ∈ dseqs, 58 ∉ n) :
    ∃ db', gcall db (.deps c dseqs) = some (0, db') ∧
      ∀ n, 58 ∉ n → (Lists db' (.dev uid) (disk n) ↔ n ∈ dseqs) ∧ (IsIn db' (disk n) (.dev uid) ↔ n ∈ dseqs) := by
  obtain ⟨base, hi⟩ := life_inv (synced_inv hs hc) h
  obtain ⟨db', e, i, hm, -⟩ := updateDeps_ok hi hd hn hp
  rw [hu] at hm
  have key : ∀ n, 58 ∉ n → (Lists db' (.dev uid) (disk n) ↔ n ∈ dseqs) := by
    intro n hn
    refine (hm (disk n)).trans ⟨?_, fun h => ⟨n, h, rfl⟩⟩
    rintro ⟨m, h1, h2⟩
    rw [disk_inj hn (hp m h1) h2]
    exact h1
  refine ⟨db', e, fun n hn => ⟨key n hn, ?_⟩⟩
  rw [← i.1.both (.dev uid) (disk n) (hd uid hu) (disk_valid n)]
  exact key n hn

/-- C49 in the main process: whatever workers export, in whatever order and however many are at work at the same time, both lists
    in the main store say the same.  Missing: messages that replace a group's record as a whole (`C49_counterexample_main`) and
    messages C35 excludes. -/
theorem C49_main_partial (main0 main : Db) (hc : Consistent main0) (hset : ∀ s, Rel s → IsSet (main0.recs (opKey s .set)))
    (h : MainLife main0 main) (a b : Ent) (ha : a.Valid) (hb : b.Valid) : Lists main a b ↔ IsIn main b a :=
  (mainLife_consistent hc hset h).1.both a b ha hb

/-! ### the hypotheses can be met; where the daemon does not do what one expects -/

namespace GroupExample

def mo : Str := txt "/type/m"
def ctx (uid : String) : Ctx := { gennum := 1, seqnum := 9, num := some (txt "8_0"), uid := some (txt uid) }
def grp (ns : Ns) : Ent := .grp (txt "GRP") ns mo (some (txt "c")) (txt "g")
def als (n : String) : Ent := .grp (txt "ALS") .module mo (some (txt "k")) (txt n)

theorem empty_synced : Synced Rel Db.empty :=
  ⟨rel_unmarked, fun _ _ _ hx => (nomatch hx), fun _ _ _ _ => ⟨rfl, rfl⟩⟩

theorem empty_consistent : Consistent Db.empty := by
  refine ⟨?_, ?_, ?_, ?_⟩
  · intro a b _ _; simp [Lists, IsIn, mem, Db.empty, members]
  · intro _ _ _ _ _ _ x hx; cases hx
  · intro _ _ x hx; cases hx
  · intro _ _ x hx; cases hx

theorem devOk (uid : String) (h : 58 ∉ txt uid) : DevOk (ctx uid) := by
  intro u hu
  cases hu
  exact h

/-- two devices are added to a group, one leaves it -/
theorem adds : ∃ db1 db2 db3, Life Db.empty db1 ∧ Life Db.empty db2 ∧ Life Db.empty db3 ∧
    IsIn db1 (.dev (txt "a")) (grp .module) ∧ ¬ IsIn db1 (.dev (txt "b")) (grp .module) ∧
    IsIn db2 (.dev (txt "a")) (grp .module) ∧ IsIn db2 (.dev (txt "b")) (grp .module) ∧
    ¬ IsIn db3 (.dev (txt "a")) (grp .module) ∧ IsIn db3 (.dev (txt "b")) (grp .module) := by
  have hA := devOk "a" (by decide)
  have hB := devOk "b" (by decide)
  have hn : Ns.module ≠ .undefined ∧ txt "c" ≠ [] ∧ txt "g" ≠ [] := by decide
  have vA : (Ent.dev (txt "a")).Valid := (by decide : 58 ∉ txt "a")
  have vB : (Ent.dev (txt "b")).Valid := (by decide : 58 ∉ txt "b")
  have hab : (Ent.dev (txt "b")).name ≠ (Ent.dev (txt "a")).name := by decide
  have s := empty_synced
  have c := empty_consistent
  obtain ⟨db1, e1, m1, -⟩ := C49_add_del _ _ s c .start _ hA _ rfl mo .module _ _ hn true
  have l1 : Life Db.empty db1 := .group .start (by exact hA) e1
  obtain ⟨db2, e2, m2, -⟩ := C49_add_del _ _ s c l1 _ hB _ rfl mo .module _ _ hn true
  have l2 : Life Db.empty db2 := .group l1 (by exact hB) e2
  obtain ⟨db3, e3, m3, -⟩ := C49_add_del _ _ s c l2 _ hA _ rfl mo .module _ _ hn false
  have l3 : Life Db.empty db3 := .group l2 (by exact hA) e3
  have a1 := (m1 _ vA).mpr (by rw [if_pos rfl])
  have b2 := (m2 _ vB).mpr (by rw [if_pos rfl])
  refine ⟨db1, db2, db3, l1, l2, l3, a1, ?_, ?_, b2, ?_, ?_⟩
  · refine fun h => ?_
    have := (m1 _ vB).mp h
    rw [if_neg hab] at this
    simp [IsIn, mem, Db.empty, members] at this
  · exact (m2 _ vA).mpr (by rw [if_neg hab.symm]; exact a1)
  · refine fun h => ?_
    have := (m3 _ vA).mp h
    rw [if_pos rfl] at this
    cases this
  · exact (m3 _ vB).mpr (by rw [if_neg hab]; exact b2)

/-- an alias with a device that the module may read (so that it can be renamed) -/
example : ∃ db r, gcall Db.empty (.aliasAdd (ctx "a") mo (txt "k") (txt "x")) = some (0, db) ∧
    getRec db mo (composeKey ((als "x").key (txt "#GMB"))) = .ok r ∧ mem db ((als "x").key (txt "#GMB")) ≠ [] ∧
    (als "x").name ≠ (als "y").name := by
  have h : ((gcall Db.empty (.aliasAdd (ctx "a") mo (txt "k") (txt "x"))).any fun r => r.1 = 0 ∧
      (getRec r.2 mo (composeKey ((als "x").key (txt "#GMB")))).toOption.isSome ∧
      mem r.2 ((als "x").key (txt "#GMB")) ≠ []) = true := by decide +kernel
  cases hg : gcall Db.empty (.aliasAdd (ctx "a") mo (txt "k") (txt "x")) with
  | none => rw [hg] at h; cases h
  | some r =>
    rw [hg] at h
    obtain ⟨rc, db⟩ := r
    simp only [Option.any_some, Bool.decide_and, Bool.and_eq_true, decide_eq_true_eq] at h
    obtain ⟨h1, h2, h3⟩ := h
    subst h1
    cases hr : getRec db mo (composeKey ((als "x").key (txt "#GMB"))) with
    | error e => rw [hr] at h2; cases h2
    | ok r => exact ⟨db, r, rfl, hr, h3, by decide⟩

/-- a worker's calls one after the other -/
def run : Db → List GCall → Option (List Int × Db)
  | db, [] => some ([], db)
  | db, x :: l => (gcall db x).bind fun r => (run r.2 l).map fun q => (r.1 :: q.1, q.2)

/-- Groups in other namespaces than the module's own cannot be destroyed: a group is created, a device is added to it, the group is
    destroyed (with success, and without force although it has a device): the device is still in it. -/
theorem C49_counterexample :
    (run Db.empty [.create (ctx "a") mo .global 0 (some (txt "c")) (txt "g"), .add (ctx "a") mo .global (txt "c") (txt "g"),
      .destroy (ctx "a") mo .global (some (txt "c")) (txt "g") false]).map (fun r =>
        (r.1, decide ((grp .global).name ∈ mem r.2 ((Ent.dev (txt "a")).key (txt "#GIN"))))) =
      some ([0, 0, 0], true) := by decide +kernel

/-- the key of the group's record -/
def gkey : Str := opKey ((grp .module).key (txt "#GMB")) .set

/-- what a worker exports that creates a group (to be synchronised), adds a device to it and destroys it -/
def msg : Option (List (Str × Rec)) :=
  (run Db.empty [.create (ctx "a") mo .module flSyncP (some (txt "c")) (txt "g"), .add (ctx "a") mo .module (txt "c") (txt "g"),
    .destroy (ctx "a") mo .module (some (txt "c")) (txt "g") true]).bind fun r =>
  (exportLoop { db := r.2 } [gkey]).map fun o => o.recs

/-- the main store after another worker added another device to the group -/
def main : Option Db :=
  (run Db.empty [.add (ctx "b") mo .module (txt "c") (txt "g")]).map fun r => r.2

/-- The main store after both workers: the group's record has gone, while the other device still is listed as in the group. -/
theorem C49_counterexample_main :
    msg.map (fun l => l.map fun x => x.1) = some [gkey] ∧
    (main.map fun db => (decide ((Ent.dev (txt "b")).name ∈ mem db ((grp .module).key (txt "#GMB"))),
      decide ((grp .module).name ∈ mem db ((Ent.dev (txt "b")).key (txt "#GIN"))))) = some (true, true) ∧
    (main.bind fun db => msg.bind fun l => (syncMain db l).map fun db =>
      (decide ((Ent.dev (txt "b")).name ∈ mem db ((grp .module).key (txt "#GMB"))),
      decide ((grp .module).name ∈ mem db ((Ent.dev (txt "b")).key (txt "#GIN"))))) = some (false, true) := by
  refine ⟨?_, ?_, ?_⟩ <;> decide +kernel

/-- the main store takes the export of a worker that added a device to a group: the hypotheses of `C49_main_partial` can be met -/
def adding : GCall := .add (ctx "a") mo .module (txt "c") (txt "g")
def gmbS : KeySpec := (grp .module).key (txt "#GMB")
def ginS : KeySpec := (Ent.dev (txt "a")).key (txt "#GIN")
def h9 : Hdr := ⟨9, flagsNoSync, 1, core⟩
def sentMsg : List (Str × Rec) :=
  [(opKey ginS .plus, h9.vec [(grp .module).name]), (opKey gmbS .plus, h9.vec [(Ent.dev (txt "a")).name])]

theorem adding_ok : ∃ db, gcall Db.empty adding = some (0, db) ∧ Life Db.empty db ∧
    Entries db [opKey ginS .plus, opKey gmbS .plus] := by
  have hi := synced_inv empty_synced empty_consistent
  have hd := devOk "a" (by decide)
  have ed : composeKeyPrefix (devInSpec (ctx "a") mo) = (Ent.dev (txt "a")).name := devIn_name _ _
  have eg : groupSpec (txt "GRP") .module (nsPartOf (ctx "a") mo .module) (some (txt "c")) (txt "g") = gmbS := groupSpec_key _ _ _ _ _
  have hva : 58 ∉ txt "a" := by decide
  have hm : mem Db.empty gmbS = [] := rfl
  have hst : stepCalc .plus (mem Db.empty gmbS) [(Ent.dev (txt "a")).name] =
      ⟨[(Ent.dev (txt "a")).name], [(Ent.dev (txt "a")).name], []⟩ := by rw [hm]; simp [stepCalc, newOnly]
  have hp : Proper Db.empty (grp .module) ⟨gmbS, devInSpec (ctx "a") mo, .plus, h9, [(Ent.dev (txt "a")).name]⟩ := by
    refine ⟨Or.inr rfl, rfl, rfl, rfl, List.pairwise_singleton _ _, ?_, ?_⟩
    · intro x hx
      dsimp only at hx
      rw [hm, List.nil_append, List.mem_singleton] at hx
      exact ⟨.dev (txt "a"), hva, hx, by rw [hx]; exact rel_dev hva⟩
    · intro x hx
      exact ⟨txt "a", hva, List.mem_singleton.mp hx⟩
  obtain ⟨-, hall⟩ := hi.2
  obtain ⟨db, e, -, -, -, -, hfr⟩ := update_ok rel_unmarked hp.fits hall
  dsimp only at e hfr
  have eg : gcall Db.empty adding = some (0, db) := by
    simp only [gcall, adding, grpAdd]
    rw [if_neg (by decide)]
    unfold handleDevs
    rw [Option.getD_none, ed, show domGroup = txt "GRP" from rfl, eg, show (ctx "a").seqnum = 9 from rfl]
    rw [show (⟨9, flagsNoSync, (ctx "a").gennum, core⟩ : Hdr) = h9 from rfl, e]
    rfl
  refine ⟨db, eg, .group .start (by exact hd) eg, by decide +kernel, ?_⟩
  intro k
  have hc : ∀ k, k ∈ keysOf (opKey gmbS .set) ++ keysOf (opKey ginS .set) →
      ((kvDeltaSet Db.empty false gmbS (devInSpec (ctx "a") mo) .plus h9 [(Ent.dev (txt "a")).name]).map fun r => r.2.idx k) =
        some (decide (k ∈ [opKey ginS .plus, opKey gmbS .plus])) := by decide +kernel
  rw [e] at hc
  simp only [Option.map_some, Option.some.injEq] at hc
  by_cases hk : k ∈ keysOf (opKey gmbS .set) ++ keysOf (opKey ginS .set)
  · rw [hc k hk, decide_eq_true_eq]
  · have h1 : k ∉ [opKey ginS .plus, opKey gmbS .plus] := by
      refine fun h => hk ?_
      rw [opKey_plus _ rfl, opKey_plus _ rfl] at h
      simp only [keysOf, List.mem_append, List.mem_cons, List.not_mem_nil, or_false] at h ⊢
      rcases h with h | h
      · exact Or.inr (Or.inr (Or.inl h))
      · exact Or.inl (Or.inr (Or.inl h))
    have h2 := (hfr k (fun h => hk (List.mem_append.mpr (Or.inl h))) (by
      intro x hx r hr h
      rw [hst] at hx
      simp only [List.append_nil, List.mem_singleton] at hx
      rw [hx, rel_dev hva] at hr
      cases hr
      exact hk (List.mem_append.mpr (Or.inr h)))).2
    rw [h2]
    exact ⟨fun h => absurd h h1, fun h => nomatch h⟩

example : ∃ main, MainLife Db.empty main ∧ Lists main (grp .module) (.dev (txt "a")) ∧
    ∀ s, Rel s → IsSet (Db.empty.recs (opKey s .set)) := by
  obtain ⟨db, e, hl, he⟩ := adding_ok
  have hse : ∀ k, IsSet (Db.empty.recs k) := fun _ _ hr => nomatch hr
  have hx : ((gcall Db.empty adding).bind fun r => (exportLoop { db := r.2 } [opKey ginS .plus, opKey gmbS .plus]).map
      fun o => o.recs) = some sentMsg := by decide +kernel
  rw [e] at hx
  simp only [Option.bind_some] at hx
  cases ho : exportLoop { db := db } [opKey ginS .plus, opKey gmbS .plus] with
  | none => rw [ho] at hx; cases hx
  | some o =>
    rw [ho] at hx
    simp only [Option.map_some, Option.some.injEq] at hx
    have hm : Msg Db.empty o.recs := by
      rw [hx]
      refine ⟨by decide +kernel, ?_, ?_⟩
      · intro x hx
        left
        simp only [sentMsg, List.mem_cons, List.not_mem_nil, or_false] at hx
        rcases hx with rfl | rfl
        · exact ⟨ginS, .plus, ⟨Or.inl rfl, rfl, rfl, rfl, _, rfl, List.pairwise_singleton _ _, by simp⟩, hse _⟩
        · exact ⟨gmbS, .plus, ⟨Or.inl rfl, rfl, rfl, rfl, _, rfl, List.pairwise_singleton _ _, by simp⟩, hse _⟩
      · intro pre x post h _ hf
        have : x ∈ sentMsg := by rw [h]; simp
        have h2 : ∀ x ∈ sentMsg, has x.2.flags flRs = true := by decide +kernel
        rw [h2 x this] at hf
        cases hf
    have hn : ∀ s, Rel s → NotReplaced o.recs s := by
      intro s hs x hm e
      have h1 := opKey_head s (rel_unmarked s hs)
      rw [hx] at hm
      have h2 : ∀ x ∈ sentMsg, x.1.head? = some 43 := by decide +kernel
      rw [← e, h2 x hm] at h1
      cases h1
    have hr : ((syncMain Db.empty sentMsg).map fun m => decide ((Ent.dev (txt "a")).name ∈ mem m gmbS)) = some true := by
      decide +kernel
    cases hs : syncMain Db.empty sentMsg with
    | none => rw [hs] at hr; cases hr
    | some main =>
      rw [hs] at hr
      refine ⟨main, .sync .start empty_synced empty_consistent hl he ho hm hn (by rw [hx]; exact hs), ?_, fun _ _ => hse _⟩
      simp only [Option.map_some, Option.some.injEq, decide_eq_true_eq] at hr
      exact hr

end GroupExample

end Sid.Props
