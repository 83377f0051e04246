import Verif.Proof.UbrIdent
import Verif.Props.UbrGroup
/-
C51: a device keeps the identifier recorded for it: one already known to the daemon or to udev is reused, and a new one is
generated only if neither knows the device.
-/
namespace Sid.Props
open Sid.Ubr Sid.Spec.Delta Sid.Spec.Sync Sid.Spec.Group Sid.Spec.Ident
open Sid.Ifc (txt)

/-- C51: at any time in a worker: a device gets the identifier the daemon has on record for its number, else the one udev has, else
    the one generated.  The daemon has it on record afterwards, udev has one, and other numbers stay as they are.
    Partial: identifiers of udev and generated ones must be ones (`IsId`, see `C51_counterexample_colon`), a number is on record for
    one device only (`Numbered`, see `C51_counterexample_two`), and modules of the worker change no aliases of the core. -/
theorem C51_choice_partial (db0 since db : Db) (hs : Synced Rel db0) (hc : Consistent db0) (hn : Numbered db0)
    (h : Worker db0 since db) (c c' : Ctx) (d : DevNames) (gen : Str) (udev : Option Str) (db' : Db) (rc : Int)
    (hu : UdevHas db (orNull c.num) udev) (hv : ∀ v, udev = some v → IsId v) (hg : IsId gen)
    (e : setDevKvs db c d gen = some (rc, c', db')) :
    rc = 0 ∧ ∃ u, c'.uid = some u ∧ Chosen db (orNull c.num) udev gen u ∧ KnownAs db' (orNull c.num) u ∧
      UdevHas db' (orNull c.num) (some (udev.getD u)) ∧ ∀ n, n ≠ orNull c.num → SameNum db db' n := by
  obtain ⟨hi, -, h2, -⟩ := worker_inv (synced_inv hs hc) hn h
  obtain ⟨r, u, hu', -, hch, g⟩ := setDevKvs_res hi (h2 _) hu hv hg e
  exact ⟨r, u, by rw [hu'], hch, g.known, g.told, g.other⟩

/-- C51: it comes to an end with a result, unless a module has reserved the states of all devices. -/
theorem C51_total_partial (db0 since db : Db) (hs : Synced Rel db0) (hc : Consistent db0) (hn : Numbered db0)
    (h : Worker db0 since db) (c : Ctx) (d : DevNames) (gen : Str) (udev : Option Str)
    (hu : UdevHas db (orNull c.num) udev) (hv : ∀ v, udev = some v → IsId v) (hg : IsId gen) (hr : NoReservation db) :
    ∃ rc c' db', setDevKvs db c d gen = some (rc, c', db') ∧ Worker db0 since db' := by
  obtain ⟨hi, -, h2, -⟩ := worker_inv (synced_inv hs hc) hn h
  obtain ⟨rc, c', db', e⟩ := setDevKvs_total (d := d) hi (h2 _) hu hv hg hr
  exact ⟨rc, c', db', e, .device h hu hv hg e⟩

/-- C51: a device that comes again, whatever happened in the worker in between, gets the identifier it had before, whatever udev has
    now and whatever would be generated. -/
theorem C51_again_partial (db0 since db : Db) (hs : Synced Rel db0) (hc : Consistent db0) (hn : Numbered db0)
    (h : Worker db0 since db) (c c1 : Ctx) (d : DevNames) (gen : Str) (udev : Option Str) (db1 : Db) (rc : Int)
    (hu : UdevHas db (orNull c.num) udev) (hv : ∀ v, udev = some v → IsId v) (hg : IsId gen)
    (e : setDevKvs db c d gen = some (rc, c1, db1))
    (since2 db2 : Db) (h2 : Worker db1 since2 db2) (c2 c3 : Ctx) (d2 : DevNames) (gen2 : Str) (udev2 : Option Str) (db3 : Db) (rc2 : Int)
    (hnum : c2.num = c.num)
    (hu2 : UdevHas db2 (orNull c2.num) udev2) (hv2 : ∀ v, udev2 = some v → IsId v) (hg2 : IsId gen2)
    (e2 : setDevKvs db2 c2 d2 gen2 = some (rc2, c3, db3)) : c3.uid = c1.uid := by
  obtain ⟨hi, -, hnb, -⟩ := worker_inv (synced_inv hs hc) hn h
  obtain ⟨-, u, hu', hid, -, g⟩ := setDevKvs_res hi (hnb _) hu hv hg e
  obtain ⟨⟨b, hi2⟩, hnb2, hk⟩ := worker_keeps g.inv (numbered_step hnb hid g.known g.other) h2
  obtain ⟨-, u2, hu2', -, hch, -⟩ := setDevKvs_res hi2 (hnb2 _) hu2 hv2 hg2 e2
  have hk2 := hk _ _ g.known
  rw [← hnum] at hk2
  rcases hch with h' | ⟨h', -⟩
  · rw [hu', hu2', known_inj h' hk2]
  · exact absurd h' (known_not_unknown hk2)

/-- C51: when the main store takes over what a worker sends, it has the identifier of a device on record that the worker gave it,
    if the device was unknown to both before; and what it has on record stays, if the worker has nothing else. -/
theorem C51_main_partial (main main' db0 since db : Db) (keys : List Str) (o : Out) (num u : Str)
    (hset : ∀ s, Rel s → IsSet (main.recs (opKey s .set))) (hs : Synced Rel db0) (hc : Consistent db0) (hn0 : Numbered db0)
    (hw : Worker db0 since db) (he : Entries db keys) (hx : exportLoop { db := db } keys = some o) (hm : Msg main o.recs)
    (hn : ∀ s, Rel s → NotReplaced o.recs s) (e : syncMain main o.recs = some main')
    (h : (KnownAs main num u ∧ (Unknown db num ∨ KnownAs db num u)) ∨ (Unknown main num ∧ Unknown since num ∧ KnownAs db num u)) :
    KnownAs main' num u :=
  main_known hset (synced_inv hs hc) hn0 hw he hx hm hn e h

/-- C51: what the main store once had on record for a device number it has at any later time, with any number of workers at the same
    time, each with a copy of the main store as it was when the worker was forked. -/
theorem C51_kept_partial (main0 main : Db) (h : Run main0 main) (num u : Str) (hk : KnownAs main0 num u) : KnownAs main num u := by
  induction h with
  | start => exact hk
  | sync _ _ hsame hs hc hn0 hw he hx hset hm hn e ih1 ih2 =>
    have h0 := (hsame num).known.mpr ih1
    obtain ⟨-, -, -, h3, h4⟩ := worker_inv (synced_inv hs hc) hn0 hw
    exact main_known hset (synced_inv hs hc) hn0 hw he hx hm hn e (Or.inl ⟨ih2, Or.inr (h4 _ _ (h3 _ _ h0))⟩)

/-! ### the hypotheses can be met; where the daemon does not do what one expects -/

namespace IdentExample

def ctx : Ctx := { gennum := 1, seqnum := 9, num := some (txt "8_0") }
def names : DevNames := ⟨txt "3", txt "sda"⟩
/-- a store in which udev's environment of the device was recorded, with this identifier -/
def withUdev (v : String) : Db :=
  writeRec Db.empty (udevKey (txt "8_0")) (setRec ctx core ⟨.udev, udevDevId, some (txt v ++ [0]), 0⟩)

/-- a device comes, and comes again: the result and the identifier, both times -/
def twice (db : Db) (gen gen2 : String) : Option ((Int × Option Str) × Int × Option Str) :=
  (setDevKvs db ctx names (txt gen)).bind fun r => (setDevKvs r.2.2 ctx names (txt gen2)).map fun q => ((r.1, r.2.1.uid), q.1, q.2.1.uid)

/-- neither knows the device: a new identifier, that stays -/
example : twice Db.empty "u1" "u2" = some ((0, some (txt "u1")), 0, some (txt "u1")) := by decide +kernel

/-- udev knows it -/
example : twice (withUdev "w") "u1" "u2" = some ((0, some (txt "w")), 0, some (txt "w")) := by decide +kernel

/-- C51 fails for identifiers of udev with a colon: the device gets `a:b`, and `a` when it comes again. -/
theorem C51_counterexample_colon :
    twice (withUdev "a:b") "u1" "u2" = some ((0, some (txt "a:b")), 0, some (txt "a")) := by decide +kernel

/-- C51 fails for identifiers longer than 36 bytes: the device gets it, and none when it comes again. -/
theorem C51_counterexample_long :
    twice (withUdev "0123456789012345678901234567890123456") "u1" "u2" =
      some ((0, some (txt "0123456789012345678901234567890123456")), -1, none) := by decide +kernel

def u1 : Str := txt "7d444840-9dc0-11d1-b245-5ffdce74fad2"
def u2 : Str := txt "e902893a-9d22-3c7e-a7b8-d6e313b71d9f"

/-- C51 fails if a number was recorded twice: a device on record in the database file as `u1`, with `u2` in udev's database which is
    imported at the start: when it comes, the identifiers are written beyond the buffer. -/
theorem C51_counterexample_two :
    ((setDevKvs Db.empty ctx names u1).bind fun r => (importDev r.2.2 { ctx with uid := some u2 } names).map fun q =>
      (q.1, mem q.2 ((devno (txt "8_0")).key (txt "#GMB")), (setDevKvs q.2 ctx names (txt "u3")).isSome)) =
    some (0, [(Ent.dev u1).name, (Ent.dev u2).name], false) := by decide +kernel

/-! a device comes to a worker with an empty store, which exports -/

open GroupExample (empty_synced empty_consistent)

theorem empty_numbered : Numbered Db.empty := fun _ => Or.inl rfl
theorem isId (v : String) (h : txt v ≠ [] ∧ (txt v).length ≤ 36 ∧ 58 ∉ txt v ∧ 0 ∉ txt v) : IsId (txt v) := h
theorem empty_free : NoReservation Db.empty := fun _ _ => rfl

example : ∃ rc c db, setDevKvs Db.empty ctx names (txt "u1") = some (rc, c, db) ∧ Worker Db.empty Db.empty db :=
  C51_total_partial _ _ _ empty_synced empty_consistent empty_numbered .start ctx names (txt "u1") none rfl nofun
    (isId "u1" (by decide)) empty_free

/-- it comes again, when udev has another identifier -/
example : ∃ rc c db rc2 c2 db2, setDevKvs Db.empty ctx names (txt "u1") = some (rc, c, db) ∧ UdevHas db (txt "8_0") (some (txt "u1")) ∧
    setDevKvs db ctx names (txt "u2") = some (rc2, c2, db2) ∧ c2.uid = c.uid := by
  have hid := isId "u1" (by decide)
  have hid2 := isId "u2" (by decide)
  obtain ⟨rc, c, db, e, w⟩ := C51_total_partial _ _ _ empty_synced empty_consistent empty_numbered .start ctx names (txt "u1") none rfl
    nofun hid empty_free
  obtain ⟨-, u, hu, hch, -, ht, -⟩ := C51_choice_partial _ _ _ empty_synced empty_consistent empty_numbered .start ctx c names
    (txt "u1") none db rc rfl nofun hid e
  have hu1 : u = txt "u1" := by
    rcases hch with h | h
    · exact absurd (by rfl) (known_not_unknown h)
    · exact h.2
  subst hu1
  have hr : NoReservation db := by
    have h : ∀ key, key = txt "#RDY" ∨ key = txt "#RES" → ((setDevKvs Db.empty ctx names (txt "u1")).map fun r =>
        (r.2.2.recs (opKey { ns := .device, core := some key } .set)).isNone) = some true := by
      rintro key (rfl | rfl) <;> decide +kernel
    intro key hk
    have := h key hk
    rw [e] at this
    simpa using this
  have hv : ∀ v, some (txt "u1") = some v → IsId v := by
    intro v hv
    cases hv
    exact hid
  obtain ⟨rc2, c2, db2, e2, -⟩ := C51_total_partial _ _ _ empty_synced empty_consistent empty_numbered w ctx names (txt "u2")
    (some (txt "u1")) ht hv hid2 hr
  exact ⟨rc, c, db, rc2, c2, db2, e, ht, e2, C51_again_partial _ _ _ empty_synced empty_consistent empty_numbered .start ctx c names
    (txt "u1") none db rc rfl nofun hid e _ _ .start ctx c2 names (txt "u2") _ db2 rc2 rfl ht hv hid2 e2⟩

def als (cat name : String) : Ent := .grp (txt "ALS") .module (txt "/") (some (txt cat)) (txt name)
def cx : Ctx := ⟨some (txt "8_0"), some (txt "u1"), 9, 1⟩

/-- records an added device may touch -/
def touched (a : Ent) : List Str := keysOf (opKey (a.key (txt "#GMB")) .set) ++ keysOf (opKey ((Ent.dev (txt "u1")).key (txt "#GIN")) .set)

theorem handle_idx {base db db' : Db} {cat name : String} {rc : Int} (hi : Ubr.Inv base db)
    (hm : mem db ((als cat name).key (txt "#GMB")) = [])
    (e : handleDevs db cx core none domAlias .module (some (txt cat)) (txt name) .plus = some (rc, db')) (k : Str)
    (hk : k ∉ touched (als cat name)) : db'.idx k = db.idx k := by
  have hd : DevOk cx := by
    intro v hv
    cases hv
    exact (by decide : 58 ∉ txt "u1")
  unfold handleDevs at e
  simp only [Option.getD_none, Option.map_eq_some_iff] at e
  obtain ⟨⟨rc', db1⟩, e1, e2⟩ := e
  cases e2
  have hva : 58 ∉ txt "u1" := by decide
  have ed : composeKeyPrefix (devInSpec cx core) = (Ent.dev (txt "u1")).name := devIn_name _ _
  have hp : Proper db (als cat name) ⟨(als cat name).key (txt "#GMB"), devInSpec cx core, .plus, ⟨9, flagsNoSync, 1, core⟩,
      [(Ent.dev (txt "u1")).name]⟩ := by
    refine ⟨Or.inl rfl, rfl, rfl, rfl, List.pairwise_singleton _ _, ?_, ?_⟩
    · intro x hx
      dsimp only at hx
      rw [hm, List.nil_append, List.mem_singleton] at hx
      exact ⟨.dev (txt "u1"), hva, hx, by rw [hx]; exact rel_dev hva⟩
    · intro x hx
      exact ⟨txt "u1", hva, List.mem_singleton.mp hx⟩
  obtain ⟨db2, e2, -, -, -, -, hfr⟩ := update_ok rel_unmarked hp.fits hi.2.2
  have : db2 = db1 := by
    have e3 : kvDeltaSet db false ((als cat name).key (txt "#GMB")) (devInSpec cx core) .plus ⟨9, flagsNoSync, 1, core⟩
      [(Ent.dev (txt "u1")).name] = some (rc', db1) := by rw [← ed]; exact e1
    rw [e3] at e2
    cases e2
    rfl
  subst this
  refine (hfr k (fun h => hk (List.mem_append.mpr (Or.inl h))) ?_).2
  intro x hx r hr h
  dsimp only at hx
  rw [hm] at hx
  have hx' : x = (Ent.dev (txt "u1")).name := by simpa [stepCalc, newOnly] using hx
  rw [hx'] at hr
  have := rel_dev (c := cx) (owner := core) hva
  rw [this] at hr
  cases hr
  exact hk (List.mem_append.mpr (Or.inr h))

/-- all records touched -/
def all : List Str :=
  [coreKey cx .device keyReady, coreKey cx .device keyReserved, coreKey cx .udev udevDevId, coreKey cx .udev udevTags] ++
  touched (als "dseq" "3") ++ touched (als "devno" "8_0") ++ touched (als "name" "sda")

theorem writeRec_idx (db : Db) (key k : Str) (r : Rec) (h : k ≠ key) : (writeRec db key r).idx k = db.idx k := by
  unfold writeRec
  rw [manageIndex_idx, if_neg (fun e => h e.1)]
  split <;> rfl

/-- the records in the index afterwards -/
def ginS : KeySpec := (Ent.dev (txt "u1")).key (txt "#GIN")
def gmbS (cat name : String) : KeySpec := (als cat name).key (txt "#GMB")
def stS (key : String) : KeySpec := { ns := .device, nsPart := some (txt "u1"), core := some (txt key) }
def keys : List Str :=
  [opKey ginS .plus, opKey (gmbS "devno" "8_0") .plus, opKey (gmbS "dseq" "3") .plus, opKey (gmbS "name" "sda") .plus,
   opKey (stS "#RDY") .set, opKey (stS "#RES") .set, coreKey cx .udev udevTags, coreKey cx .udev udevDevId]
def h9 : Hdr := ⟨9, flagsNoSync, 1, core⟩
def st (k : Str) (b : UInt8) : Rec := { setRec cx core ⟨.device, k, some [b, 0, 0, 0], stateFlags false⟩ with flags := 0x6e8 }
/-- what is sent -/
def msg : List (Str × Rec) :=
  [(opKey ginS .plus, h9.vec [(als "devno" "8_0").name, (als "dseq" "3").name, (als "name" "sda").name]),
   (opKey (gmbS "devno" "8_0") .plus, h9.vec [(Ent.dev (txt "u1")).name]),
   (opKey (gmbS "dseq" "3") .plus, h9.vec [(Ent.dev (txt "u1")).name]),
   (opKey (gmbS "name" "sda") .plus, h9.vec [(Ent.dev (txt "u1")).name]),
   (opKey (stS "#RDY") .set, st keyReady 2), (opKey (stS "#RES") .set, st keyReserved 1)]

theorem device_ok : ∃ db, setDevKvs Db.empty ctx names (txt "u1") = some (0, cx, db) ∧ Worker Db.empty Db.empty db ∧ Entries db keys := by
  have hid := isId "u1" (by decide)
  have hi := synced_inv empty_synced empty_consistent
  have hd : DevOk cx := by
    intro v hv
    cases hv
    exact hid.2.2.1
  have hnone : ∀ l : List Str, none = some l → Asc l ∧ ∀ x ∈ l, ∃ uid, 58 ∉ uid ∧ x = (Ent.dev uid).name := nofun
  have hi0 := (stateRecs_inv (c := cx) hi).1
  obtain ⟨db1, e1, i1, -⟩ := handleDevs_ok (c := cx) (owner := core) (vdevs := none) (dom := domAlias) (ns := .module)
    (cat := some dseqCat) (name := txt "3") (op := .plus) hi0 hd (Or.inl rfl) hnone
  obtain ⟨db2, e2, i2, -⟩ := handleDevs_ok (c := cx) (owner := core) (vdevs := none) (dom := domAlias) (ns := .module)
    (cat := some devnoCat) (name := txt "8_0") (op := .plus) i1 hd (Or.inl rfl) hnone
  obtain ⟨db3, e3, i3, -⟩ := handleDevs_ok (c := cx) (owner := core) (vdevs := none) (dom := domAlias) (ns := .module)
    (cat := some nameCat) (name := txt "sda") (op := .plus) i2 hd (Or.inl rfl) hnone
  have m1 : mem (stateRecs Db.empty cx) ((als "dseq" "3").key (txt "#GMB")) = [] := by decide +kernel
  have m2 : mem db1 ((als "devno" "8_0").key (txt "#GMB")) = [] := by
    have : ((handleDevs (stateRecs Db.empty cx) cx core none domAlias .module (some dseqCat) (txt "3") .plus).map fun r =>
      mem r.2 ((als "devno" "8_0").key (txt "#GMB"))) = some [] := by decide +kernel
    rw [e1] at this
    simpa using this
  have m3 : mem db2 ((als "name" "sda").key (txt "#GMB")) = [] := by
    have : ((handleDevs (stateRecs Db.empty cx) cx core none domAlias .module (some dseqCat) (txt "3") .plus).bind fun r =>
      (handleDevs r.2 cx core none domAlias .module (some devnoCat) (txt "8_0") .plus).map fun r =>
      mem r.2 ((als "name" "sda").key (txt "#GMB"))) = some [] := by decide +kernel
    rw [e1, Option.bind_some, e2] at this
    simpa using this
  have hnew : setNewDev false Db.empty cx (txt "3") (txt "sda") = some (0, db3) := by
    rw [setNewDev_join rfl hid empty_free]
    unfold aliasRecs
    rw [andThen_ok e1]
    exact (andThen_ok e2).trans e3
  obtain ⟨r1, hr1⟩ : ∃ r, r = setRec cx core ⟨.udev, udevDevId, some (orNull cx.uid ++ [0]), flSync⟩ := ⟨_, rfl⟩
  obtain ⟨r2, hr2⟩ : ∃ r, r = setRec cx core ⟨.udev, udevTags, some (udevTagSid ++ [0]), flSync⟩ := ⟨_, rfl⟩
  obtain ⟨db, hdb⟩ : ∃ db, db = writeRec (writeRec db3 (coreKey cx .udev udevDevId) r1) (coreKey cx .udev udevTags) r2 := ⟨_, rfl⟩
  have htell : tellUdev db3 cx none = some (0, db) := by
    unfold tellUdev
    rw [if_neg (by simp), andThen_ok (doKvSet_udev db3 cx ⟨.udev, udevDevId, some (orNull cx.uid ++ [0]), flSync⟩ rfl),
      doKvSet_udev _ cx _ rfl, hdb, hr1, hr2]
  have he : setDevKvs Db.empty ctx names (txt "u1") = some (0, cx, db) := by
    unfold setDevKvs
    rw [lookup_udev (db := Db.empty) (c := ctx) (udev := none) rfl nofun, Option.bind_some, lookup_unknown (db := Db.empty) (num := orNull ctx.num) rfl, Option.bind_some]
    change ((setDevChosen Db.empty cx names none none).map fun x => (x.1, cx, x.2)) = _
    unfold setDevChosen
    rw [if_neg (by simp), show names.dseq = txt "3" from rfl, show names.name = txt "sda" from rfl, andThen_ok hnew, htell]
    rfl
  refine ⟨db, he, .device .start (c := ctx) (udev := none) rfl nofun hid he, by decide +kernel, ?_⟩
  intro k
  have hc : ∀ k ∈ all, ((setDevKvs Db.empty ctx names (txt "u1")).map fun r => r.2.2.idx k) = some (decide (k ∈ keys)) := by
    decide +kernel
  by_cases hk : k ∈ all
  · have := hc k hk
    rw [he] at this
    simp only [Option.map_some, Option.some.injEq] at this
    rw [this, decide_eq_true_eq]
  · have hsub : ∀ k ∈ keys, k ∈ all := by decide +kernel
    have h1 : k ∉ keys := fun h => hk (hsub k h)
    simp only [all, List.mem_append, not_or] at hk
    obtain ⟨⟨⟨h0, ha⟩, hb⟩, hc⟩ := hk
    simp only [List.mem_cons, List.not_mem_nil, or_false, not_or] at h0
    obtain ⟨n1, n2, n3, n4⟩ := h0
    have : db.idx k = false := by
      rw [hdb, writeRec_idx _ _ _ _ n4, writeRec_idx _ _ _ _ n3, handle_idx i2 m3 e3 k hc, handle_idx i1 m2 e2 k hb,
        handle_idx hi0 m1 e1 k ha]
      unfold stateRecs
      rw [writeRec_idx _ _ _ _ n2, writeRec_idx _ _ _ _ n1]
      rfl
    rw [this]
    exact ⟨fun h => absurd h h1, nofun⟩

/-- the main store, empty at first, has the device on record when it has taken over what the worker sent -/
example : ∃ main, Run Db.empty main ∧ KnownAs main (txt "8_0") (txt "u1") := by
  obtain ⟨db, e, hw, he⟩ := device_ok
  have hse : ∀ k, IsSet (Db.empty.recs k) := fun _ _ hr => nomatch hr
  have hx : ((setDevKvs Db.empty ctx names (txt "u1")).bind fun r => (exportLoop { db := r.2.2 } keys).map fun o => o.recs) =
      some msg := by decide +kernel
  rw [e] at hx
  simp only [Option.bind_some] at hx
  cases ho : exportLoop { db := db } keys with
  | none => rw [ho] at hx; cases hx
  | some o =>
    rw [ho] at hx
    simp only [Option.map_some, Option.some.injEq] at hx
    have hm : Msg Db.empty o.recs := by
      rw [hx]
      refine ⟨by decide +kernel, ?_, ?_⟩
      · intro x hx
        simp only [msg, List.mem_cons, List.not_mem_nil, or_false] at hx
        rcases hx with rfl | rfl | rfl | rfl | rfl | rfl
        · exact Or.inl ⟨ginS, .plus, ⟨Or.inl rfl, rfl, rfl, rfl, _, rfl, by unfold Asc; decide +kernel, by simp⟩, hse _⟩
        · exact Or.inl ⟨gmbS "devno" "8_0", .plus, ⟨Or.inl rfl, rfl, rfl, rfl, _, rfl, List.pairwise_singleton _ _, by simp⟩, hse _⟩
        · exact Or.inl ⟨gmbS "dseq" "3", .plus, ⟨Or.inl rfl, rfl, rfl, rfl, _, rfl, List.pairwise_singleton _ _, by simp⟩, hse _⟩
        · exact Or.inl ⟨gmbS "name" "sda", .plus, ⟨Or.inl rfl, rfl, rfl, rfl, _, rfl, List.pairwise_singleton _ _, by simp⟩, hse _⟩
        · exact Or.inr ⟨stS "#RDY", ⟨rfl, rfl⟩⟩
        · exact Or.inr ⟨stS "#RES", ⟨rfl, rfl⟩⟩
      · intro pre x post h hd hf
        have hx : x ∈ msg := by rw [h]; simp
        have h2 : ∀ x ∈ msg, has x.2.flags flRs = true ∨ x.1.head? = some 58 := by decide +kernel
        rcases h2 x hx with h2 | h2
        · rw [h2] at hf; cases hf
        · obtain ⟨s, op, hd⟩ := hd
          rw [hd.key] at h2
          rcases hd.direction with h | h <;> rw [h] at h2
          · rw [opKey_plus _ hd.unmarked] at h2; simp at h2
          · rw [opKey_minus _ hd.unmarked] at h2; simp at h2
    have hn : ∀ s, Rel s → NotReplaced o.recs s := by
      intro s hs x hm e
      have h1 := opKey_head s (rel_unmarked s hs)
      rw [hx] at hm
      have h2 : ∀ x ∈ msg, x.1.head? = some 43 ∨ x.1 = coreKey cx .device keyReady ∨ x.1 = coreKey cx .device keyReserved := by
        decide +kernel
      rcases h2 x hm with h2 | h2 | h2
      · rw [← e, h2] at h1; cases h1
      · exact state_apart cx (Or.inl rfl) hs _ (by simp [keysOf]) (e.symm.trans h2)
      · exact state_apart cx (Or.inr rfl) hs _ (by simp [keysOf]) (e.symm.trans h2)
    have hr : (syncMain Db.empty msg).isSome = true := by decide +kernel
    cases hs : syncMain Db.empty msg with
    | none => rw [hs] at hr; cases hr
    | some main =>
      have hsy : syncMain Db.empty o.recs = some main := by rw [hx]; exact hs
      refine ⟨main, .sync .start .start (fun n => .refl _ n) empty_synced empty_consistent empty_numbered hw he ho (fun _ _ => hse _)
        hm hn hsy, ?_⟩
      refine C51_main_partial Db.empty main Db.empty Db.empty db keys o _ _ (fun _ _ => hse _) empty_synced empty_consistent
        empty_numbered hw he ho hm hn hsy (Or.inr ⟨rfl, rfl, ?_⟩)
      have : ((setDevKvs Db.empty ctx names (txt "u1")).map fun r => mem r.2.2 ((devno (txt "8_0")).key (txt "#GMB"))) =
          some [(Ent.dev (txt "u1")).name] := by decide +kernel
      rw [e] at this
      exact Option.some.inj this

end IdentExample

end Sid.Props
