import Verif.Proof.UbrStack
import Verif.Props.UbrIdent
/-
C50: the search of device stacks.
-/
namespace Sid.Props
open Sid.Ubr Sid.Spec.Delta Sid.Spec.Sync Sid.Spec.Group Sid.Spec.Ident Sid.Spec.Stack
open Relation (TransGen)
open Sid.Ifc (txt)

/-- C50: direct ancestors are the disks the device lies on, direct descendants the devices that lie on it; in any store. -/
theorem C50_immediate (db : Db) (c : Ctx) (dseq owner : Str) (hc : Consistent db) (hr : Readable db owner) (key : Option Str) (u : Str) :
    (StartsDown db c key u →
      Finds (fun fuel => stackGet db c dseq owner .immAnc fuel key) fun x => ∃ n, LiesOn db u n ∧ x = (disk n).name) ∧
    (StartsUp db dseq key u →
      Finds (fun fuel => stackGet db c dseq owner .immDesc fuel key) fun x => ∃ v, Below db u v ∧ x = (Ent.dev v).name) := by
  constructor
  · intro hs
    obtain ⟨found, e, -, h⟩ := imm_down (dseq := dseq) (m := .immAnc) rfl hc hr hs
    refine ⟨found, 1, fun fuel hf => ?_, h⟩
    cases fuel with
    | zero => omega
    | succ fuel =>
      dsimp only
      unfold stackGet
      rw [e, Option.bind_some]
      simp only [searchOn, ite_self]
  · intro hs
    obtain ⟨n, hn⟩ : ∃ n, Is db n u := by
      rcases hs with ⟨-, h⟩ | ⟨-, h⟩
      · exact ⟨_, h⟩
      · exact h
    obtain ⟨found, e, -, h⟩ := imm_up (c := c) (m := .immDesc) rfl hc hr hs hn
    refine ⟨found, 1, fun fuel hf => ?_, fun x => ?_⟩
    · cases fuel with
      | zero => omega
      | succ fuel =>
        dsimp only
        unfold stackGet
        rw [e, Option.bind_some]
        simp only [searchOn, ite_self]
    · rw [h]
      constructor
      · rintro ⟨w, hw, rfl⟩
        exact ⟨w, ⟨n, hw, hn⟩, rfl⟩
      · rintro ⟨v, ⟨n', hv, hn'⟩, rfl⟩
        have := is_num hn hn'
        subst this
        exact ⟨v, hv, rfl⟩

/-- C50: on an acyclic stack the search for ancestors returns exactly the disks below the device, over one or more steps, and the
    search for base devices exactly those of them that lie on nothing.
    Partial: every disk below must be a device the daemon knows (`C50_counterexample_unknown`). -/
theorem C50_down_partial (db : Db) (c : Ctx) (dseq owner : Str) (hc : Consistent db) (hr : Readable db owner) (hac : Acyclic db)
    (key : Option Str) (u : Str) (hs : StartsDown db c key u) (hk : KnownBelow db u) (l : List Str) (hfin : ∀ v, Under db v u → v ∈ l) :
    (Finds (fun fuel => stackGet db c dseq owner .anc fuel key) fun x => ∃ v n, Under db v u ∧ Is db n v ∧ x = (disk n).name) ∧
    (Finds (fun fuel => stackGet db c dseq owner .base fuel key) fun x =>
      ∃ v n, Under db v u ∧ (∀ m, ¬ LiesOn db v m) ∧ Is db n v ∧ x = (disk n).name) := by
  have hacc := acc_of_list hac _ l u (Nat.le_refl _) hfin
  constructor
  · obtain ⟨r, k, h1, -, h2⟩ := search_all (Or.inl rfl) (steps_down (c := c) (dseq := dseq) (m := .anc) rfl hc hr) hacc key ⟨hs, hk⟩
    refine ⟨r, k, h1, fun x => ?_⟩
    rw [h2]
    constructor
    · rintro ⟨v, hv, n, hn, e⟩
      exact ⟨v, n, hv, hn, e⟩
    · rintro ⟨v, n, hv, hn, e⟩
      exact ⟨v, hv, n, hn, e⟩
  · obtain ⟨r, k, h1, -, -, h2⟩ := search_end (Or.inl rfl) (steps_down (c := c) (dseq := dseq) (m := .base) rfl hc hr) hacc key ⟨hs, hk⟩
    refine ⟨r, k, h1, fun x => ?_⟩
    rw [h2]
    constructor
    · rintro ⟨v, hv, hz, n, hn, e⟩
      refine ⟨v, n, hv, fun m hm => ?_, hn, e⟩
      obtain ⟨w, hw⟩ := hk v (Or.inr hv) m hm
      exact hz w ⟨m, hm, hw⟩
    · rintro ⟨v, n, hv, hz, hn, e⟩
      exact ⟨v, hv, fun w ⟨m, hm, _⟩ => hz m hm, n, hn, e⟩

/-- C50: the search for descendants returns exactly the devices above the device, over one or more steps, and the search for top
    devices exactly those of them on which nothing lies.
    Partial: every device above must be a disk the daemon knows. -/
theorem C50_up_partial (db : Db) (c : Ctx) (dseq owner : Str) (hc : Consistent db) (hr : Readable db owner) (hac : Acyclic db)
    (key : Option Str) (u : Str) (hs : StartsUp db dseq key u) (hk : KnownAbove db u) (l : List Str) (hfin : ∀ v, Under db u v → v ∈ l) :
    (Finds (fun fuel => stackGet db c dseq owner .desc fuel key) fun x => ∃ v, Under db u v ∧ x = (Ent.dev v).name) ∧
    (Finds (fun fuel => stackGet db c dseq owner .top fuel key) fun x =>
      ∃ v, Under db u v ∧ (∀ w, ¬ Below db v w) ∧ x = (Ent.dev v).name) := by
  have hacc := acc_of_list (r := fun v u => Below db u v) (fun v h => hac v (trans_swap_iff.mp h)) _ l u (Nat.le_refl _)
    (fun v h => hfin v (trans_swap_iff.mp h))
  constructor
  · obtain ⟨r, k, h1, -, h2⟩ := search_all (Or.inr rfl) (steps_up (c := c) (dseq := dseq) (m := .desc) rfl hc hr) hacc key ⟨hs, hk⟩
    refine ⟨r, k, h1, fun x => ?_⟩
    rw [h2]
    constructor
    · rintro ⟨v, hv, e⟩
      exact ⟨v, trans_swap_iff.mp hv, e⟩
    · rintro ⟨v, hv, e⟩
      exact ⟨v, trans_swap_iff.mpr hv, e⟩
  · obtain ⟨r, k, h1, -, -, h2⟩ := search_end (Or.inr rfl) (steps_up (c := c) (dseq := dseq) (m := .top) rfl hc hr) hacc key ⟨hs, hk⟩
    refine ⟨r, k, h1, fun x => ?_⟩
    rw [h2]
    constructor
    · rintro ⟨v, hv, hz, e⟩
      exact ⟨v, trans_swap_iff.mp hv, hz, e⟩
    · rintro ⟨v, hv, hz, e⟩
      exact ⟨v, trans_swap_iff.mpr hv, hz, e⟩

/-- Why the stack must be acyclic: from a device that is below itself, or above such a device, the search for ancestors or base
    devices never ends. -/
theorem C50_cycle (db : Db) (c : Ctx) (dseq owner : Str) (hc : Consistent db) (hr : Readable db owner) (key : Option Str) (u v : Str)
    (hs : StartsDown db c key u) (hk : KnownBelow db u) (hv : v = u ∨ Under db v u) (hcyc : Under db v v) (m : Search)
    (hm : m = .anc ∨ m = .base) (fuel : Nat) : stackGet db c dseq owner m fuel key = none := by
  refine search_cycle (Nx := Below db) (Nm := DownName db) ?_ (steps_down (by rcases hm with rfl | rfl <;> rfl) hc hr) fuel key u
    ⟨hs, hk⟩ ⟨v, hv, hcyc⟩
  rcases hm with rfl | rfl <;> decide

/-- C50 fails for a device given by its identifier instead of a key: a UUID fills the buffer, so what is looked up is undefined. -/
theorem C50_counterexample_plain (db : Db) (c : Ctx) (dseq owner key : Str) (m : Search) (hl : key.length = 36) (hn : 58 ∉ key) (fuel : Nat) :
    stackGet db c dseq owner m fuel (some key) = none := by
  cases fuel with
  | zero => rfl
  | succ fuel =>
    have h1 : (decomposeKey key).length = 1 := by
      have : cut key = none := by
        clear hl
        induction key with
        | nil => rfl
        | cons a k ih =>
          simp only [List.mem_cons, not_or] at hn
          have ha : ¬ a = join := fun e => hn.1 e.symm
          simp [cut, ha, ih hn.2]
      simp [decomposeKey, decomposeFrom, this]
    have h2 : plainKey key = none := by simp [plainKey, uuidSize, hl]
    unfold stackGet immDeps
    split <;> simp [startOf, devKeyToDevid, devKeyToDsq, h1, h2]

/-! ### the hypotheses can be met; where the daemon does not do what one expects -/

namespace StackExample

def h0 : Hdr := ⟨1, flagsNoSync, 1, core⟩

/-- a store with these members of groups and devices -/
def ofPairs (P : List (Ent × Ent)) : Db :=
  { recs := fun k =>
      if (P.filter fun p => opKey (p.1.key (txt "#GMB")) .set = k) ≠ [] then
        some (h0.vec ((P.filter fun p => opKey (p.1.key (txt "#GMB")) .set = k).map (·.2.name)))
      else if (P.filter fun p => opKey (p.2.key (txt "#GIN")) .set = k) ≠ [] then
        some (h0.vec ((P.filter fun p => opKey (p.2.key (txt "#GIN")) .set = k).map (·.1.name)))
      else none
    idx := fun _ => false }

theorem pairs_gmb (P : List (Ent × Ent)) (a : Ent) (x : Str) :
    x ∈ mem (ofPairs P) (a.key (txt "#GMB")) ↔ ∃ p ∈ P, p.1.name = a.name ∧ x = p.2.name := by
  have h2 : (P.filter fun p => opKey (p.2.key (txt "#GIN")) .set = opKey (a.key (txt "#GMB")) .set) = [] := by
    refine List.filter_eq_nil_iff.mpr ?_
    intro p _
    simpa using (gmb_ne_gin a p.2).symm
  have h1 : mem (ofPairs P) (a.key (txt "#GMB")) =
      (P.filter fun p => opKey (p.1.key (txt "#GMB")) .set = opKey (a.key (txt "#GMB")) .set).map (·.2.name) := by
    unfold mem ofPairs
    dsimp only
    rw [h2]
    split
    · rfl
    · rename_i h
      simp only [ne_eq, Decidable.not_not] at h
      rw [h]
      rfl
  rw [h1]
  simp only [List.mem_map, List.mem_filter, decide_eq_true_eq, key_inj]
  constructor
  · rintro ⟨p, ⟨h, e⟩, rfl⟩; exact ⟨p, h, e, rfl⟩
  · rintro ⟨p, h, e, rfl⟩; exact ⟨p, ⟨h, e⟩, rfl⟩

theorem pairs_gin (P : List (Ent × Ent)) (b : Ent) (x : Str) :
    x ∈ mem (ofPairs P) (b.key (txt "#GIN")) ↔ ∃ p ∈ P, p.2.name = b.name ∧ x = p.1.name := by
  have h2 : (P.filter fun p => opKey (p.1.key (txt "#GMB")) .set = opKey (b.key (txt "#GIN")) .set) = [] := by
    refine List.filter_eq_nil_iff.mpr ?_
    intro p _
    simpa using gmb_ne_gin p.1 b
  have h1 : mem (ofPairs P) (b.key (txt "#GIN")) =
      (P.filter fun p => opKey (p.2.key (txt "#GIN")) .set = opKey (b.key (txt "#GIN")) .set).map (·.1.name) := by
    unfold mem ofPairs
    dsimp only
    rw [h2, if_neg (by simp)]
    split
    · rfl
    · rename_i h
      simp only [ne_eq, Decidable.not_not] at h
      rw [h]
      rfl
  rw [h1]
  simp only [List.mem_map, List.mem_filter, decide_eq_true_eq, key_inj]
  constructor
  · rintro ⟨p, ⟨h, e⟩, rfl⟩; exact ⟨p, h, e, rfl⟩
  · rintro ⟨p, h, e, rfl⟩; exact ⟨p, ⟨h, e⟩, rfl⟩

/-- devices in groups, and devices on disks -/
inductive Fine : Ent × Ent → Prop
  | member {n u} : 58 ∉ u → Fine (disk n, .dev u)
  | lies {u n} : 58 ∉ u → 58 ∉ n → Fine (.dev u, disk n)

theorem pairs_consistent {P : List (Ent × Ent)} (h : ∀ p ∈ P, Fine p) : Consistent (ofPairs P) := by
  refine ⟨?_, ?_, ?_, ?_⟩
  · intro a b _ _
    unfold Lists IsIn
    rw [pairs_gmb, pairs_gin]
    constructor
    · rintro ⟨p, hp, e, e'⟩; exact ⟨p, hp, e'.symm, e.symm⟩
    · rintro ⟨p, hp, e, e'⟩; exact ⟨p, hp, e'.symm, e.symm⟩
  · intro dom ns part cat name hv x hx
    obtain ⟨p, hp, e, rfl⟩ := (pairs_gmb _ _ _).mp hx
    cases h p hp with
    | member hu => exact ⟨_, hu, rfl⟩
    | lies => exact absurd e.symm (grp_ne_dev hv)
  · intro uid _ x hx
    obtain ⟨p, hp, e, rfl⟩ := (pairs_gmb _ _ _).mp hx
    cases h p hp with
    | member hu => exact absurd e (grp_ne_dev (disk_valid _))
    | lies _ hn => exact ⟨_, hn, rfl⟩
  · intro b _ x hx
    obtain ⟨p, hp, e, rfl⟩ := (pairs_gin _ _ _).mp hx
    cases h p hp with
    | member hu => exact ⟨_, disk_valid _, rfl⟩
    | lies hu hn => exact ⟨.dev _, hu, rfl⟩

theorem pairs_readable (P : List (Ent × Ent)) (owner : Str) : Readable (ofPairs P) owner := by
  have hrd : ∀ l, rdAllowed (h0.vec l) owner = true := by
    intro l
    have hfl : ∀ r : Rec, r.flags = flagsNoSync → rdAllowed r owner = true := by
      intro r hr
      unfold rdAllowed
      rw [hr]
      split <;> decide
    exact hfl _ rfl
  intro s _ r hr
  unfold ofPairs at hr
  dsimp only at hr
  split at hr
  · cases hr; exact ⟨hrd _, _, rfl⟩
  · split at hr
    · cases hr; exact ⟨hrd _, _, rfl⟩
    · cases hr

/-- Two disks `u1` and `u2`; `u3` lies on both (a mirror), `u4` on `u3` and on `u1` -/
def u (i : String) : Str := txt ("u" ++ i)
def stack : List (Ent × Ent) :=
  [(disk (txt "1"), .dev (u "1")), (disk (txt "2"), .dev (u "2")), (disk (txt "3"), .dev (u "3")), (disk (txt "4"), .dev (u "4")),
   (.dev (u "3"), disk (txt "1")), (.dev (u "3"), disk (txt "2")), (.dev (u "4"), disk (txt "1")), (.dev (u "4"), disk (txt "3"))]
def db : Db := ofPairs stack

theorem stack_fine : ∀ p ∈ stack, Fine p := by
  intro p hp
  simp only [stack, List.mem_cons, List.not_mem_nil, or_false] at hp
  rcases hp with rfl | rfl | rfl | rfl | rfl | rfl | rfl | rfl
  · exact .member (by decide)
  · exact .member (by decide)
  · exact .member (by decide)
  · exact .member (by decide)
  · exact .lies (by decide) (by decide)
  · exact .lies (by decide) (by decide)
  · exact .lies (by decide) (by decide)
  · exact .lies (by decide) (by decide)

/-- which device lies on which disk -/
theorem lies_iff {v n : Str} : LiesOn db v n ↔ (v, n) ∈ [(u "3", txt "1"), (u "3", txt "2"), (u "4", txt "1"), (u "4", txt "3")] := by
  constructor
  · rintro ⟨-, h⟩
    obtain ⟨p, hp, e, e'⟩ := (pairs_gmb _ _ _).mp h
    simp only [stack, List.mem_cons, List.not_mem_nil, or_false] at hp
    rcases hp with rfl | rfl | rfl | rfl | rfl | rfl | rfl | rfl
    · exact absurd e (grp_ne_dev (disk_valid _))
    · exact absurd e (grp_ne_dev (disk_valid _))
    · exact absurd e (grp_ne_dev (disk_valid _))
    · exact absurd e (grp_ne_dev (disk_valid _))
    all_goals
      rw [← dev_name_inj e, disk_name_inj e']
      simp
  · intro h
    have hs : ∀ p ∈ [(u "3", txt "1"), (u "3", txt "2"), (u "4", txt "1"), (u "4", txt "3")], 58 ∉ p.1 ∧ (Ent.dev p.1, disk p.2) ∈ stack := by
      decide
    obtain ⟨h1, h2⟩ := hs _ h
    exact ⟨h1, (pairs_gmb _ _ _).mpr ⟨_, h2, rfl, rfl⟩⟩

theorem is_i (i : String) (hi : i = "1" ∨ i = "2" ∨ i = "3" ∨ i = "4") : Is db (txt i) (u i) := by
  rcases hi with rfl | rfl | rfl | rfl
  all_goals
    refine ⟨?_, ?_, ?_, ?_⟩
    · unfold IsId; decide
    · decide
    · decide +kernel
    · decide +kernel

theorem below_iff {v w : Str} : Below db v w ↔ (v, w) ∈ [(u "1", u "3"), (u "2", u "3"), (u "1", u "4"), (u "3", u "4")] := by
  constructor
  · rintro ⟨n, h, hi⟩
    have := lies_iff.mp h
    simp only [List.mem_cons, List.not_mem_nil, or_false, Prod.mk.injEq] at this
    rcases this with ⟨rfl, rfl⟩ | ⟨rfl, rfl⟩ | ⟨rfl, rfl⟩ | ⟨rfl, rfl⟩
    · rw [is_ident hi (is_i "1" (by simp))]; simp
    · rw [is_ident hi (is_i "2" (by simp))]; simp
    · rw [is_ident hi (is_i "1" (by simp))]; simp
    · rw [is_ident hi (is_i "3" (by simp))]; simp
  · intro h
    simp only [List.mem_cons, List.not_mem_nil, or_false, Prod.mk.injEq] at h
    rcases h with ⟨rfl, rfl⟩ | ⟨rfl, rfl⟩ | ⟨rfl, rfl⟩ | ⟨rfl, rfl⟩
    · exact ⟨txt "1", lies_iff.mpr (by simp), is_i "1" (by simp)⟩
    · exact ⟨txt "2", lies_iff.mpr (by simp), is_i "2" (by simp)⟩
    · exact ⟨txt "1", lies_iff.mpr (by simp), is_i "1" (by simp)⟩
    · exact ⟨txt "3", lies_iff.mpr (by simp), is_i "3" (by simp)⟩

def level (v : Str) : Nat := if v = u "4" then 2 else if v = u "3" then 1 else 0

theorem below_level {v w : Str} (h : Below db v w) : level v < level w := by
  have := below_iff.mp h
  have hl : ∀ p ∈ [(u "1", u "3"), (u "2", u "3"), (u "1", u "4"), (u "3", u "4")], level p.1 < level p.2 := by decide
  exact hl _ this

theorem under_level {v w : Str} (h : Under db v w) : level v < level w := by
  induction h with
  | single h => exact below_level h
  | tail _ h ih => exact Nat.lt_trans ih (below_level h)

theorem acyclic : Acyclic db := fun _ h => Nat.lt_irrefl _ (under_level h)

theorem known_below (w : Str) : KnownBelow db w := by
  intro v _ n h
  have := lies_iff.mp h
  simp only [List.mem_cons, List.not_mem_nil, or_false, Prod.mk.injEq] at this
  rcases this with ⟨-, rfl⟩ | ⟨-, rfl⟩ | ⟨-, rfl⟩ | ⟨-, rfl⟩
  · exact ⟨_, is_i "1" (by simp)⟩
  · exact ⟨_, is_i "2" (by simp)⟩
  · exact ⟨_, is_i "1" (by simp)⟩
  · exact ⟨_, is_i "3" (by simp)⟩

theorem known_above (w : Str) : KnownAbove db w := by
  intro v _ n _ w h
  have := lies_iff.mp h
  simp only [List.mem_cons, List.not_mem_nil, or_false, Prod.mk.injEq] at this
  rcases this with ⟨rfl, -⟩ | ⟨rfl, -⟩ | ⟨rfl, -⟩ | ⟨rfl, -⟩
  · exact ⟨_, is_i "3" (by simp)⟩
  · exact ⟨_, is_i "3" (by simp)⟩
  · exact ⟨_, is_i "4" (by simp)⟩
  · exact ⟨_, is_i "4" (by simp)⟩

theorem under_mem {v w : Str} (h : Under db v w) : v ∈ [u "1", u "2", u "3"] ∧ w ∈ [u "3", u "4"] := by
  have hb : ∀ {v w}, Below db v w → v ∈ [u "1", u "2", u "3"] ∧ w ∈ [u "3", u "4"] := by
    intro v w h
    have hl : ∀ p ∈ [(u "1", u "3"), (u "2", u "3"), (u "1", u "4"), (u "3", u "4")],
        p.1 ∈ [u "1", u "2", u "3"] ∧ p.2 ∈ [u "3", u "4"] := by decide
    exact hl _ (below_iff.mp h)
  induction h with
  | single h => exact hb h
  | tail _ h ih => exact ⟨ih.1, (hb h).2⟩

/-- the base of `u4` from the command for it: `u2` is found, over two steps -/
example (dseq : Str) : ∃ r k, (∀ fuel, k ≤ fuel → stackGet db { uid := some (u "4") } dseq (txt "mod") .base fuel none = some (.ok r)) ∧
    (disk (txt "2")).name ∈ r.getD [] := by
  obtain ⟨-, r, k, h1, h2⟩ := C50_down_partial db { uid := some (u "4") } dseq (txt "mod") (pairs_consistent stack_fine)
    (pairs_readable _ _) acyclic none (u "4") (Or.inl ⟨rfl, rfl, by decide⟩) (known_below _) [u "1", u "2", u "3"]
    (fun _ h => (under_mem h).1)
  refine ⟨r, k, h1, (h2 _).mpr ⟨u "2", txt "2", ?_, ?_, is_i "2" (by simp), rfl⟩⟩
  · exact .tail (.single (below_iff.mpr (by simp) : Below db (u "2") (u "3"))) (below_iff.mpr (by simp))
  · intro m h
    exact absurd (lies_iff.mp h) (by
      simp only [List.mem_cons, List.not_mem_nil, or_false, Prod.mk.injEq, not_or, not_and]
      refine ⟨fun h => absurd h (by decide), fun h => absurd h (by decide), fun h => absurd h (by decide), fun h => absurd h (by decide)⟩)

/-- the descendants of `u2`, asked for by its key -/
example (c : Ctx) (dseq : Str) :
    Finds (fun fuel => stackGet db c dseq (txt "mod") .desc fuel (some (Ent.dev (u "2")).name)) fun x =>
      ∃ v, Under db (u "2") v ∧ x = (Ent.dev v).name :=
  (C50_up_partial db c dseq (txt "mod") (pairs_consistent stack_fine) (pairs_readable _ _) acyclic _ (u "2")
    (Or.inr ⟨rfl, _, is_i "2" (by simp)⟩) (known_above _) [u "3", u "4"] (fun _ h => (under_mem h).2)).1

deriving instance DecidableEq for Except
instance : DecidableEq (Option (Except Int (Option (List Str)))) := inferInstance

/-- what the searches return -/
example : ([.immAnc, .anc, .base].map fun m => stackGet db { uid := some (u "4") } (txt "4") (txt "mod") m 9 none) =
    [some (.ok (some [(disk (txt "1")).name, (disk (txt "3")).name])),
     some (.ok (some [(disk (txt "1")).name, (disk (txt "3")).name, (disk (txt "1")).name, (disk (txt "2")).name])),
     some (.ok (some [(disk (txt "1")).name, (disk (txt "1")).name, (disk (txt "2")).name]))] := by decide +kernel

example : ([.immDesc, .desc, .top].map fun m => stackGet db { uid := some (u "2") } (txt "2") (txt "mod") m 9 none) =
    [some (.ok (some [(Ent.dev (u "3")).name])), some (.ok (some [(Ent.dev (u "3")).name, (Ent.dev (u "4")).name])),
     some (.ok (some [(Ent.dev (u "4")).name]))] := by decide +kernel

/-! the same with devices that came to the daemon -/

/-- devices come, with the number, the sequence number and the identifier of each and what it lies on -/
def comes : List (String × String × String × List String) → Db → Option Db
  | [], db => some db
  | (num, dseq, uid, on) :: l, db =>
    (setDevKvs db { num := some (txt num) } ⟨txt dseq, txt num⟩ (txt uid)).bind fun r =>
    (updateDeps r.2.2 r.2.1 (on.map txt)).bind fun r => comes l r.2

example : ((comes [("8_0", "1", "u1", []), ("8_16", "2", "u2", []), ("253_0", "3", "u3", ["1", "2"])] Db.empty).map fun db =>
      [stackGet db { uid := some (u "3") } (txt "3") (txt "mod") .base 9 none, stackGet db { uid := some (u "1") } (txt "1") (txt "mod") .top 9 none]) =
    some [some (.ok (some [(disk (txt "1")).name, (disk (txt "2")).name])), some (.ok (some [(Ent.dev (u "3")).name]))] := by
  decide +kernel

/-- C50 fails if the daemon has not seen a disk yet on which a device lies: the search for what is below the device fails with
    ENODATA, also for the disks it knows. -/
theorem C50_counterexample_unknown :
    ((comes [("8_0", "1", "u1", []), ("253_0", "3", "u3", ["1", "2"])] Db.empty).map fun db =>
      [stackGet db { uid := some (u "3") } (txt "3") (txt "mod") .immAnc 9 none, stackGet db { uid := some (u "3") } (txt "3") (txt "mod") .anc 9 none,
       stackGet db { uid := some (u "3") } (txt "3") (txt "mod") .base 9 none]) =
    some [some (.ok (some [(disk (txt "1")).name, (disk (txt "2")).name])), some (.error (-61)), some (.error (-61))] := by
  decide +kernel

/-- a stack with a cycle -/
example : Under (ofPairs [(disk (txt "1"), .dev (u "1")), (.dev (u "1"), disk (txt "1"))]) (u "1") (u "1") := by
  refine .single ⟨txt "1", ⟨by decide, by unfold Lists; decide +kernel⟩, ?_⟩
  refine ⟨?_, ?_, ?_, ?_⟩
  · unfold IsId; decide
  · decide
  · decide +kernel
  · decide +kernel

/-- a plain identifier -/
example : IdentExample.u1.length = 36 ∧ 58 ∉ IdentExample.u1 := by decide

end StackExample

end Sid.Props
