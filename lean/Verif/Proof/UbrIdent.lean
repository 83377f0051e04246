import Verif.Spec.UbrIdent
import Verif.Proof.UbrGroup
namespace Sid.Ubr
open Sid.Spec.UbrKey Sid.Spec.Delta Sid.Spec.Sync Sid.Spec.Group Sid.Spec.Ident
open Sid.Ifc (txt)

/-! ### lists that stay -/

theorem inv_asc {db : Db} (hi : Inv base db) {s : KeySpec} (hs : Rel s) : Asc (mem db s) := by
  obtain ⟨-, -, hall⟩ := hi
  exact members_asc (hall s hs).set

theorem devno_valid (num : Str) : (devno num).Valid := Or.inl rfl

theorem cut_inj {a b x y : Str} (ha : join ∉ a) (hb : join ∉ b) (h : a ++ join :: x = b ++ join :: y) : a = b ∧ x = y := by
  have h1 := cut_append a x ha
  rw [h, cut_append b y hb] at h1
  cases h1
  exact ⟨rfl, rfl⟩

/-- the alias of a device number is no group, and no alias of a module -/
theorem devno_ne {num dom : Str} {ns : Ns} {part : Str} {cat : Option Str} {name : Str}
    (hv : (Ent.grp dom ns part cat name).Valid) (h : dom = txt "GRP" ∨ (part ≠ txt "/" ∧ 58 ∉ part)) :
    (devno num).name ≠ (Ent.grp dom ns part cat name).name := by
  unfold devno
  rw [grp_name, grp_name]
  intro e
  simp only [glue, List.nil_append, List.cons.injEq, true_and] at e
  have hd : join ∉ dom := by rcases hv with h | h <;> rw [h] <;> decide
  obtain ⟨e1, e2⟩ := cut_inj (by decide) hd e
  rcases h with h | h
  · rw [h] at e1
    exact absurd e1 (by decide)
  · obtain ⟨-, e3⟩ := cut_inj (nsLetter_plain _) (nsLetter_plain _) e2
    exact h.1 (cut_inj (by decide) h.2 e3).1.symm

/-- nor is it another alias of the daemon -/
theorem devno_ne_core {num cat name : Str} (hc : 58 ∉ cat) (h : cat ≠ txt "devno" ∨ num ≠ name) :
    (devno num).name ≠ (Ent.grp (txt "ALS") .module (txt "/") (some cat) name).name := by
  unfold devno
  rw [grp_name, grp_name]
  intro e
  simp only [glue, List.nil_append, List.cons.injEq, true_and] at e
  obtain ⟨-, e⟩ := cut_inj (by decide) (by decide) e
  obtain ⟨-, e⟩ := cut_inj (nsLetter_plain _) (nsLetter_plain _) e
  obtain ⟨-, e⟩ := cut_inj (by decide) (by decide) e
  obtain ⟨e1, e2⟩ := cut_inj (a := text (some (txt "devno"))) (b := text (some cat)) (by decide) hc e
  rcases h with h | h
  · exact h e1.symm
  · exact h (List.append_cancel_right e2)

theorem devno_ne_dev (num uid : Str) : (devno num).name ≠ (Ent.dev uid).name := grp_ne_dev (devno_valid num)

/-- the list of a device number -/
abbrev numList (db : Db) (num : Str) : List Str := mem db ((devno num).key (txt "#GMB"))

theorem _root_.Sid.Spec.Ident.SameNum.refl (db : Db) (num : Str) : SameNum db db num := ⟨Iff.rfl, rfl⟩

theorem _root_.Sid.Spec.Ident.SameNum.trans {a b c : Db} {num : Str} (h : SameNum a b num) (h' : SameNum b c num) : SameNum a c num :=
  ⟨h'.none.trans h.none, h'.list.trans h.list⟩

theorem _root_.Sid.Spec.Ident.SameNum.of_eq {db db' : Db} {num : Str}
    (h : db'.recs (opKey ((devno num).key (txt "#GMB")) .set) = db.recs (opKey ((devno num).key (txt "#GMB")) .set)) :
    SameNum db db' num := by
  refine ⟨?_, ?_⟩
  · unfold Unknown; rw [h]
  · unfold mem; rw [h]

theorem _root_.Sid.Spec.Ident.SameNum.known {db db' : Db} {num u : Str} (h : SameNum db db' num) : KnownAs db' num u ↔ KnownAs db num u := by
  unfold KnownAs
  have := h.list
  unfold numList at this
  rw [this]

theorem _root_.Sid.Spec.Ident.SameNum.of_others {db db' : Db} {a : Ent} {num : Str} (h : Others db db' a) (hne : (devno num).name ≠ a.name) :
    SameNum db db' num := SameNum.of_eq (h.gmb _ (devno_valid num) hne)

theorem handleDevs_numList {db db' : Db} {c : Ctx} {owner : Str} {vdevs : Option (List Str)} {dom : Str} {ns : Ns} {cat : Option Str}
    {name : Str} {op : KvOp} {rc : Int} {num : Str} (hi : Inv base db) (hd : DevOk c) (hv : (Ent.grp dom ns owner cat name).Valid)
    (hl : ∀ l, vdevs = some l → Asc l ∧ ∀ x ∈ l, ∃ uid, 58 ∉ uid ∧ x = (Ent.dev uid).name)
    (hne : (devno num).name ≠ (Ent.grp dom ns owner cat name).name)
    (e : handleDevs db c owner vdevs dom ns cat name op = some (rc, db')) : SameNum db db' num := by
  obtain ⟨db1, e1, i1, -, h1⟩ := handleDevs_ok (op := op) hi hd hv hl
  rw [e] at e1
  cases e1
  exact .of_others h1 hne

theorem doDestroy_numList {db db' : Db} {c : Ctx} {owner dom : Str} {ns : Ns} {cat : Option Str} {name : Str} {force : Bool}
    {rc : Int} {num : Str} (hi : Inv base db) (hv : (Ent.grp dom ns (nsPartOf c owner ns) cat name).Valid)
    (hne : (devno num).name ≠ (Ent.grp dom ns (nsPartOf c owner ns) cat name).name)
    (e : doDestroy db c owner dom ns cat name force = some (rc, db')) : SameNum db db' num := by
  obtain ⟨rc1, db1, e1, i1, h1, -⟩ := doDestroy_ok (force := force) hi hv
  rw [e] at e1
  cases e1
  exact .of_others h1 hne

theorem doCreate_other (db : Db) {c : Ctx} {owner dom : Str} {ns : Ns} {flags : Flags} {cat : Option Str} {name : Str} {a' : Ent}
    (hne : a'.name ≠ (Ent.grp dom ns (nsPartOf c owner ns) cat name).name) :
    (doCreate db c owner dom ns flags cat name).2.recs (opKey (a'.key (txt "#GMB")) .set) =
      db.recs (opKey (a'.key (txt "#GMB")) .set) := by
  unfold doCreate
  rw [groupSpec_key]
  split
  · rfl
  · dsimp only
    rw [manageIndex_recs]
    have : opKey (a'.key (txt "#GMB")) .set ≠ opKey ((Ent.grp dom ns (nsPartOf c owner ns) cat name).key (txt "#GMB")) .set :=
      fun e => hne (key_inj.mp e)
    simp [Db.put, this]

attribute [local irreducible] Sid.Ifc.txt in
theorem aliasRename_numList {db db' : Db} {c : Ctx} {owner key old new : Str} {rc : Int} {num : Str} (hi : Inv base db) (hd : DevOk c)
    (hm : IsMod owner) (e : aliasRename db c owner key old new = some (rc, db')) : SameNum db db' num := by
  unfold aliasRename at e
  split at e
  · cases e; exact .refl _ _
  · have hset : IsSet (db.recs (opKey (groupSpec domAlias .module (nsPartOf c owner .module) (some key) old) .set)) := by
      obtain ⟨-, -, hall⟩ := hi
      exact (hall _ ⟨.grp domAlias .module (nsPartOf c owner .module) (some key) old, Or.inl rfl,
        Or.inl (groupSpec_key _ _ _ _ _)⟩).set
    have hkey : Kvs.canon (composeKey (groupSpec domAlias .module (nsPartOf c owner .module) (some key) old)) =
        opKey (groupSpec domAlias .module (nsPartOf c owner .module) (some key) old) .set := rfl
    unfold getRec at e
    rw [hkey] at e
    cases hr : db.recs (opKey (groupSpec domAlias .module (nsPartOf c owner .module) (some key) old) .set) with
    | none => rw [hr] at e; cases e; exact .refl _ _
    | some r =>
      rw [hr] at e hset
      dsimp only at e
      obtain ⟨l, hl, hasc⟩ := hset r rfl
      have hmem : mem db (groupSpec domAlias .module (nsPartOf c owner .module) (some key) old) = l := by
        unfold mem
        rw [hr]
        obtain ⟨s, f, g, o, v⟩ := r
        dsimp only at hl
        subst hl
        rfl
      by_cases ha : rdAllowed r owner = true
      · rw [if_pos ha] at e
        dsimp only at e
        rw [hl] at e
        cases l with
        | nil => cases e; exact .refl _ _
        | cons y l =>
          dsimp only at e
          unfold renameFound at e
          have hl' : ∀ l', some (y :: l) = some l' → Asc l' ∧ ∀ x ∈ l', ∃ uid, 58 ∉ uid ∧ x = (Ent.dev uid).name := by
            intro l' hl'
            cases hl'
            refine ⟨hasc, ?_⟩
            intro x hx
            rw [← hmem] at hx
            exact hi.1.ofGroup _ _ _ _ _ (Or.inl rfl) x hx
          obtain ⟨db1, e1, i1, -⟩ := handleDevs_ok (db := db) (c := c) (owner := owner) (vdevs := some (y :: l)) (dom := domAlias)
            (ns := .module) (cat := some key) (name := new) (op := .plus) hi hd (Or.inl rfl) hl'
          rw [e1] at e
          simp only [Option.bind_some] at e
          rw [if_neg (by decide)] at e
          refine .trans (handleDevs_numList hi hd (Or.inl rfl) hl' (devno_ne (Or.inl rfl) (Or.inr hm)) e1) ?_
          exact doDestroy_numList (num := num) i1 (Or.inl rfl)
            (devno_ne (part := owner) (ns := .module) (Or.inl rfl) (Or.inr hm)) e
      · rw [if_neg ha] at e
        cases e
        exact .refl _ _

attribute [local irreducible] Sid.Ifc.txt in
/-- calls of modules leave device numbers alone -/
theorem gcall_numList {db db' : Db} {x : GCall} {rc : Int} {num : Str} (hi : Inv base db) (hx : CallOk x) (hb : ByMod x)
    (e : gcall db x = some (rc, db')) : SameNum db db' num := by
  cases x with
  | create c o ns fl cat n =>
    simp only [gcall, grpCreate] at e
    split at e
    · cases e; exact .refl _ _
    · have h := doCreate_other (c := c) (owner := o) (dom := domGroup) (ns := ns) (flags := fl &&& ~~~flAlign) (cat := cat)
        (name := n) db (a' := devno num) (devno_ne (Or.inr rfl) (Or.inl rfl))
      rw [Option.some.inj e] at h
      exact .of_eq h
  | add c o ns cat n =>
    simp only [gcall, grpAdd] at e
    split at e
    · cases e; exact .refl _ _
    · exact handleDevs_numList hi hx (Or.inr rfl) (by intro l hl; cases hl) (devno_ne (Or.inr rfl) (Or.inl rfl)) e
  | del c o ns cat n =>
    simp only [gcall, grpDel] at e
    split at e
    · cases e; exact .refl _ _
    · exact handleDevs_numList hi hx (Or.inr rfl) (by intro l hl; cases hl) (devno_ne (Or.inr rfl) (Or.inl rfl)) e
  | destroy c o ns cat n f =>
    simp only [gcall, grpDestroy] at e
    split at e
    · cases e; exact .refl _ _
    · exact doDestroy_numList hi (Or.inr rfl) (devno_ne (Or.inr rfl) (Or.inl rfl)) e
  | aliasAdd c o k n =>
    simp only [gcall, aliasAdd] at e
    split at e
    · cases e; exact .refl _ _
    · exact handleDevs_numList hi hx (Or.inl rfl) (by intro l hl; cases hl) (devno_ne (Or.inl rfl) (Or.inr hb)) e
  | aliasRename c o k a b => exact aliasRename_numList hi hx hb e
  | aliasDel c o k n =>
    simp only [gcall, aliasDel] at e
    split at e
    · cases e; exact .refl _ _
    · exact handleDevs_numList hi hx (Or.inl rfl) (by intro l hl; cases hl) (devno_ne (Or.inl rfl) (Or.inr hb)) e
  | deps c l =>
    obtain ⟨db1, e1, i1, -, h1⟩ := updateDeps_ok hi hx.1 hx.2.1 hx.2.2
    simp only [gcall] at e
    rw [e] at e1
    cases e1
    exact .of_others h1 (devno_ne_dev num _)

/-! ### records that are no lists -/

/-- a record outside the lists is written -/
theorem write_inv {db : Db} {key : Str} {r : Rec} (hi : Inv base db) (hk : ∀ s, Rel s → ∀ k ∈ keysOf (opKey s .set), k ≠ key) :
    Inv base (writeRec db key r) ∧ ∀ s, Rel s → mem (writeRec db key r) s = mem db s := by
  have hst : ∀ s, Rel s → ∀ k ∈ keysOf (opKey s .set), Stays db (writeRec db key r) k := by
    intro s hs k hkk
    refine writeRec_stays _ _ _ _ (hk s hs k hkk) ?_
    have hhead := opKey_head s (rel_unmarked s hs)
    simp only [keysOf, List.mem_cons, List.not_mem_nil, or_false] at hkk
    rcases hkk with rfl | rfl | rfl
    · rw [hhead]; simp
    · simp
    · simp
  obtain ⟨hc, hbc, hall⟩ := hi
  have hm : ∀ s, Rel s → mem (writeRec db key r) s = mem db s := by
    intro s hs
    unfold mem
    rw [(hst s hs _ (by simp [keysOf])).1]
  refine ⟨⟨consistent_congr hm hc, hbc, fun s hs => ?_⟩, hm⟩
  have hk := hall s hs
  have e0 := hst s hs (opKey s .set) (by simp [keysOf])
  have eP := hst s hs (43 :: opKey s .set) (by simp [keysOf])
  have eM := hst s hs (45 :: opKey s .set) (by simp [keysOf])
  refine ⟨by rw [e0.1]; exact hk.set, half_congr hk.plus eP.1 eP.2, half_congr hk.minus eM.1 eM.2, ?_, ?_⟩
  · rw [eP.1, e0.1]; exact hk.pMem
  · rw [eM.1, e0.1]; exact hk.mMem

/-- the key of a record the daemon sets -/
def coreKey (c : Ctx) (ns : Ns) (key : Str) : Str := (composeKey (setSpec c core none ns key)).drop 1

theorem coreKey_dev (c : Ctx) (key : Str) : coreKey c .device key = (Ent.dev (orNull c.uid)).name ++ key := by
  unfold coreKey
  rw [compose_glue, dev_name]
  simp [glue, setSpec, nsPartOf, text, nsLetter, opLetter]

theorem coreKey_udev (c : Ctx) (key : Str) : coreKey c .udev key = glue [] [] [85] (orNull c.num) [] [] key := by
  unfold coreKey
  rw [compose_glue]
  simp [glue, setSpec, nsPartOf, text, nsLetter, opLetter]

theorem coreKey_head (c : Ctx) (ns : Ns) (key : Str) : (coreKey c ns key).head? = some 58 := setKey_head

theorem coreKey_ne_delta {c : Ctx} {ns : Ns} {key : Str} {s : KeySpec} (h : opKey s .set ≠ coreKey c ns key) :
    ∀ k ∈ keysOf (opKey s .set), k ≠ coreKey c ns key := by
  intro k hk
  have hhead := coreKey_head c ns key
  simp only [keysOf, List.mem_cons, List.not_mem_nil, or_false] at hk
  rcases hk with rfl | rfl | rfl
  · exact h
  · intro e; rw [← e] at hhead; simp at hhead
  · intro e; rw [← e] at hhead; simp at hhead

/-- states of devices are not lists -/
theorem state_apart (c : Ctx) {key : Str} (hk : key = keyReady ∨ key = keyReserved) {s : KeySpec} (hs : Rel s) :
    ∀ k ∈ keysOf (opKey s .set), k ≠ coreKey c .device key := by
  refine coreKey_ne_delta ?_
  obtain ⟨e, -, h | h⟩ := hs <;> rw [h, key_eq, coreKey_dev] <;> intro e' <;> rcases hk with rfl | rfl
  all_goals exact absurd (List.append_inj' e' (by decide)).2 (by decide)

/-- udev's variables are not lists -/
theorem udev_apart (c : Ctx) (key : Str) {s : KeySpec} (hs : Rel s) :
    ∀ k ∈ keysOf (opKey s .set), k ≠ coreKey c .udev key := by
  refine coreKey_ne_delta ?_
  obtain ⟨rest, hf⟩ := setKey_form c core (domOf .udev) .udev key
  obtain ⟨e, hv, h | h⟩ := hs <;> rw [h] <;> intro e' <;> exact apart rfl e hv _ (hf.symm.trans e'.symm)

theorem doKvSet_core {db db' : Db} {c : Ctx} {a : SetArgs} {rc : Int} (h : doKvSet db c core none a = some (rc, db')) :
    rc = 0 ∧ db' = writeRec db (coreKey c a.ns a.key) (setRec c core a) := by
  have hg : ∀ g, (if a.ns = .udev ∧ core = core then some 0 else globalRs db core none a.ns a.key) = some g → ¬ g < 0 := by
    intro g
    split
    · intro h; cases h; decide
    · unfold globalRs
      split
      · intro h; cases h; decide
      · split
        · intro h; cases h; decide
        · split
          · intro h; cases h
          · split
            · intro h
              rw [modMatch_core.mpr rfl] at h
              cases h
              exact (by decide : ¬ (1 : Int) < 0)
            · intro h; cases h; decide
  unfold doKvSet at h
  generalize (if a.ns = .udev ∧ core = core then some 0 else globalRs db core none a.ns a.key) = g at h hg
  cases g with
  | none => cases h
  | some g =>
    simp only [Option.bind_some] at h
    rw [if_neg (hg g rfl), if_neg (wrAllowed_core _)] at h
    simp only [Option.some.injEq, Prod.mk.injEq] at h
    exact ⟨h.1.symm, h.2.symm⟩

theorem doKvSet_udev (db : Db) (c : Ctx) (a : SetArgs) (h : a.ns = .udev) :
    doKvSet db c core none a = some (0, writeRec db (coreKey c a.ns a.key) (setRec c core a)) := by
  unfold doKvSet
  rw [if_pos ⟨h, rfl⟩]
  simp only [Option.bind_some]
  rw [if_neg (by decide), if_neg (wrAllowed_core _)]
  rfl

/-- the reservations of the states of devices -/
abbrev rsvStateKey (key : Str) : Str := opKey { ns := .device, core := some key } .set

theorem doKvSet_state {db : Db} {c : Ctx} {a : SetArgs} (h : a.ns = .device) (hn : db.recs (rsvStateKey a.key) = none) :
    doKvSet db c core none a = some (0, writeRec db (coreKey c a.ns a.key) (setRec c core a)) := by
  have hg : globalRs db core none a.ns a.key = some 1 := by
    unfold globalRs
    rw [h]
    rw [show db.recs (Kvs.canon (composeKey (rsvSpec none .device a.key))) = none from hn]
    simp
  unfold doKvSet
  rw [if_neg (by rw [h]; decide), hg]
  simp only [Option.bind_some]
  rw [if_neg (by decide), if_neg (wrAllowed_core _)]
  rfl

/-! ### what is looked up -/

theorem copyNsPart_dev {u : Str} (h : IsId u) : copyNsPart (Ent.dev u).name uuidSize = some u := by
  have : nsPartFromKey (Ent.dev u).name = some u := by
    rw [dev_name]
    exact part3 _ (by simp) (by simp) (by decide) h.2.2.1
  unfold copyNsPart
  rw [this]
  simp [uuidSize, h.2.1]

theorem devno_spec (num : Str) : groupSpec domAlias .module core (some devnoCat) num = (devno num).key (txt "#GMB") := rfl

theorem lookup_known {db : Db} {num u : Str} (h : IsId u) (hk : KnownAs db num u) :
    aliasToDevid db core devnoCat num = some (.ok u) := by
  unfold aliasToDevid
  rw [devno_spec]
  unfold KnownAs mem members at hk
  unfold rawAliasToDevid
  split at hk
  · rename_i r _ _ _ _ l e
    rw [e]
    dsimp only
    rw [hk]
    dsimp only
    simp only [copyParts, copyNsPart_dev h]
    split <;> simp
  · cases hk

theorem lookup_unknown {db : Db} {num : Str} (hk : Unknown db num) :
    aliasToDevid db core devnoCat num = some (.error (-61)) := by
  unfold aliasToDevid
  rw [devno_spec]
  unfold Unknown at hk
  unfold rawAliasToDevid
  rw [hk]

theorem unknown_nil {db : Db} {num : Str} (h : Unknown db num) : numList db num = [] := by
  unfold numList mem
  rw [h]
  rfl

theorem takeWhile_nulEnd {v : Str} (h : (0 : UInt8) ∉ v) : (v ++ [0]).takeWhile (· ≠ 0) = v := by
  induction v with
  | nil => rfl
  | cons x v ih =>
    have hx : x ≠ 0 := fun e => h (by simp [e])
    rw [List.cons_append, List.takeWhile_cons, if_pos (by simpa using hx), ih (fun e => h (by simp [e]))]

theorem udev_getKey (c : Ctx) : Kvs.canon (composeKey (getSpec c core none .udev udevDevId none none 0)) = udevKey (orNull c.num) := by
  unfold udevKey opKey
  rw [canon_compose _ (Or.inr (Or.inl rfl)), canon_compose _ (Or.inl rfl)]
  rfl

theorem lookup_udev {db : Db} {c : Ctx} {udev : Option Str} (h : UdevHas db (orNull c.num) udev) (hv : ∀ v, udev = some v → IsId v) :
    udevDevid db c = some udev := by
  unfold udevDevid doKvGet getRec
  rw [udev_getKey]
  cases udev with
  | none =>
    rw [show db.recs (udevKey (orNull c.num)) = none from h]
  | some v =>
    obtain ⟨r, hr, hd⟩ := h
    obtain ⟨h1, -, -, h0⟩ := hv v rfl
    rw [hr]
    have : rdAllowed r core = true := by
      unfold rdAllowed
      rw [modMatch_core.mpr rfl]
    simp only [this, if_true, hd]
    cases v with
    | nil => exact absurd rfl h1
    | cons x v =>
      simp only [List.cons_append, strOf]
      rw [if_pos (by simp)]
      rw [← List.cons_append, takeWhile_nulEnd h0]

theorem udevKey_core (c : Ctx) : coreKey c .udev udevDevId = udevKey (orNull c.num) := by
  rw [coreKey_udev]
  unfold udevKey opKey
  rw [canon_compose _ (Or.inl rfl)]
  rfl

/-! ### a new device -/

theorem andThen_some {x : Option (Int × Db)} {f : Db → Option (Int × Db)} {r : Int × Db} (h : andThen x f = some r) :
    ∃ y, x = some y ∧ ((y.1 < 0 ∧ r = y) ∨ (¬ y.1 < 0 ∧ f y.2 = some r)) := by
  unfold andThen at h
  cases x with
  | none => cases h
  | some y =>
    simp only [Option.bind_some] at h
    split at h
    · rename_i hy; cases h; exact ⟨_, rfl, Or.inl ⟨hy, rfl⟩⟩
    · rename_i hy; exact ⟨_, rfl, Or.inr ⟨hy, h⟩⟩

theorem andThen_ok {x : Option (Int × Db)} {f : Db → Option (Int × Db)} {db : Db} (h : x = some (0, db)) : andThen x f = f db := by
  rw [h]
  rfl

abbrev rdyArgs : SetArgs := ⟨.device, keyReady, some [2, 0, 0, 0], stateFlags false⟩
abbrev resArgs : SetArgs := ⟨.device, keyReserved, some [1, 0, 0, 0], stateFlags false⟩

/-- the records with the states of a new device -/
def stateRecs (db : Db) (c : Ctx) : Db :=
  writeRec (writeRec db (coreKey c .device keyReady)
      (setRec c core rdyArgs))
    (coreKey c .device keyReserved)
    (setRec c core resArgs)

theorem stateRecs_inv {db : Db} {c : Ctx} (hi : Inv base db) :
    Inv base (stateRecs db c) ∧ ∀ s, Rel s → mem (stateRecs db c) s = mem db s := by
  obtain ⟨i1, m1⟩ := write_inv (db := db) (r := setRec c core rdyArgs) hi (fun s hs => state_apart c (Or.inl rfl) hs)
  obtain ⟨i2, m2⟩ := write_inv (r := setRec c core resArgs) i1 (fun s hs => state_apart c (Or.inr rfl) hs)
  exact ⟨i2, fun s hs => (m2 s hs).trans (m1 s hs)⟩

/-- the aliases of a new device -/
def aliasRecs (db : Db) (c : Ctx) (dseq name : Str) : Option (Int × Db) :=
  andThen (handleDevs db c core none domAlias .module (some dseqCat) dseq .plus) fun db =>
  andThen (handleDevs db c core none domAlias .module (some devnoCat) (orNull c.num) .plus) fun db =>
  handleDevs db c core none domAlias .module (some nameCat) name .plus

theorem setNewDev_split {db db' : Db} {c : Ctx} {dseq name : Str} {rc : Int} (h : setNewDev false db c dseq name = some (rc, db')) :
    aliasRecs (stateRecs db c) c dseq name = some (rc, db') := by
  unfold setNewDev at h
  obtain ⟨⟨r1, d1⟩, e1, h⟩ := andThen_some h
  obtain ⟨z1, w1⟩ := doKvSet_core e1
  simp only [z1, Int.lt_irrefl, false_and, not_false_eq_true, true_and, false_or] at h
  obtain ⟨⟨r2, d2⟩, e2, h⟩ := andThen_some h
  obtain ⟨z2, w2⟩ := doKvSet_core e2
  simp only [z2, Int.lt_irrefl, false_and, not_false_eq_true, true_and, false_or] at h
  have : d2 = stateRecs db c := by rw [w2, w1]; rfl
  rw [← this]
  exact h

theorem coreKey_ne_rsv {c : Ctx} {u k k' : Str} (hu : c.uid = some u) (h : IsId u) : rsvStateKey k' ≠ coreKey c .device k := by
  unfold rsvStateKey opKey coreKey
  rw [canon_compose _ (Or.inl rfl), compose_glue]
  intro e
  obtain ⟨x, v, rfl⟩ : ∃ x v, u = x :: v := by
    cases u with
    | nil => exact absurd rfl h.1
    | cons x v => exact ⟨x, v, rfl⟩
  simp [glue, setSpec, nsPartOf, text, nsLetter, opLetter, storedMark, hu, orNull, join] at e
  exact h.2.2.1 (by simp [e.1.symm])

theorem setNewDev_join {db : Db} {c : Ctx} {u dseq name : Str} (hu : c.uid = some u) (hid : IsId u) (hn : NoReservation db) :
    setNewDev false db c dseq name = aliasRecs (stateRecs db c) c dseq name := by
  unfold setNewDev
  rw [andThen_ok (doKvSet_state (db := db) (c := c) (a := rdyArgs) rfl (hn _ (Or.inl rfl)))]
  refine (andThen_ok (doKvSet_state (c := c) (a := resArgs) rfl ?_)).trans rfl
  rw [writeRec_other _ _ _ _ (coreKey_ne_rsv hu hid)]
  · exact hn _ (Or.inr rfl)
  · rw [opKey_head _ rfl]
    simp

attribute [local irreducible] Sid.Ifc.txt in
theorem aliasRecs_ok {db : Db} {c : Ctx} {u dseq name : Str} (hi : Inv base db) (hu : c.uid = some u) (hid : IsId u)
    (h0 : numList db (orNull c.num) = []) :
    ∃ db', aliasRecs db c dseq name = some (0, db') ∧ Inv base db' ∧ KnownAs db' (orNull c.num) u ∧
      (∀ n, n ≠ orNull c.num → SameNum db db' n) ∧
      ∀ k, k.head? = some 58 → (∀ s, Rel s → k ≠ opKey s .set) → db'.recs k = db.recs k := by
  have hd : DevOk c := by
    intro v hv
    rw [hu] at hv
    cases hv
    exact hid.2.2.1
  have hnone : ∀ l : List Str, none = some l → Asc l ∧ ∀ x ∈ l, ∃ uid, 58 ∉ uid ∧ x = (Ent.dev uid).name := by
    intro l hl
    cases hl
  obtain ⟨db1, e1, i1, -, o1⟩ := handleDevs_ok (owner := core) (vdevs := none) (dom := domAlias) (ns := .module)
    (cat := some dseqCat) (name := dseq) (op := .plus) hi hd (Or.inl rfl) hnone
  obtain ⟨db2, e2, i2, m2, o2⟩ := handleDevs_ok (owner := core) (vdevs := none) (dom := domAlias) (ns := .module)
    (cat := some devnoCat) (name := orNull c.num) (op := .plus) i1 hd (Or.inl rfl) hnone
  obtain ⟨db3, e3, i3, -, o3⟩ := handleDevs_ok (owner := core) (vdevs := none) (dom := domAlias) (ns := .module)
    (cat := some nameCat) (name := name) (op := .plus) i2 hd (Or.inl rfl) hnone
  have s1 : ∀ n, SameNum db db1 n := fun n => .of_others o1 (devno_ne_core (cat := dseqCat) (by unfold dseqCat txt; decide) (Or.inl (by unfold dseqCat txt; decide)))
  have s3 : ∀ n, SameNum db2 db3 n := fun n => .of_others o3 (devno_ne_core (cat := nameCat) (by unfold nameCat txt; decide) (Or.inl (by unfold nameCat txt; decide)))
  refine ⟨db3, ?_, i3, ?_, ?_, ?_⟩
  · unfold aliasRecs
    rw [andThen_ok e1, andThen_ok e2, e3]
  · unfold KnownAs
    rw [(s3 _).list]
    refine Asc.ext (inv_asc i2 ⟨_, devno_valid _, Or.inl rfl⟩) (List.pairwise_singleton _ _) fun x => ?_
    refine (m2 x).trans ?_
    have : mem db1 ((Ent.grp domAlias .module core (some devnoCat) (orNull c.num)).key (txt "#GMB")) = [] :=
      (s1 (orNull c.num)).list.trans h0
    rw [this]
    simp [Result, hu]
  · intro n hn
    exact ((s1 n).trans (.of_others o2 (devno_ne_core (cat := devnoCat) (by unfold devnoCat txt; decide) (Or.inr hn)))).trans (s3 n)
  · intro k hh hk
    rw [o3.plain k hh hk, o2.plain k hh hk, o1.plain k hh hk]

theorem gmb_head (num : Str) : (opKey ((devno num).key (txt "#GMB")) .set).head? = some 58 := opKey_head _ (key_unmarked _ _)

theorem rel_devno (num : Str) : Rel ((devno num).key (txt "#GMB")) := ⟨_, devno_valid num, Or.inl rfl⟩

/-- a record outside the lists is written: the numbers stay -/
theorem write_same {db : Db} {key : Str} {r : Rec} (hk : ∀ s, Rel s → ∀ k ∈ keysOf (opKey s .set), k ≠ key) (n : Str) :
    SameNum db (writeRec db key r) n :=
  .of_eq (writeRec_other _ _ _ _ (hk _ (rel_devno n) _ (by simp [keysOf])) (by rw [gmb_head]; simp))

theorem state_same (db : Db) (c : Ctx) (n : Str) : SameNum db (stateRecs db c) n :=
  (write_same (fun _ hs => state_apart c (Or.inl rfl) hs) n).trans (write_same (fun _ hs => state_apart c (Or.inr rfl) hs) n)

theorem udevKey_head (num : Str) : (udevKey num).head? = some 58 := opKey_head _ rfl

theorem udevKey_ne_rel (num : Str) {s : KeySpec} (hs : Rel s) : udevKey num ≠ opKey s .set := by
  obtain ⟨c0, h0⟩ : ∃ c0 : Ctx, orNull c0.num = num := ⟨{ num := some num }, rfl⟩
  have h := udev_apart c0 udevDevId hs (opKey s .set) (by simp [keysOf])
  rw [udevKey_core, h0] at h
  exact fun e => h e.symm

theorem udevKey_ne_state (num : Str) (c : Ctx) (key : Str) : udevKey num ≠ coreKey c .device key := by
  obtain ⟨c0, h0⟩ : ∃ c0 : Ctx, orNull c0.num = num := ⟨{ num := some num }, rfl⟩
  rw [← h0, ← udevKey_core, coreKey_udev, coreKey_dev, dev_name]
  intro e
  have h := congrArg (fun l => l[2]?) e
  simp [glue, nsLetter, join] at h

theorem udevKey_ne_tags (num : Str) (c : Ctx) : udevKey num ≠ coreKey c .udev udevTags := by
  obtain ⟨c0, h0⟩ : ∃ c0 : Ctx, orNull c0.num = num := ⟨{ num := some num }, rfl⟩
  rw [← h0, ← udevKey_core, coreKey_udev, coreKey_udev]
  intro e
  have h := congrArg List.reverse e
  simp [glue, join, udevDevId, udevTags, txt] at h

theorem state_udev (db : Db) (c : Ctx) (num : Str) : (stateRecs db c).recs (udevKey num) = db.recs (udevKey num) := by
  unfold stateRecs
  rw [writeRec_other _ _ _ _ (udevKey_ne_state num c _) (by rw [udevKey_head]; simp),
    writeRec_other _ _ _ _ (udevKey_ne_state num c _) (by rw [udevKey_head]; simp)]

theorem udevHas_congr {db db' : Db} {num : Str} {udev : Option Str} (h : db'.recs (udevKey num) = db.recs (udevKey num)) :
    UdevHas db' num udev ↔ UdevHas db num udev := by
  cases udev <;> unfold UdevHas <;> rw [h]

theorem writeRec_own (db : Db) (key : Str) (r : Rec) (h : key.head? = some 58) :
    ∃ r', (writeRec db key r).recs key = some r' ∧ r'.val = r.val :=
  ⟨r, writeRec_key db key r (by rw [h]; simp), rfl⟩

/-- udev is told -/
theorem tellUdev_ok {db : Db} {c : Ctx} {u : Str} {udev : Option Str} (hi : Inv base db) (hu : c.uid = some u)
    (hh : UdevHas db (orNull c.num) udev) :
    ∃ db', tellUdev db c udev = some (0, db') ∧ Inv base db' ∧ (∀ n, SameNum db db' n) ∧
      UdevHas db' (orNull c.num) (some (udev.getD u)) := by
  have tags : ∀ {d : Db}, Inv base d → UdevHas d (orNull c.num) (some (udev.getD u)) → ∃ db',
      doKvSet d c core none ⟨.udev, udevTags, some (udevTagSid ++ [0]), flSync⟩ = some (0, db') ∧
      Inv base db' ∧ (∀ n, SameNum d db' n) ∧ UdevHas db' (orNull c.num) (some (udev.getD u)) := by
    intro d hi hh
    refine ⟨_, doKvSet_udev d c _ rfl, (write_inv hi fun s hs => udev_apart c _ hs).1,
      write_same fun s hs => udev_apart c _ hs, ?_⟩
    refine (udevHas_congr ?_).mpr hh
    exact writeRec_other _ _ _ _ (udevKey_ne_tags _ c) (by rw [udevKey_head]; simp)
  unfold tellUdev
  cases udev with
  | some v =>
    obtain ⟨db', e, i, s, h⟩ := tags hi hh
    exact ⟨db', e, i, s, h⟩
  | none =>
    rw [if_neg (by simp), andThen_ok (doKvSet_udev db c ⟨.udev, udevDevId, some (orNull c.uid ++ [0]), flSync⟩ rfl)]
    have h1 : UdevHas (writeRec db (coreKey c .udev udevDevId) (setRec c core ⟨.udev, udevDevId, some (orNull c.uid ++ [0]), flSync⟩))
        (orNull c.num) (some u) := by
      obtain ⟨r', e, ev⟩ := writeRec_own db (coreKey c .udev udevDevId)
        (setRec c core ⟨.udev, udevDevId, some (orNull c.uid ++ [0]), flSync⟩) (coreKey_head _ _ _)
      refine ⟨r', ?_, ?_⟩
      · rw [← udevKey_core]; exact e
      · rw [ev, hu]; rfl
    obtain ⟨db', e, i, s, h⟩ := tags (write_inv hi fun s hs => udev_apart c _ hs).1 h1
    exact ⟨db', e, i, fun n => (write_same (fun s hs => udev_apart c _ hs) n).trans (s n), h⟩

/-- the part behind the choice, when the device is on record -/
theorem chosen_known {db : Db} {c : Ctx} {d : DevNames} {u v : Str} {udev : Option Str} (hi : Inv base db) (hu : c.uid = some u)
    (hh : UdevHas db (orNull c.num) udev) (hk : KnownAs db (orNull c.num) u) :
    ∃ db', setDevChosen db c d (some v) udev = some (0, db') ∧ Inv base db' ∧ KnownAs db' (orNull c.num) u ∧ (∀ n, SameNum db db' n) ∧
      UdevHas db' (orNull c.num) (some (udev.getD u)) := by
  obtain ⟨db', e, i, s, h⟩ := tellUdev_ok hi hu hh
  refine ⟨db', ?_, i, (s _).known.mpr hk, s, h⟩
  unfold setDevChosen
  rw [if_pos (by simp), andThen_ok rfl, e]
  rfl

/-- and when it is not -/
theorem chosen_new {db : Db} {c : Ctx} {d : DevNames} {u : Str} {udev : Option Str} (hi : Inv base db) (hu : c.uid = some u) (hid : IsId u)
    (hh : UdevHas db (orNull c.num) udev) (hk : Unknown db (orNull c.num)) :
    ∃ db', andThen (aliasRecs (stateRecs db c) c d.dseq d.name) (fun db => tellUdev db c udev) = some (0, db') ∧ Inv base db' ∧
      KnownAs db' (orNull c.num) u ∧ (∀ n, n ≠ orNull c.num → SameNum db db' n) ∧
      UdevHas db' (orNull c.num) (some (udev.getD u)) := by
  obtain ⟨db1, e1, i1, k1, s1, f1⟩ := aliasRecs_ok (dseq := d.dseq) (name := d.name) (stateRecs_inv (c := c) hi).1 hu hid
    (unknown_nil (((state_same db c _).none).mpr hk))
  have h1 : UdevHas db1 (orNull c.num) udev := by
    refine (udevHas_congr ?_).mpr hh
    rw [f1 _ (udevKey_head _) fun s hs => udevKey_ne_rel _ hs, state_udev]
  obtain ⟨db', e, i, s, h⟩ := tellUdev_ok i1 hu h1
  exact ⟨db', by rw [andThen_ok e1, e], i, (s _).known.mpr k1, fun n hn => ((state_same db c n).trans (s1 n hn)).trans (s n), h⟩

/-- what holds afterwards -/
structure Given (base db db' : Db) (num : Str) (udev : Option Str) (u : Str) : Prop where
  inv : Inv base db'
  known : KnownAs db' num u
  other : ∀ n, n ≠ num → SameNum db db' n
  told : UdevHas db' num (some (udev.getD u))

theorem setDevKvs_res {db db' : Db} {c c' : Ctx} {d : DevNames} {gen : Str} {udev : Option Str} {rc : Int} (hi : Inv base db)
    (hn : Unknown db (orNull c.num) ∨ ∃ u, IsId u ∧ KnownAs db (orNull c.num) u)
    (hh : UdevHas db (orNull c.num) udev) (hv : ∀ v, udev = some v → IsId v) (hg : IsId gen)
    (h : setDevKvs db c d gen = some (rc, c', db')) :
    rc = 0 ∧ ∃ u, c' = { c with uid := some u } ∧ IsId u ∧ Chosen db (orNull c.num) udev gen u ∧
      Given base db db' (orNull c.num) udev u := by
  unfold setDevKvs at h
  rw [lookup_udev hh hv] at h
  simp only [Option.bind_some] at h
  rcases hn with hk | ⟨u, hid, hk⟩
  · rw [lookup_unknown hk] at h
    simp only [Option.bind_some, if_true] at h
    obtain ⟨u, hu⟩ : ∃ u, u = devidToUse none udev gen := ⟨_, rfl⟩
    rw [← hu] at h
    have hu' : u = udev.getD gen := by rw [hu]; cases udev <;> rfl
    have hid : IsId u := by
      rw [hu']
      cases udev with
      | none => exact hg
      | some v => exact hv v rfl
    obtain ⟨db1, e, i, k, s, t⟩ := chosen_new (c := { c with uid := some u }) (d := d) hi rfl hid hh hk
    have : ∃ x, andThen (setNewDev false db { c with uid := some u } d.dseq d.name)
        (fun db => tellUdev db { c with uid := some u } udev) = some x := by
      unfold setDevChosen at h
      simp only [Option.map_eq_some_iff, Option.isSome_none] at h
      obtain ⟨x, ⟨y, hy, -⟩, -⟩ := h
      exact ⟨y, hy⟩
    obtain ⟨x, hx⟩ := this
    obtain ⟨y, hy, hxy⟩ := andThen_some hx
    have hy' := setNewDev_split hy
    have hx' : x = (0, db1) := by
      have : andThen (aliasRecs (stateRecs db { c with uid := some u }) { c with uid := some u } d.dseq d.name)
          (fun db => tellUdev db { c with uid := some u } udev) = some x := by
        rw [hy']
        rw [hy] at hx
        exact hx
      rw [e] at this
      exact (Option.some.inj this).symm
    unfold setDevChosen at h
    simp only [Option.isSome_none, Bool.false_eq_true, if_false, hx, hx', Option.map_some, Option.some.injEq, Prod.mk.injEq] at h
    obtain ⟨h1, h2, h3⟩ := h
    rw [if_neg (by decide)] at h1
    subst h3
    exact ⟨h1.symm, u, h2.symm, hid, Or.inr ⟨hk, hu'⟩, i, k, s, t⟩
  · rw [lookup_known hid hk] at h
    simp only [Option.bind_some] at h
    have hu : devidToUse (some u) udev gen = u := by cases udev <;> rfl
    rw [hu] at h
    obtain ⟨db1, e, i, k, s, t⟩ := chosen_known (c := { c with uid := some u }) (d := d) (v := u) hi rfl hh hk
    rw [e] at h
    simp only [Option.map_some, Option.some.injEq, Prod.mk.injEq] at h
    obtain ⟨h1, h2, h3⟩ := h
    subst h3
    exact ⟨h1.symm, u, h2.symm, hid, Or.inl hk, i, k, fun n _ => s n, t⟩

theorem setDevKvs_total {db : Db} {c : Ctx} {d : DevNames} {gen : Str} {udev : Option Str} (hi : Inv base db)
    (hn : Unknown db (orNull c.num) ∨ ∃ u, IsId u ∧ KnownAs db (orNull c.num) u)
    (hh : UdevHas db (orNull c.num) udev) (hv : ∀ v, udev = some v → IsId v) (hg : IsId gen) (hr : NoReservation db) :
    ∃ rc c' db', setDevKvs db c d gen = some (rc, c', db') := by
  unfold setDevKvs
  rw [lookup_udev hh hv]
  simp only [Option.bind_some]
  rcases hn with hk | ⟨u, hid, hk⟩
  · rw [lookup_unknown hk]
    simp only [Option.bind_some, if_true]
    have hid : IsId (devidToUse none udev gen) := by
      cases udev with
      | none => exact hg
      | some v => exact hv v rfl
    obtain ⟨db1, e, -⟩ := chosen_new (c := { c with uid := some (devidToUse none udev gen) }) (d := d) hi rfl hid hh hk
    unfold setDevChosen
    simp only [Option.isSome_none, Bool.false_eq_true, if_false]
    rw [setNewDev_join rfl hid hr, e]
    exact ⟨_, _, _, rfl⟩
  · rw [lookup_known hid hk]
    simp only [Option.bind_some]
    have hu : devidToUse (some u) udev gen = u := by cases udev <;> rfl
    rw [hu]
    obtain ⟨db1, e, -⟩ := chosen_known (c := { c with uid := some u }) (d := d) (v := u) hi rfl hh hk
    rw [e]
    exact ⟨_, _, _, rfl⟩

/-! ### workers -/

theorem export_same {db : Db} {keys : List Str} {o : Out} (he : Entries db keys) (hx : exportLoop { db := db } keys = some o)
    (hi : Inv base db) (num : Str) : SameNum db (endStage o) num := by
  refine ⟨?_, (export_inv he hx hi).2 _ (rel_devno num)⟩
  unfold Unknown
  rw [(endStage_ok he hx).1, opFromKey_set (gmb_head num)]
  split
  · simp
  · rfl

theorem call_same {db db' : Db} {owner : Str} {x : Call} {rc : Int} (h : call true db owner x = some (rc, db')) (num : Str) :
    SameNum db db' num := .of_eq (call_rel_stays h (rel_devno num) _ (by simp [keysOf])).1

theorem known_inj {db : Db} {num u v : Str} (h : KnownAs db num u) (h' : KnownAs db num v) : u = v := by
  unfold KnownAs at h h'
  rw [h] at h'
  simp only [List.cons.injEq, and_true] at h'
  rw [dev_name, dev_name] at h'
  simp only [glue, List.nil_append, List.cons.injEq, true_and] at h'
  obtain ⟨-, h'⟩ := cut_inj (nsLetter_plain _) (nsLetter_plain _) h'
  exact List.append_cancel_right h'

theorem known_not_unknown {db : Db} {num u : Str} (h : KnownAs db num u) : ¬ Unknown db num := by
  intro hu
  have := unknown_nil hu
  unfold numList at this
  unfold KnownAs at h
  rw [h] at this
  cases this

/-- a step in which numbers stay known -/
theorem numbered_step {db db' : Db} {num : Str} {u : Str} (hn : Numbered db)
    (hid : IsId u) (hk : KnownAs db' num u) (ho : ∀ n, n ≠ num → SameNum db db' n) : Numbered db' := by
  intro n
  by_cases h : n = num
  · subst h; exact Or.inr ⟨u, hid, hk⟩
  · rcases hn n with h' | ⟨v, hv, h'⟩
    · exact Or.inl ((ho n h).none.mpr h')
    · exact Or.inr ⟨v, hv, (ho n h).known.mpr h'⟩

theorem numbered_same {db db' : Db} (hn : Numbered db) (ho : ∀ n, SameNum db db' n) : Numbered db' := by
  intro n
  rcases hn n with h' | ⟨v, hv, h'⟩
  · exact Or.inl ((ho n).none.mpr h')
  · exact Or.inr ⟨v, hv, (ho n).known.mpr h'⟩

theorem worker_inv {db0 since db : Db} (h0 : Inv db0 db0) (hn : Numbered db0) (h : Worker db0 since db) :
    Inv since db ∧ Numbered since ∧ Numbered db ∧ (∀ num u, KnownAs db0 num u → KnownAs since num u) ∧
      ∀ num u, KnownAs since num u → KnownAs db num u := by
  induction h with
  | start => exact ⟨h0, hn, hn, fun _ _ h => h, fun _ _ h => h⟩
  | @group since db db' x rc _ hx hb e ih =>
    obtain ⟨hi, h1, h2, h3, h4⟩ := ih
    have hs : ∀ n, SameNum db db' n := fun n => gcall_numList hi hx hb e
    obtain ⟨rc', db'', e', i⟩ := gcall_inv hi hx
    rw [e] at e'
    cases e'
    exact ⟨i, h1, numbered_same h2 hs, h3, fun n u h => (hs n).known.mpr (h4 n u h)⟩
  | call _ e ih =>
    obtain ⟨hi, h1, h2, h3, h4⟩ := ih
    exact ⟨(call_inv e hi).1, h1, numbered_same h2 (call_same e), h3, fun n u h => (call_same e n).known.mpr (h4 n u h)⟩
  | «export» _ he hx ih =>
    obtain ⟨hi, h1, h2, h3, h4⟩ := ih
    have hs := export_same he hx hi
    exact ⟨(export_inv he hx hi).1, numbered_same h2 hs, numbered_same h2 hs,
      fun n u h => (hs n).known.mpr (h4 n u (h3 n u h)), fun _ _ h => h⟩
  | @device since db db' c c' d gen udev rc _ hu hv hg e ih =>
    obtain ⟨hi, h1, h2, h3, h4⟩ := ih
    obtain ⟨-, u, -, hid, hch, g⟩ := setDevKvs_res hi (h2 _) hu hv hg e
    refine ⟨g.inv, h1, numbered_step h2 hid g.known g.other, h3, fun n v h => ?_⟩
    have h' := h4 n v h
    by_cases hn : n = orNull c.num
    · subst hn
      rcases hch with hk | ⟨hk, -⟩
      · rw [known_inj h' hk]; exact g.known
      · exact absurd hk (known_not_unknown h')
    · exact (g.other n hn).known.mpr h'

/-- from any time on -/
theorem worker_keeps {db0 since db : Db} (h0 : Inv base db0) (hn : Numbered db0) (h : Worker db0 since db) :
    (∃ base, Inv base db) ∧ Numbered db ∧ ∀ num u, KnownAs db0 num u → KnownAs db num u := by
  induction h with
  | start => exact ⟨⟨_, h0⟩, hn, fun _ _ h => h⟩
  | @group since db db' x rc _ hx hb e ih =>
    obtain ⟨⟨b, hi⟩, h2, h4⟩ := ih
    have hs : ∀ n, SameNum db db' n := fun n => gcall_numList hi hx hb e
    obtain ⟨rc', db'', e', i⟩ := gcall_inv hi hx
    rw [e] at e'
    cases e'
    exact ⟨⟨b, i⟩, numbered_same h2 hs, fun n u h => (hs n).known.mpr (h4 n u h)⟩
  | call _ e ih =>
    obtain ⟨⟨b, hi⟩, h2, h4⟩ := ih
    exact ⟨⟨b, (call_inv e hi).1⟩, numbered_same h2 (call_same e), fun n u h => (call_same e n).known.mpr (h4 n u h)⟩
  | «export» _ he hx ih =>
    obtain ⟨⟨b, hi⟩, h2, h4⟩ := ih
    have hs := export_same he hx hi
    exact ⟨⟨_, (export_inv he hx hi).1⟩, numbered_same h2 hs, fun n u h => (hs n).known.mpr (h4 n u h)⟩
  | @device since db db' c c' d gen udev rc _ hu hv hg e ih =>
    obtain ⟨⟨b, hi⟩, h2, h4⟩ := ih
    obtain ⟨-, u, -, hid, hch, g⟩ := setDevKvs_res hi (h2 _) hu hv hg e
    refine ⟨⟨b, g.inv⟩, numbered_step h2 hid g.known g.other, fun n v h => ?_⟩
    have h' := h4 n v h
    by_cases hn : n = orNull c.num
    · subst hn
      rcases hch with hk | ⟨hk, -⟩
      · rw [known_inj h' hk]; exact g.known
      · exact absurd hk (known_not_unknown h')
    · exact (g.other n hn).known.mpr h'

/-! ### the main store -/

theorem main_members {main main' since db : Db} {keys : List Str} {o : Out}
    (hset : ∀ s, Rel s → IsSet (main.recs (opKey s .set))) (hi : Inv since db) (he : Entries db keys)
    (hx : exportLoop { db := db } keys = some o) (hm : Msg main o.recs) (hn : ∀ s, Rel s → NotReplaced o.recs s)
    (e : syncMain main o.recs = some main') (num : Str) :
    Asc (numList main' num) ∧ ∀ x, x ∈ numList main' num ↔
      (x ∈ numList main num ∨ (x ∈ numList db num ∧ x ∉ numList since num)) ∧ ¬ (x ∈ numList since num ∧ x ∉ numList db num) := by
  obtain ⟨-, -, hall⟩ := hi
  have hs := rel_devno num
  have hu := rel_unmarked _ hs
  obtain ⟨m', e', h⟩ := syncMain_merge hu hm
  rw [e] at e'
  cases e'
  obtain ⟨h1, h2⟩ := h (hn _ hs) (hset _ hs)
  refine ⟨members_asc h1, fun x => ?_⟩
  have hk := hall _ hs
  unfold numList
  rw [h2 x, export_sends hu hk he hx (Or.inl rfl) x, export_sends hu hk he hx (Or.inr rfl) x, opKey_plus _ hu,
    opKey_minus _ hu, hk.pMem x, hk.mMem x]
  rfl

theorem main_known {main main' db0 since db : Db} {keys : List Str} {o : Out} {num u : Str}
    (hset : ∀ s, Rel s → IsSet (main.recs (opKey s .set))) (h0 : Inv db0 db0) (hn0 : Numbered db0) (hw : Worker db0 since db)
    (he : Entries db keys)
    (hx : exportLoop { db := db } keys = some o) (hm : Msg main o.recs) (hn : ∀ s, Rel s → NotReplaced o.recs s)
    (e : syncMain main o.recs = some main')
    (h : (KnownAs main num u ∧ (Unknown db num ∨ KnownAs db num u)) ∨ (Unknown main num ∧ Unknown since num ∧ KnownAs db num u)) :
    KnownAs main' num u := by
  obtain ⟨hi, h1, h2, -, h4⟩ := worker_inv h0 hn0 hw
  obtain ⟨ha, hmem⟩ := main_members hset hi he hx hm hn e num
  refine Asc.ext ha (List.pairwise_singleton _ _) fun x => ?_
  rw [hmem]
  have hsince : Unknown db num → numList since num = [] := by
    intro hu
    rcases h1 num with h | ⟨v, -, h⟩
    · exact unknown_nil h
    · exact absurd hu (known_not_unknown (h4 _ _ h))
  have hsub : KnownAs db num u → numList since num = [] ∨ numList since num = [(Ent.dev u).name] := by
    intro hk
    rcases h1 num with h' | ⟨v, -, h'⟩
    · exact Or.inl (unknown_nil h')
    · rw [known_inj (h4 _ _ h') hk] at h'
      exact Or.inr h'
  rcases h with ⟨hk, hu | hk'⟩ | ⟨hu, hs, hk'⟩
  · have k : numList main num = _ := hk
    rw [hsince hu, unknown_nil hu, k]
    simp
  · have k : numList main num = _ := hk
    have k' : numList db num = _ := hk'
    rw [k, k']
    rcases hsub hk' with h | h <;> rw [h] <;> simp
  · have k' : numList db num = _ := hk'
    rw [unknown_nil hu, unknown_nil hs, k']
    simp

end Sid.Ubr
