import Verif.Spec.UbrGroup
import Verif.Proof.UbrDelta
import Verif.Proof.UbrSync
namespace Sid.Ubr
open Sid.Spec.UbrKey Sid.Spec.Delta Sid.Spec.Sync Sid.Spec.Group
open Sid.Ifc (txt)

/-! ### keys -/

theorem key_unmarked (e : Ent) (c : Str) : (e.key c).extraOp = none := by cases e <;> rfl

theorem rel_unmarked : ∀ s, Rel s → s.extraOp = none := by
  rintro s ⟨e, -, h | h⟩ <;> rw [h] <;> exact key_unmarked e _

/-- the key of a list: the name and the suffix -/
theorem key_eq (e : Ent) (c : Str) : opKey (e.key c) .set = e.name ++ c := by
  have h : ({ e.key c with op := .set } : KeySpec).extraOp = none := key_unmarked e c
  unfold opKey Ent.name
  rw [canon_compose _ (Or.inl h), composePrefix_glue]
  cases e <;> simp [glue, storedMark, Ent.key, opLetter, text]

theorem prefix_key (e : Ent) (c : Str) : composeKeyPrefix (e.key c) = e.name := by
  cases e <;> rfl

theorem gmb_ne_gin (a b : Ent) : opKey (a.key (txt "#GMB")) .set ≠ opKey (b.key (txt "#GIN")) .set := by
  rw [key_eq, key_eq]
  intro h
  have := (List.append_inj' h (by decide)).2
  exact absurd this (by decide)

theorem key_inj {a b : Ent} {c : Str} : opKey (a.key c) .set = opKey (b.key c) .set ↔ a.name = b.name := by
  rw [key_eq, key_eq]
  exact ⟨List.append_cancel_right, fun h => by rw [h]⟩

theorem mem_congr {db : Db} {a b : Ent} {c : Str} (h : a.name = b.name) : mem db (a.key c) = mem db (b.key c) := by
  unfold mem
  rw [key_inj.mpr h]

theorem dev_name (uid : Str) : (Ent.dev uid).name = glue [] [] (nsLetter .device) uid [] [] [] := by
  unfold Ent.name
  rw [composePrefix_glue]
  rfl

theorem grp_name (dom : Str) (ns : Ns) (part : Str) (cat : Option Str) (name : Str) :
    (Ent.grp dom ns part cat name).name = glue [] dom (nsLetter ns) part (text cat) name [] := by
  unfold Ent.name
  rw [composePrefix_glue]
  rfl

/-- the record of a device found by its name -/
theorem rel_dev {c : Ctx} {owner uid : Str} (h : 58 ∉ uid) :
    relSpec (devInSpec c owner) (Ent.dev uid).name = some ((Ent.dev uid).key (txt "#GIN")) := by
  have : nsPartFromKey (Ent.dev uid).name = some uid := by
    rw [dev_name]
    exact part3 _ (by simp) (by simp) (by decide) h
  simp only [relSpec, devInSpec, this]
  rfl

theorem rel_dev' {uid : Str} (h : 58 ∉ uid) :
    relSpec { ns := .device, core := some gin } (Ent.dev uid).name = some ((Ent.dev uid).key (txt "#GIN")) := by
  have : nsPartFromKey (Ent.dev uid).name = some uid := by
    rw [dev_name]
    exact part3 _ (by simp) (by simp) (by decide) h
  simp only [relSpec, this]
  rfl

theorem rel_disk {n : Str} (h : 58 ∉ n) :
    relSpec (dseqIn none) (disk n).name = some ((disk n).key (txt "#GIN")) := by
  have : idFromKey (disk n).name = some n := by
    unfold disk
    rw [grp_name]
    exact part5 _ (by simp) (by decide) (by decide) (by decide) (by decide) h
  simp only [relSpec, dseqIn, this]
  rfl

theorem disk_valid (n : Str) : (disk n).Valid := Or.inl rfl

theorem disk_name (n : Str) : composeKeyPrefix (dseqIn (some n)) = (disk n).name := by
  rw [← prefix_key (disk n) (txt "#GIN")]
  rfl

theorem disk_inj {m n : Str} (hm : 58 ∉ m) (hn : 58 ∉ n) (h : (disk m).name = (disk n).name) : m = n := by
  have a := rel_disk hm
  rw [h, rel_disk hn] at a
  simp only [disk, Ent.key, Option.some.injEq, KeySpec.mk.injEq] at a
  exact (a.2.2.2.2.2.2.1).symm

/-! ### what holds all the time -/

/-- lists are sets, differences are accumulated against some earlier state, both lists say the same -/
def Inv (base db : Db) : Prop := Consistent db ∧ Consistent base ∧ AllOk Rel base db

variable {base : Db}

theorem lists_congr {db : Db} {a a' b : Ent} (h : a.name = a'.name) : Lists db a b ↔ Lists db a' b := by
  unfold Lists
  rw [mem_congr h]

/-- what the members of `a` are -/
def Kind (x : Str) : Ent → Prop
  | .grp _ _ _ _ _ => ∃ uid, 58 ∉ uid ∧ x = (Ent.dev uid).name
  | .dev _ => ∃ n, 58 ∉ n ∧ x = (disk n).name

/-- An update of the members of `a`, whose items name devices or groups `b` and lead to their records -/
structure Proper (db : Db) (a : Ent) (u : Update) : Prop where
  valid : a.Valid
  spec : u.spec = a.key (txt "#GMB")
  rel : u.rel.extraOp = none
  owner : u.hdr.owner = core
  sorted : Asc u.new
  named : ∀ x ∈ mem db u.spec ++ u.new, ∃ b : Ent, b.Valid ∧ x = b.name ∧ relSpec u.rel x = some (b.key (txt "#GIN"))
  kind : ∀ x ∈ u.new, Kind x a

theorem Proper.fits {db : Db} {a : Ent} {u : Update} (h : Proper db a u) : Fits Rel db u := by
  refine ⟨h.rel, h.owner, h.sorted, ⟨a, h.valid, Or.inl h.spec⟩, ?_, ?_⟩
  · intro x hx
    obtain ⟨b, hb, -, hr⟩ := h.named x hx
    refine ⟨_, hr, ⟨b, hb, Or.inr rfl⟩, ?_⟩
    rw [h.spec]
    exact (gmb_ne_gin a b).symm
  · intro x hx y hy r r' hr hr' e
    obtain ⟨b, -, ex, h1⟩ := h.named x hx
    obtain ⟨b', -, ey, h2⟩ := h.named y hy
    rw [hr] at h1
    rw [hr'] at h2
    cases h1
    cases h2
    rw [ex, ey]
    exact key_inj.mp e

/-- names of groups and of devices are different -/
theorem grp_ne_dev {dom : Str} {ns : Ns} {part : Str} {cat : Option Str} {name uid : Str}
    (h : (Ent.grp dom ns part cat name).Valid) : (Ent.grp dom ns part cat name).name ≠ (Ent.dev uid).name := by
  rw [grp_name, dev_name]
  have hd : 58 ∉ dom ∧ dom ≠ [] := by
    rcases h with h | h <;> rw [h] <;> decide
  intro e
  cases dom with
  | nil => exact hd.2 rfl
  | cons c d =>
    have hc : c ≠ 58 := fun e => hd.1 (by simp [e])
    simp only [glue, List.nil_append, List.cons_append, List.cons.injEq, true_and] at e
    exact hc e.1

/-- an update of the members of `a` leaves the members of others alone, and all records that are no lists -/
structure Others (db db' : Db) (a : Ent) : Prop where
  gmb : ∀ a' : Ent, a'.Valid → a'.name ≠ a.name → db'.recs (opKey (a'.key (txt "#GMB")) .set) = db.recs (opKey (a'.key (txt "#GMB")) .set)
  plain : ∀ k : Str, k.head? = some 58 → (∀ s, Rel s → k ≠ opKey s .set) → db'.recs k = db.recs k

theorem Others.refl (db : Db) (a : Ent) : Others db db a := ⟨fun _ _ _ => rfl, fun _ _ _ => rfl⟩

theorem Others.lists {db db' : Db} {a : Ent} (h : Others db db' a) (a' b : Ent) (hv : a'.Valid) (hne : a'.name ≠ a.name) :
    Lists db' a' b ↔ Lists db a' b := by
  unfold Lists mem
  rw [h.gmb a' hv hne]

/-- an update changes the record, those of its items, and the accumulated differences -/
theorem Proper.others {db db' : Db} {a : Ent} {u : Update} {rc : Int} {base : Db} (hall : AllOk Rel base db) (hp : Proper db a u)
    (e : kvDeltaSet db false u.spec u.rel u.op u.hdr u.new = some (rc, db')) : Others db db' a := by
  have hf := hp.fits
  obtain ⟨db1, e1, -, -, -, -, h⟩ := update_ok rel_unmarked hf hall
  rw [e] at e1
  cases e1
  have hnot : ∀ {k : Str} {s : KeySpec}, k.head? = some 58 → k ≠ opKey s .set → k ∉ keysOf (opKey s .set) := by
    intro k s hh hk hm
    simp only [keysOf, List.mem_cons, List.not_mem_nil, or_false] at hm
    rcases hm with rfl | rfl | rfl
    · exact hk rfl
    · simp at hh
    · simp at hh
  have hsub : ∀ x ∈ (stepCalc u.op (mem db u.spec) u.new).plus ++ (stepCalc u.op (mem db u.spec) u.new).minus,
      x ∈ mem db u.spec ++ u.new := by
    intro x hx
    have ho := members_asc (hall u.spec hf.own).set
    have hmem := stepCalc_mem u.op (mem db u.spec) u.new ho hf.sorted x
    rcases List.mem_append.mp hx with h | h
    · have := hmem.2.1.mp h
      rcases Result_sub this.1 with h | h <;> simp [h]
    · have := hmem.2.2.mp h
      simp [this.1]
  refine ⟨?_, ?_⟩
  · intro a' hv hne
    have hh := opKey_head (a'.key (txt "#GMB")) (key_unmarked a' _)
    refine (h _ (hnot hh (by rw [hp.spec]; exact fun e => hne (key_inj.mp e))) ?_).1
    intro x hx r hr
    obtain ⟨b, -, -, hr'⟩ := hp.named x (hsub x hx)
    rw [hr] at hr'
    cases hr'
    exact hnot hh (gmb_ne_gin a' b)
  · intro k hh hk
    refine (h k (hnot hh (hk _ hf.own)) ?_).1
    intro x hx r hr
    obtain ⟨r', hr', hs, -⟩ := hf.named x (hsub x hx)
    rw [hr] at hr'
    cases hr'
    exact hnot hh (hk _ hs)

attribute [local irreducible] Sid.Ifc.txt in
theorem Inv.update {db : Db} {a : Ent} {u : Update} (hi : Inv base db) (hp : Proper db a u) :
    ∃ db', kvDeltaSet db false u.spec u.rel u.op u.hdr u.new = some (0, db') ∧ Inv base db' ∧
      (∀ x, x ∈ mem db' (a.key (txt "#GMB")) ↔ Result u.op (mem db (a.key (txt "#GMB"))) u.new x) ∧
      Others db db' a := by
  obtain ⟨hc, hbc, hall⟩ := hi
  have hf := hp.fits
  obtain ⟨db1, e1, a1, -⟩ := update_ok rel_unmarked hf hall
  obtain ⟨db', e, -, hm, hrel, hoth⟩ := update_mem rel_unmarked hf hall
  have : db1 = db' := by rw [e] at e1; cases e1; rfl
  subst this
  rw [hp.spec] at hm hrel hoth
  have hnm := hp.named
  rw [hp.spec] at hnm
  have hkeep : ∀ a' : Ent, a'.Valid → a'.name ≠ a.name → mem db1 (a'.key (txt "#GMB")) = mem db (a'.key (txt "#GMB")) := by
    intro a' hv hne
    refine hoth _ ⟨a', hv, Or.inl rfl⟩ (fun h => hne (key_inj.mp h)) ?_
    intro x r hx hr
    obtain ⟨b, -, -, hr'⟩ := hnm x hx
    rw [hr] at hr'
    cases hr'
    exact gmb_ne_gin a' b
  have hname : composeKeyPrefix (a.key (txt "#GMB")) = a.name := prefix_key a _
  rw [hname] at hrel
  have hkind : ∀ x ∈ mem db1 (a.key (txt "#GMB")), Kind x a := by
    intro x hx
    rcases Result_sub ((hm x).mp hx) with h | h
    · have hv := hp.valid
      revert h hv
      cases a with
      | grp dom ns part cat name => intro h hv; exact hc.ofGroup _ _ _ _ _ hv x h
      | dev uid => intro h hv; exact hc.ofDev uid hv x h
    · exact hp.kind x h
  refine ⟨db1, e, ⟨⟨?_, ?_, ?_, ?_⟩, hbc, a1⟩, hm, ?_⟩
  · -- both lists say the same
    intro a' b' ha' hb'
    have ih := hc.both a' b' ha' hb'
    have hsame : b'.name ∉ mem db (a.key (txt "#GMB")) ++ u.new →
        mem db1 (b'.key (txt "#GIN")) = mem db (b'.key (txt "#GIN")) := by
      intro hn
      refine hoth _ ⟨b', hb', Or.inr rfl⟩ (gmb_ne_gin a b').symm ?_
      intro x r hx hr
      obtain ⟨b, -, ex, hr'⟩ := hnm x hx
      rw [hr] at hr'
      cases hr'
      intro e'
      exact hn (by rw [key_inj.mp e', ← ex]; exact hx)
    unfold Lists IsIn at *
    by_cases hn : a'.name = a.name
    · rw [mem_congr (c := txt "#GMB") hn] at ih ⊢
      rw [hn] at ih ⊢
      by_cases hx : b'.name ∈ mem db (a.key (txt "#GMB")) ++ u.new
      · obtain ⟨b, -, eb, hr⟩ := hnm _ hx
        have := (hrel _ _ hx hr).2 a.name
        rw [mem_congr (c := txt "#GIN") eb] at ih ⊢
        rw [this]
        split
        · rename_i h1; simp [h1.1]
        · split
          · rename_i h2; simp [h2.2]
          · rename_i h1 h2
            rw [← ih]
            constructor
            · intro h
              by_cases hh : b'.name ∈ mem db (a.key (txt "#GMB"))
              · exact hh
              · exact absurd ⟨h, hh⟩ h1
            · intro h
              by_cases hh : b'.name ∈ mem db1 (a.key (txt "#GMB"))
              · exact hh
              · exact absurd ⟨h, hh⟩ h2
      · rw [hsame hx, ← ih, hm]
        have hx' := fun h => hx (List.mem_append.mpr h)
        constructor
        · intro h; exact absurd (Result_sub h) hx'
        · intro h; exact absurd (Or.inl h) hx'
    · rw [hkeep a' ha' hn, ih]
      by_cases hx : b'.name ∈ mem db (a.key (txt "#GMB")) ++ u.new
      · obtain ⟨b, -, eb, hr⟩ := hnm _ hx
        have := (hrel _ _ hx hr).2 a'.name
        rw [mem_congr (db := db) (c := txt "#GIN") eb, mem_congr (db := db1) (c := txt "#GIN") eb, this]
        split
        · simp [hn]
        · split
          · simp [hn]
          · rfl
      · rw [hsame hx]
  · intro dom ns part cat name hv x hx
    by_cases hn : (Ent.grp dom ns part cat name).name = a.name
    · rw [mem_congr (c := txt "#GMB") hn] at hx
      have := hkind x hx
      revert this hn
      cases a with
      | grp _ _ _ _ _ => intro _ h; exact h
      | dev uid => intro h; exact absurd h (grp_ne_dev hv)
    · rw [hkeep _ hv hn] at hx
      exact hc.ofGroup _ _ _ _ _ hv x hx
  · intro uid hv x hx
    by_cases hn : (Ent.dev uid).name = a.name
    · rw [mem_congr (c := txt "#GMB") hn] at hx
      have := hkind x hx
      have hva := hp.valid
      revert hn hva this
      cases a with
      | grp _ _ _ _ _ => intro h _ hva; exact absurd h.symm (grp_ne_dev hva)
      | dev uid => intro _ h _; exact h
    · rw [hkeep (.dev uid) hv hn] at hx
      exact hc.ofDev uid hv x hx
  · intro b' hb' z hz
    by_cases hx : b'.name ∈ mem db (a.key (txt "#GMB")) ++ u.new
    · obtain ⟨b, hb, eb, hr⟩ := hnm _ hx
      have := (hrel _ _ hx hr).2 z
      rw [mem_congr (c := txt "#GIN") eb, this] at hz
      by_cases hza : z = a.name
      · exact ⟨a, hp.valid, hza⟩
      · refine hc.inOf b hb z ?_
        simpa [hza] using hz
    · refine hc.inOf b' hb' z ?_
      have : mem db1 (b'.key (txt "#GIN")) = mem db (b'.key (txt "#GIN")) := by
        refine hoth _ ⟨b', hb', Or.inr rfl⟩ (gmb_ne_gin a b').symm ?_
        intro x r hx' hr
        obtain ⟨b, -, ex, hr'⟩ := hnm x hx'
        rw [hr] at hr'
        cases hr'
        intro e'
        exact hx (by rw [key_inj.mp e', ← ex]; exact hx')
      rw [← this]
      exact hz
  · exact hp.others hall e

/-! ### the calls -/

theorem consistent_congr {db db' : Db} (h : ∀ s, Rel s → mem db' s = mem db s) (hc : Consistent db) : Consistent db' := by
  refine ⟨?_, ?_, ?_, ?_⟩
  · intro a b ha hb
    unfold Lists IsIn
    rw [h _ ⟨a, ha, Or.inl rfl⟩, h _ ⟨b, hb, Or.inr rfl⟩]
    exact hc.both a b ha hb
  · intro dom ns part cat name hv x hx
    rw [h _ ⟨_, hv, Or.inl rfl⟩] at hx
    exact hc.ofGroup _ _ _ _ _ hv x hx
  · intro uid hv x hx
    rw [h _ ⟨.dev uid, hv, Or.inl rfl⟩] at hx
    exact hc.ofDev uid hv x hx
  · intro b hv x hx
    rw [h _ ⟨b, hv, Or.inr rfl⟩] at hx
    exact hc.inOf b hv x hx

theorem groupSpec_key (dom : Str) (ns : Ns) (part : Str) (cat : Option Str) (name : Str) :
    groupSpec dom ns part cat name = (Ent.grp dom ns part cat name).key (txt "#GMB") := rfl

theorem devIn_name (c : Ctx) (owner : Str) : composeKeyPrefix (devInSpec c owner) = (Ent.dev (c.uid.getD [])).name := by
  rw [← prefix_key (Ent.dev (c.uid.getD [])) (txt "#GIN")]
  rfl

theorem devOk_uid {c : Ctx} (h : DevOk c) : 58 ∉ c.uid.getD [] := by
  cases hu : c.uid with
  | none => simp
  | some u => exact h u hu

attribute [local irreducible] Sid.Ifc.txt in
/-- devices enter or leave a group -/
theorem handleDevs_ok {db : Db} {c : Ctx} {owner : Str} {vdevs : Option (List Str)} {dom : Str} {ns : Ns} {cat : Option Str}
    {name : Str} {op : KvOp} (hi : Inv base db) (hd : DevOk c)
    (hv : (Ent.grp dom ns owner cat name).Valid)
    (hl : ∀ l, vdevs = some l → Asc l ∧ ∀ x ∈ l, ∃ uid, 58 ∉ uid ∧ x = (Ent.dev uid).name) :
    ∃ db', handleDevs db c owner vdevs dom ns cat name op = some (0, db') ∧ Inv base db' ∧
      (∀ x, x ∈ mem db' ((Ent.grp dom ns owner cat name).key (txt "#GMB")) ↔
        Result op (mem db ((Ent.grp dom ns owner cat name).key (txt "#GMB"))) (vdevs.getD [(Ent.dev (c.uid.getD [])).name]) x) ∧
      Others db db' (.grp dom ns owner cat name) := by
  have hu := devOk_uid hd
  have hkind : ∀ x ∈ vdevs.getD [composeKeyPrefix (devInSpec c owner)], ∃ uid, 58 ∉ uid ∧ x = (Ent.dev uid).name := by
    cases vdevs with
    | none =>
      intro x hx
      simp only [Option.getD_none, List.mem_singleton] at hx
      exact ⟨_, hu, by rw [hx, devIn_name]⟩
    | some l => exact (hl l rfl).2
  have hsort : Asc (vdevs.getD [composeKeyPrefix (devInSpec c owner)]) := by
    cases vdevs with
    | none => exact List.pairwise_singleton _ _
    | some l => exact (hl l rfl).1
  have hp : Proper db (Ent.grp dom ns owner cat name) ⟨groupSpec dom ns (nsPartOf c owner .module) cat name, devInSpec c owner, op,
      ⟨c.seqnum, flagsNoSync, c.gennum, core⟩, vdevs.getD [composeKeyPrefix (devInSpec c owner)]⟩ := by
    refine ⟨hv, groupSpec_key _ _ _ _ _, rfl, rfl, hsort, ?_, hkind⟩
    intro x hx
    have : ∃ uid, 58 ∉ uid ∧ x = (Ent.dev uid).name := by
      rcases List.mem_append.mp hx with h | h
      · exact hi.1.ofGroup _ _ _ _ _ hv x h
      · exact hkind x h
    obtain ⟨uid, h1, h2⟩ := this
    exact ⟨.dev uid, h1, h2, by rw [h2]; exact rel_dev h1⟩
  obtain ⟨db', e, h1, h2, h3⟩ := hi.update hp
  refine ⟨db', ?_, h1, ?_, h3⟩
  · unfold handleDevs
    dsimp only at e
    rw [e]
    rfl
  · rw [← devIn_name c owner]
    exact h2

attribute [local irreducible] Sid.Ifc.txt in
/-- a group is emptied -/
theorem doDestroy_ok {db : Db} {c : Ctx} {owner dom : Str} {ns : Ns} {cat : Option Str} {name : Str} {force : Bool}
    (hi : Inv base db) (hv : (Ent.grp dom ns (nsPartOf c owner ns) cat name).Valid) :
    ∃ rc db', doDestroy db c owner dom ns cat name force = some (rc, db') ∧ Inv base db' ∧
      Others db db' (.grp dom ns (nsPartOf c owner ns) cat name) ∧
      ((db.recs (opKey ((Ent.grp dom ns (nsPartOf c owner ns) cat name).key (txt "#GMB")) .set) = none ∧ rc = -1 ∧ db' = db) ∨
       (mem db ((Ent.grp dom ns (nsPartOf c owner ns) cat name).key (txt "#GMB")) ≠ [] ∧ force = false ∧ rc = -39 ∧ db' = db) ∨
       ((mem db ((Ent.grp dom ns (nsPartOf c owner ns) cat name).key (txt "#GMB")) = [] ∨ force = true) ∧ rc = 0 ∧
        (db.recs (opKey ((Ent.grp dom ns (nsPartOf c owner ns) cat name).key (txt "#GMB")) .set)).isSome ∧
        mem db' ((Ent.grp dom ns (nsPartOf c owner ns) cat name).key (txt "#GMB")) = [])) := by
  unfold doDestroy
  generalize hE : Ent.grp dom ns (nsPartOf c owner ns) cat name = e at *
  have hs : groupSpec dom ns (nsPartOf c owner ns) cat name = e.key (txt "#GMB") := by rw [← hE]; rfl
  rw [hs]
  obtain ⟨hc, hbc, hall⟩ := hi
  have hset := (hall _ ⟨e, hv, Or.inl rfl⟩).set
  cases hr : db.recs (opKey (e.key (txt "#GMB")) .set) with
  | none => exact ⟨-1, db, rfl, ⟨hc, hbc, hall⟩, Others.refl _ _, Or.inl ⟨rfl, rfl, rfl⟩⟩
  | some r =>
    rw [hr] at hset
    obtain ⟨l, hl, -⟩ := hset r rfl
    have hmem : mem db (e.key (txt "#GMB")) = l := by
      unfold mem
      rw [hr]
      obtain ⟨s, f, g, o, v⟩ := r
      dsimp only at hl
      subst hl
      rfl
    rw [hmem]
    simp only [hl]
    unfold destroyFound
    by_cases hne : l ≠ [] ∧ force = false
    · rw [if_pos hne]
      exact ⟨-39, db, rfl, ⟨hc, hbc, hall⟩, Others.refl _ _, Or.inr (Or.inl ⟨hne.1, hne.2, rfl, rfl⟩)⟩
    · rw [if_neg hne]
      have hp : Proper db e ⟨e.key (txt "#GMB"), { ns := .device, core := some gin }, .set,
          ⟨c.seqnum, flagsNoRs, c.gennum, core⟩, []⟩ := by
        refine ⟨hv, rfl, rfl, rfl, Asc.nil, ?_, by intro x hx; cases hx⟩
        intro x hx
        dsimp only at hx
        rw [List.append_nil] at hx
        have : ∃ uid, 58 ∉ uid ∧ x = (Ent.dev uid).name := by
          rw [← hE] at hx hv
          exact hc.ofGroup _ _ _ _ _ hv x hx
        obtain ⟨uid, h1, h2⟩ := this
        exact ⟨.dev uid, h1, h2, by rw [h2]; exact rel_dev' h1⟩
      obtain ⟨db', e1, h1, h2, h3⟩ := Inv.update ⟨hc, hbc, hall⟩ hp
      refine ⟨0, db', e1, h1, h3, Or.inr (Or.inr ⟨?_, rfl, rfl, ?_⟩)⟩
      · cases force
        · left
          cases l with
          | nil => rfl
          | cons x l => exact absurd ⟨by simp, rfl⟩ hne
        · right; rfl
      · exact List.eq_nil_iff_forall_not_mem.mpr fun x hx => by simpa [Result] using (h2 x).mp hx

theorem create_allOk {base db : Db} {e : Ent} (hall : AllOk Rel base db) (hnone : db.recs (opKey (e.key (txt "#GMB")) .set) = none)
    {r : Rec} (hr : r.val = .vector []) {old new : Option Rec} :
    AllOk Rel base (manageIndex (db.put (opKey (e.key (txt "#GMB")) .set) (some r)) false (opKey (e.key (txt "#GMB")) .set) old new) ∧
    ∀ s, mem (manageIndex (db.put (opKey (e.key (txt "#GMB")) .set) (some r)) false (opKey (e.key (txt "#GMB")) .set) old new) s =
      mem db s := by
  have hhead := opKey_head (e.key (txt "#GMB")) (key_unmarked e _)
  generalize opKey (e.key (txt "#GMB")) .set = K at *
  have hmr : members (some r) = [] := by
    obtain ⟨s, f, g, o, v⟩ := r
    dsimp only at hr
    subst hr
    rfl
  have hmem : ∀ k, members ((manageIndex (db.put K (some r)) false K old new).recs k) = members (db.recs k) := by
    intro k
    rw [manageIndex_recs]
    by_cases hk : k = K
    · subst hk
      simp only [Db.put, if_true]
      rw [hmr, hnone]
      rfl
    · simp [Db.put, hk]
  have hsame : ∀ k, k ≠ K → (manageIndex (db.put K (some r)) false K old new).recs k = db.recs k ∧
      (manageIndex (db.put K (some r)) false K old new).idx k = db.idx k := by
    intro k hk
    rw [manageIndex_recs, manageIndex_idx]
    simp [Db.put, hk]
  refine ⟨fun s hs => ?_, fun s => by unfold mem; exact hmem _⟩
  have hk := hall s hs
  have h0 := opKey_head s (rel_unmarked s hs)
  generalize opKey s .set = K' at *
  have hp := hsame (43 :: K') (by rintro rfl; simp at hhead)
  have hm := hsame (45 :: K') (by rintro rfl; simp at hhead)
  refine ⟨?_, half_congr hk.plus hp.1 hp.2, half_congr hk.minus hm.1 hm.2, ?_, ?_⟩
  · by_cases he : K' = K
    · subst he
      rw [manageIndex_recs]
      simp only [Db.put, if_true]
      intro x hx
      cases hx
      exact ⟨[], hr, Asc.nil⟩
    · rw [(hsame K' he).1]; exact hk.set
  · intro x; rw [hmem, hmem]; exact hk.pMem x
  · intro x; rw [hmem, hmem]; exact hk.mMem x

theorem doCreate_inv {db : Db} {c : Ctx} {owner dom : Str} {ns : Ns} {flags : Flags} {cat : Option Str} {name : Str}
    (hi : Inv base db) : Inv base (doCreate db c owner dom ns flags cat name).2 ∧
      ∀ s, mem (doCreate db c owner dom ns flags cat name).2 s = mem db s := by
  obtain ⟨hc, hbc, hall⟩ := hi
  unfold doCreate
  rw [groupSpec_key]
  by_cases h : (db.recs (opKey ((Ent.grp dom ns (nsPartOf c owner ns) cat name).key (txt "#GMB")) .set)).isSome = true
  · rw [if_pos h]
    exact ⟨⟨hc, hbc, hall⟩, fun _ => rfl⟩
  · rw [if_neg h]
    have hn : db.recs (opKey ((Ent.grp dom ns (nsPartOf c owner ns) cat name).key (txt "#GMB")) .set) = none := by
      simpa using h
    obtain ⟨h1, h2⟩ := create_allOk hall hn (r := newGroup c owner flags) rfl (old := none)
      (new := some (newGroup c owner flags))
    exact ⟨⟨consistent_congr (fun s _ => h2 s) hc, hbc, h1⟩, h2⟩

attribute [local irreducible] Sid.Ifc.txt in
theorem updateDeps_ok {db : Db} {c : Ctx} {l : List Str} (hi : Inv base db) (hd : DevOk c) (hn : l.Nodup) (hl : ∀ n ∈ l, 58 ∉ n) :
    ∃ db', updateDeps db c l = some (0, db') ∧ Inv base db' ∧
      (∀ b, Lists db' (.dev (c.uid.getD [])) b ↔ ∃ n ∈ l, b.name = (disk n).name) ∧
      Others db db' (.dev (c.uid.getD [])) := by
  have hu := devOk_uid hd
  have hmem : ∀ x, x ∈ sortStr (l.map fun n => composeKeyPrefix (dseqIn (some n))) ↔ ∃ n ∈ l, x = (disk n).name := by
    intro x
    rw [(sortStr_perm _).mem_iff, List.mem_map]
    constructor
    · rintro ⟨n, h1, h2⟩; exact ⟨n, h1, by rw [← h2, disk_name]⟩
    · rintro ⟨n, h1, h2⟩; exact ⟨n, h1, by rw [h2, disk_name]⟩
  have hnd : (l.map fun n => composeKeyPrefix (dseqIn (some n))).Nodup := by
    rw [List.Nodup, List.pairwise_map]
    refine List.Pairwise.imp_of_mem ?_ hn
    intro a b ha hb hne e
    rw [disk_name, disk_name] at e
    exact hne (disk_inj (hl a ha) (hl b hb) e)
  have hp : Proper db (.dev (c.uid.getD [])) ⟨(Ent.dev (c.uid.getD [])).key (txt "#GMB"), dseqIn none, .set,
      ⟨c.seqnum, flagsNoSync, c.gennum, core⟩, sortStr (l.map fun n => composeKeyPrefix (dseqIn (some n)))⟩ := by
    refine ⟨hu, rfl, rfl, rfl, sortStr_asc hnd, ?_, ?_⟩
    · intro x hx
      have : ∃ n, 58 ∉ n ∧ x = (disk n).name := by
        rcases List.mem_append.mp hx with h | h
        · exact hi.1.ofDev _ hu x h
        · obtain ⟨n, h1, h2⟩ := (hmem x).mp h
          exact ⟨n, hl n h1, h2⟩
      obtain ⟨n, h1, h2⟩ := this
      exact ⟨disk n, disk_valid n, h2, by rw [h2]; exact rel_disk h1⟩
    · intro x hx
      obtain ⟨n, h1, h2⟩ := (hmem x).mp hx
      exact ⟨n, hl n h1, h2⟩
  obtain ⟨db', e, h1, h2, h3⟩ := hi.update hp
  refine ⟨db', ?_, h1, ?_, h3⟩
  · unfold updateDeps
    dsimp only at e
    have hk : ({ ns := .device, nsPart := some (nsPartOf c core .device), core := some gmb } : KeySpec) =
        (Ent.dev (c.uid.getD [])).key (txt "#GMB") := rfl
    rw [hk, e]
    rfl
  · intro b
    unfold Lists
    rw [h2]
    exact hmem _

/-! ### other calls of modules -/

/-- what a module writes otherwise is under other keys -/
theorem apart {dom : Option Str} {ns : Ns} {rest : Str} (hd : dom = domOf ns) (e : Ent) (he : e.Valid) (c : Str) :
    join :: (text dom ++ join :: (nsLetter ns ++ join :: rest)) ≠ opKey (e.key c) .set := by
  rw [key_eq]
  have hcut : ∀ {a b x y : Str}, join ∉ a → join ∉ b → a ++ join :: x = b ++ join :: y → a = b ∧ x = y := by
    intro a b x y ha hb h
    have h1 := cut_append a x ha
    rw [h, cut_append b y hb] at h1
    cases h1
    exact ⟨rfl, rfl⟩
  have hdom : join ∉ text dom := by rw [hd]; unfold domOf; split <;> decide
  intro h
  cases e with
  | grp dom' ns' part cat name =>
    rw [grp_name] at h
    simp only [glue, List.nil_append, List.cons_append, List.cons.injEq, true_and, List.append_assoc] at h
    have hp : join ∉ dom' := by rcases he with h | h <;> rw [h] <;> decide
    have := (hcut hdom hp h).1
    rw [hd] at this
    revert this
    unfold domOf
    rcases he with h | h <;> rw [h] <;> split <;> decide
  | dev uid =>
    rw [dev_name] at h
    simp only [glue, List.nil_append, List.cons_append, List.cons.injEq, true_and, List.append_assoc] at h
    obtain ⟨h1, h2⟩ := hcut (b := []) hdom (by simp) h
    have hn := nsLetter_inj (hcut (nsLetter_plain ns) (nsLetter_plain .device) h2).1
    rw [hd, hn] at h1
    exact absurd h1 (by decide)

theorem setKey_form (c : Ctx) (m : Str) (dom : Option Str) (ns : Ns) (k : Str) :
    ∃ rest, (composeKey (setSpec c m dom ns k)).drop 1 = join :: (text dom ++ join :: (nsLetter ns ++ join :: rest)) := by
  rw [compose_glue]
  exact ⟨_, rfl⟩

theorem rsvKey_form (dom : Option Str) (ns : Ns) (k : Str) :
    ∃ rest, Kvs.canon (composeKey (rsvSpec dom ns k)) = join :: (text dom ++ join :: (nsLetter ns ++ join :: rest)) := by
  rw [canon_compose _ (Or.inl rfl)]
  exact ⟨_, rfl⟩

/-- the record and the index entry stay -/
def Stays (db db' : Db) (k : Str) : Prop := db'.recs k = db.recs k ∧ db'.idx k = db.idx k

theorem writeRec_stays (db : Db) (key k : Str) (r : Rec) (h : k ≠ key) (h' : k.head? ≠ some 126) :
    Stays db (writeRec db key r) k := by
  refine ⟨writeRec_other db key k r h h', ?_⟩
  unfold writeRec
  rw [manageIndex_idx, if_neg (fun e => h e.1)]
  split <;> rfl

theorem call_stays {db db' : Db} {owner : Str} {x : Call} {rc : Int} {k : Str} (h : call true db owner x = some (rc, db'))
    (h' : k.head? ≠ some 126)
    (hk : ∀ ns rest, k ≠ join :: (text (domOf ns) ++ join :: (nsLetter ns ++ join :: rest))) : Stays db db' k := by
  have hres : ∀ {c ns name flags unset}, doReserve db c true owner (domOf ns) ns name flags unset = some (rc, db') →
      Stays db db' k := by
    intro c ns name flags unset h
    obtain ⟨rest, hf⟩ := rsvKey_form (domOf ns) ns name
    unfold doReserve at h
    simp only [Bool.not_true, Bool.and_false, Bool.false_eq_true, if_false] at h
    rw [hf] at h
    split at h
    · cases h
    · split at h
      · cases h
        refine ⟨?_, ?_⟩
        · rw [manageIndex_recs]; simp [Db.put, hk]
        · rw [manageIndex_idx, if_neg (fun e => hk _ _ e.1)]; rfl
      · cases h; exact ⟨rfl, rfl⟩
  cases x with
  | set c a =>
    simp only [call, kvSet] at h
    split at h
    · unfold doKvSet at h
      generalize (if a.ns = .udev ∧ owner = core then some 0 else globalRs db owner (domOf a.ns) a.ns a.key) = g at h
      cases g with
      | none => cases h
      | some g =>
        simp only [Option.bind_some] at h
        split at h
        · cases h; exact ⟨rfl, rfl⟩
        · split at h
          · split at h
            · cases h
            · cases h; exact ⟨rfl, rfl⟩
          · simp only [Option.some.injEq, Prod.mk.injEq] at h
            rw [← h.2]
            obtain ⟨rest, hf⟩ := setKey_form c owner (domOf a.ns) a.ns a.key
            rw [hf]
            exact writeRec_stays _ _ _ _ (hk _ _) h'
    · cases h; exact ⟨rfl, rfl⟩
  | reserve c ns name flags =>
    simp only [call, kvReserve] at h
    split at h
    · exact hres h
    · cases h; exact ⟨rfl, rfl⟩
  | unreserve c ns name =>
    simp only [call, kvUnreserve] at h
    split at h
    · exact hres h
    · cases h; exact ⟨rfl, rfl⟩

theorem call_rel_stays {db db' : Db} {owner : Str} {x : Call} {rc : Int} (h : call true db owner x = some (rc, db')) {s : KeySpec}
    (hs : Rel s) : ∀ k ∈ keysOf (opKey s .set), Stays db db' k := by
  intro k hk
  have hhead := opKey_head s (rel_unmarked s hs)
  simp only [keysOf, List.mem_cons, List.not_mem_nil, or_false] at hk
  rcases hk with rfl | rfl | rfl
  · refine call_stays h (by rw [hhead]; simp) ?_
    intro ns rest e
    obtain ⟨en, hv, hh | hh⟩ := hs <;> rw [hh] at e <;> exact apart rfl en hv _ e.symm
  · exact call_stays h (by simp) (by intro ns rest e; simp [join] at e)
  · exact call_stays h (by simp) (by intro ns rest e; simp [join] at e)

theorem call_inv {db db' : Db} {owner : Str} {x : Call} {rc : Int} (h : call true db owner x = some (rc, db')) (hi : Inv base db) :
    Inv base db' ∧ ∀ s, Rel s → mem db' s = mem db s := by
  obtain ⟨hc, hbc, hall⟩ := hi
  have hm : ∀ s, Rel s → mem db' s = mem db s := by
    intro s hs
    unfold mem
    rw [(call_rel_stays h hs _ (by simp [keysOf])).1]
  refine ⟨⟨consistent_congr hm hc, hbc, fun s hs => ?_⟩, hm⟩
  have hk := hall s hs
  have e0 := call_rel_stays h hs (opKey s .set) (by simp [keysOf])
  have eP := call_rel_stays h hs (43 :: opKey s .set) (by simp [keysOf])
  have eM := call_rel_stays h hs (45 :: opKey s .set) (by simp [keysOf])
  refine ⟨by rw [e0.1]; exact hk.set, half_congr hk.plus eP.1 eP.2, half_congr hk.minus eM.1 eM.2, ?_, ?_⟩
  · rw [eP.1, e0.1]; exact hk.pMem
  · rw [eM.1, e0.1]; exact hk.mMem

theorem members_map_clear (r : Option Rec) : members (r.map Rec.clear) = members r := by
  cases r with
  | none => rfl
  | some r =>
    obtain ⟨a, b, c, d, v⟩ := r
    cases v <;> rfl

theorem export_inv {db : Db} {keys : List Str} {o : Out} (he : Entries db keys) (hx : exportLoop { db := db } keys = some o)
    (hi : Inv base db) : Inv (endStage o) (endStage o) ∧ ∀ s, Rel s → mem (endStage o) s = mem db s := by
  obtain ⟨hc, hbc, hall⟩ := hi
  have hm : ∀ s, Rel s → mem (endStage o) s = mem db s := by
    intro s hs
    unfold mem
    rw [(endStage_ok he hx).1, opFromKey_set (opKey_head s (rel_unmarked s hs))]
    split
    · simp only [ne_eq, not_true_eq_false, false_and, if_false]
      exact members_map_clear _
    · rfl
  exact ⟨⟨consistent_congr hm hc, consistent_congr hm hc, export_allOk rel_unmarked hall he hx⟩, hm⟩

/-! ### a rename, and all calls -/

attribute [local irreducible] Sid.Ifc.txt in
theorem aliasRename_ok {db : Db} {c : Ctx} {owner key old new : Str} (hi : Inv base db) (hd : DevOk c) :
    ∃ rc db', aliasRename db c owner key old new = some (rc, db') ∧ Inv base db' := by
  unfold aliasRename
  split
  · exact ⟨_, _, rfl, hi⟩
  · have hset : IsSet (db.recs (opKey (groupSpec domAlias .module (nsPartOf c owner .module) (some key) old) .set)) := by
      obtain ⟨-, -, hall⟩ := hi
      exact (hall _ ⟨.grp domAlias .module (nsPartOf c owner .module) (some key) old, Or.inl rfl,
        Or.inl (groupSpec_key _ _ _ _ _)⟩).set
    have hkey : Kvs.canon (composeKey (groupSpec domAlias .module (nsPartOf c owner .module) (some key) old)) =
        opKey (groupSpec domAlias .module (nsPartOf c owner .module) (some key) old) .set := rfl
    unfold getRec
    rw [hkey]
    cases hr : db.recs (opKey (groupSpec domAlias .module (nsPartOf c owner .module) (some key) old) .set) with
    | none => exact ⟨_, _, rfl, hi⟩
    | some r =>
      dsimp only
      rw [hr] at hset
      obtain ⟨l, hl, hasc⟩ := hset r rfl
      have hmem : mem db (groupSpec domAlias .module (nsPartOf c owner .module) (some key) old) = l := by
        unfold mem
        rw [hr]
        obtain ⟨s, f, g, o, v⟩ := r
        dsimp only at hl
        subst hl
        rfl
      by_cases ha : rdAllowed r owner = true
      · rw [if_pos ha]
        dsimp only
        rw [hl]
        cases l with
        | nil => exact ⟨_, _, rfl, hi⟩
        | cons y l =>
          dsimp only
          unfold renameFound
          obtain ⟨db1, e1, i1, -⟩ := handleDevs_ok (db := db) (c := c) (owner := owner) (vdevs := some (y :: l)) (dom := domAlias)
            (ns := .module) (cat := some key) (name := new) (op := .plus) hi hd (Or.inl rfl) (by
              intro l' hl'
              cases hl'
              refine ⟨hasc, ?_⟩
              intro x hx
              rw [← hmem] at hx
              exact hi.1.ofGroup _ _ _ _ _ (Or.inl rfl) x hx)
          rw [e1]
          simp only [Option.bind_some]
          rw [if_neg (by decide)]
          obtain ⟨rc, db2, e2, i2, -⟩ := doDestroy_ok (db := db1) (c := c) (owner := owner) (dom := domAlias) (ns := .module)
            (cat := some key) (name := old) (force := true) i1 (Or.inl rfl)
          exact ⟨rc, db2, e2, i2⟩
      · rw [if_neg ha]
        exact ⟨_, _, rfl, hi⟩

/-- every call that changes groups succeeds or fails, and keeps the lists consistent -/
theorem gcall_inv {db : Db} {x : GCall} (hi : Inv base db) (hx : CallOk x) : ∃ rc db', gcall db x = some (rc, db') ∧ Inv base db' := by
  have hh : ∀ {c : Ctx} {owner dom : Str} {ns : Ns} {cat : Option Str} {name : Str} {op : KvOp}, DevOk c →
      (Ent.grp dom ns owner cat name).Valid → ∃ rc db', handleDevs db c owner none dom ns cat name op = some (rc, db') ∧ Inv base db' := by
    intro c owner dom ns cat name op hd hv
    obtain ⟨db', e, i, -⟩ := handleDevs_ok (op := op) hi hd hv (vdevs := none) (by intro l hl; cases hl)
    exact ⟨0, db', e, i⟩
  cases x with
  | create c o ns fl cat n =>
    simp only [gcall, grpCreate]
    split
    · exact ⟨_, _, rfl, hi⟩
    · exact ⟨_, _, rfl, (doCreate_inv hi).1⟩
  | add c o ns cat n =>
    simp only [gcall, grpAdd]
    split
    · exact ⟨_, _, rfl, hi⟩
    · exact hh hx (Or.inr rfl)
  | del c o ns cat n =>
    simp only [gcall, grpDel]
    split
    · exact ⟨_, _, rfl, hi⟩
    · exact hh hx (Or.inr rfl)
  | destroy c o ns cat n f =>
    simp only [gcall, grpDestroy]
    split
    · exact ⟨_, _, rfl, hi⟩
    · obtain ⟨rc, db', e, i, -⟩ := doDestroy_ok (db := db) (c := c) (owner := o) (dom := domGroup) (ns := ns) (cat := cat)
        (name := n) (force := f) hi (Or.inr rfl)
      exact ⟨rc, db', e, i⟩
  | aliasAdd c o k n =>
    simp only [gcall, aliasAdd]
    split
    · exact ⟨_, _, rfl, hi⟩
    · exact hh hx (Or.inl rfl)
  | aliasRename c o k a b => exact aliasRename_ok hi hx
  | aliasDel c o k n =>
    simp only [gcall, aliasDel]
    split
    · exact ⟨_, _, rfl, hi⟩
    · exact hh hx (Or.inl rfl)
  | deps c l =>
    obtain ⟨db', e, i, -⟩ := updateDeps_ok hi hx.1 hx.2.1 hx.2.2
    exact ⟨0, db', e, i⟩

theorem life_inv {db0 db : Db} (h0 : Inv db0 db0) (h : Life db0 db) : ∃ base, Inv base db := by
  induction h with
  | start => exact ⟨_, h0⟩
  | @group d d' x rc _ hx e ih =>
    obtain ⟨base, ih⟩ := ih
    obtain ⟨rc', db', e', i⟩ := gcall_inv ih hx
    rw [e] at e'
    cases e'
    exact ⟨base, i⟩
  | call _ e ih =>
    obtain ⟨base, ih⟩ := ih
    exact ⟨base, (call_inv e ih).1⟩
  | «export» _ he hx ih =>
    obtain ⟨base, ih⟩ := ih
    exact ⟨_, (export_inv he hx ih).1⟩

theorem synced_inv {db0 : Db} (hs : Synced Rel db0) (hc : Consistent db0) : Inv db0 db0 := ⟨hc, hc, synced_allOk hs⟩

/-! ### the main store -/

attribute [local irreducible] Sid.Ifc.txt in
/-- what a worker sends mirrors itself -/
theorem sync_consistent {main main' db : Db} {keys : List Str} {o : Out} (hc : Consistent main)
    (hset : ∀ s, Rel s → IsSet (main.recs (opKey s .set))) (hi : Inv base db) (he : Entries db keys)
    (hx : exportLoop { db := db } keys = some o) (hm : Msg main o.recs) (hn : ∀ s, Rel s → NotReplaced o.recs s)
    (e : syncMain main o.recs = some main') :
    Consistent main' ∧ ∀ s, Rel s → IsSet (main'.recs (opKey s .set)) := by
  obtain ⟨hcd, hcb, hall⟩ := hi
  have hmem : ∀ s, Rel s → IsSet (main'.recs (opKey s .set)) ∧
      ∀ x, x ∈ mem main' s ↔ (x ∈ mem main s ∨ (x ∈ mem db s ∧ x ∉ mem base s)) ∧ ¬ (x ∈ mem base s ∧ x ∉ mem db s) := by
    intro s hs
    have hu := rel_unmarked s hs
    obtain ⟨m', e', h⟩ := syncMain_merge hu hm
    rw [e] at e'
    cases e'
    obtain ⟨h1, h2⟩ := h (hn s hs) (hset s hs)
    refine ⟨h1, fun x => ?_⟩
    have hk := hall s hs
    rw [h2 x, export_sends hu hk he hx (Or.inl rfl) x, export_sends hu hk he hx (Or.inr rfl) x, opKey_plus s hu,
      opKey_minus s hu, hk.pMem x, hk.mMem x]
    rfl
  refine ⟨⟨?_, ?_, ?_, ?_⟩, fun s hs => (hmem s hs).1⟩
  · intro a b ha hb
    have h1 := hc.both a b ha hb
    have h2 := hcd.both a b ha hb
    have h3 := hcb.both a b ha hb
    unfold Lists IsIn at *
    rw [(hmem _ ⟨a, ha, Or.inl rfl⟩).2, (hmem _ ⟨b, hb, Or.inr rfl⟩).2, h1, h2, h3]
  · intro dom ns part cat name hv x hx'
    have := ((hmem _ ⟨_, hv, Or.inl rfl⟩).2 x).mp hx'
    rcases this.1 with h | h
    · exact hc.ofGroup _ _ _ _ _ hv x h
    · exact hcd.ofGroup _ _ _ _ _ hv x h.1
  · intro uid hv x hx'
    have := ((hmem _ ⟨.dev uid, hv, Or.inl rfl⟩).2 x).mp hx'
    rcases this.1 with h | h
    · exact hc.ofDev uid hv x h
    · exact hcd.ofDev uid hv x h.1
  · intro b hv x hx'
    have := ((hmem _ ⟨b, hv, Or.inr rfl⟩).2 x).mp hx'
    rcases this.1 with h | h
    · exact hc.inOf b hv x h
    · exact hcd.inOf b hv x h.1

theorem mainLife_consistent {main0 main : Db} (hc : Consistent main0) (hset : ∀ s, Rel s → IsSet (main0.recs (opKey s .set)))
    (h : MainLife main0 main) : Consistent main ∧ ∀ s, Rel s → IsSet (main.recs (opKey s .set)) := by
  induction h with
  | start => exact ⟨hc, hset⟩
  | sync _ hs hc0 hl he hx hm hn e ih =>
    obtain ⟨base, hi⟩ := life_inv (synced_inv hs hc0) hl
    exact sync_consistent ih.1 ih.2 hi he hx hm hn e

end Sid.Ubr
