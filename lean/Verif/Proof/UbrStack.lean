import Verif.Spec.UbrStack
import Verif.Proof.UbrIdent
/-
Helper lemmas for C50.
-/
namespace Sid.Ubr
open Sid.Spec.UbrKey Sid.Spec.Delta Sid.Spec.Group Sid.Spec.Ident Sid.Spec.Stack
open Relation (TransGen)
open Sid.Ifc (txt)

/-! ### keys that match a filter -/

theorem cut_mem {x : Str} (h : 58 ∈ x) : ∃ a b, cut x = some (a, b) ∧ x = a ++ join :: b ∧ join ∉ a := by
  induction x with
  | nil => cases h
  | cons c x ih =>
    by_cases hc : c = join
    · exact ⟨[], x, by simp [cut, hc], by simp [hc], by simp⟩
    · have hx : 58 ∈ x := by
        rcases List.mem_cons.mp h with h | h
        · exact absurd h.symm hc
        · exact h
      obtain ⟨a, b, e, e2, e3⟩ := ih hx
      refine ⟨c :: a, b, by simp [cut, hc, e], by simp [e2], ?_⟩
      simp only [List.mem_cons, not_or]
      exact ⟨fun h => hc h.symm, e3⟩

theorem cut_prefix {p a b : Str} (hp : join ∉ p) (ha : join ∉ a) (q : Str) :
    (p ++ join :: q).isPrefixOf (a ++ join :: b) = ((a == p) && q.isPrefixOf b) := by
  induction p generalizing a with
  | nil =>
    cases a with
    | nil => simp
    | cons c a =>
      simp only [List.mem_cons, not_or] at ha
      simp [List.isPrefixOf, ha.1]
  | cons c p ih =>
    simp only [List.mem_cons, not_or] at hp
    cases a with
    | nil =>
      simp [List.isPrefixOf]
      intro h
      exact absurd h.symm hp.1
    | cons d a =>
      simp only [List.mem_cons, not_or] at ha
      simp only [List.cons_append, List.isPrefixOf, ih hp.2 ha.2]
      by_cases hcd : c = d
      · subst hcd; simp
      · have : ¬ d = c := fun e => hcd e.symm
        have h2 : (d :: a == c :: p) = false := beq_false_of_ne (by simp [this])
        rw [beq_false_of_ne hcd, h2]
        rfl

theorem decompose_ne (k : Nat) (x : Str) : decomposeFrom k x ≠ [] := by
  cases k with
  | zero => simp [decomposeFrom]
  | succ k =>
    unfold decomposeFrom
    split <;> simp

theorem match_step {k : Nat} {a b : Str} (ha : join ∉ a) (f : Option Str) (fs : List (Option Str)) :
    partsMatch (decomposeFrom (k + 1) (a ++ join :: b)) (f :: fs) = (partMatches a f && partsMatch (decomposeFrom k b) fs) := by
  have : decomposeFrom (k + 1) (a ++ join :: b) = a :: decomposeFrom k b := by
    simp [decomposeFrom, cut_append, ha]
  rw [this]
  cases h : decomposeFrom k b with
  | nil => exact absurd h (decompose_ne _ _)
  | cons p ps => rfl

theorem match_free {k : Nat} (x : Str) (fs : List (Option Str)) (h : ∀ f ∈ fs, f = none) : partsMatch (decomposeFrom k x) fs = true := by
  generalize decomposeFrom k x = l
  induction l generalizing fs with
  | nil => unfold partsMatch; rfl
  | cons p l ih =>
    cases l with
    | nil => unfold partsMatch; rfl
    | cons p' l =>
      cases fs with
      | nil => rfl
      | cons f fs =>
        unfold partsMatch
        rw [h f (by simp), ih fs (fun g hg => h g (by simp [hg]))]
        rfl

/-- a key with enough parts is one of a disk iff it starts like one -/
theorem match_disk {a b c d e rest : Str} (ha : join ∉ a) (hb : join ∉ b) (hc : join ∉ c) (hd : join ∉ d) (he : join ∉ e) :
    partsMatch (decomposeKey (a ++ join :: (b ++ join :: (c ++ join :: (d ++ join :: (e ++ join :: rest)))))) (specParts dseqFilter) =
    (txt ":ALS:M:/:dseq:").isPrefixOf (a ++ join :: (b ++ join :: (c ++ join :: (d ++ join :: (e ++ join :: rest))))) := by
  have ht : txt ":ALS:M:/:dseq:" = [] ++ join :: (txt "ALS" ++ join :: (txt "M" ++ join :: (txt "/" ++ join :: (txt "dseq" ++ join :: [])))) := by
    decide
  rw [ht, cut_prefix (by simp) ha, cut_prefix (by decide) hb, cut_prefix (by decide) hc, cut_prefix (by decide) hd,
    cut_prefix (by decide) he]
  unfold decomposeKey specParts dseqFilter
  rw [match_step ha, match_step hb, match_step hc, match_step hd, match_step he, match_free]
  · simp only [partMatches]
    have h1 : opPrefix KvOp.set = [] := by decide
    have h2 : nsPrefix Ns.module = txt "M" := by decide
    rw [h1, h2]
    simp [List.isPrefixOf]
    rfl
  · simp

theorem five_parts {x : Str} (h : 5 ≤ x.count join) : ∃ a b c d e rest, join ∉ a ∧ join ∉ b ∧ join ∉ c ∧ join ∉ d ∧ join ∉ e ∧
    x = a ++ join :: (b ++ join :: (c ++ join :: (d ++ join :: (e ++ join :: rest)))) := by
  have step : ∀ (k : Nat) (x : Str), k + 1 ≤ x.count join → ∃ a b, join ∉ a ∧ x = a ++ join :: b ∧ k ≤ b.count join := by
    intro k x hx
    obtain ⟨a, b, -, e, ha⟩ := cut_mem (x := x) (by
      have : 0 < x.count join := by omega
      exact List.count_pos_iff.mp this)
    refine ⟨a, b, ha, e, ?_⟩
    rw [e, List.count_append, List.count_cons_self, List.count_eq_zero.mpr ha] at hx
    omega
  obtain ⟨a, x1, ha, e1, h1⟩ := step 4 x h
  obtain ⟨b, x2, hb, e2, h2⟩ := step 3 x1 h1
  obtain ⟨c, x3, hc, e3, h3⟩ := step 2 x2 h2
  obtain ⟨d, x4, hd, e4, h4⟩ := step 1 x3 h3
  obtain ⟨e, x5, he, e5, -⟩ := step 0 x4 h4
  exact ⟨a, b, c, d, e, x5, ha, hb, hc, hd, he, by rw [e1, e2, e3, e4, e5]⟩

theorem glue_count (p0 p1 p2 p3 p4 p5 p6 : Str) : 6 ≤ (glue p0 p1 p2 p3 p4 p5 p6).count join := by
  unfold glue
  simp only [List.count_append, List.count_cons_self]
  omega

theorem name_count (e : Ent) : 6 ≤ e.name.count join := by
  cases e with
  | dev u => rw [dev_name]; exact glue_count _ _ _ _ _ _ _
  | grp dom ns part cat name => rw [grp_name]; exact glue_count _ _ _ _ _ _ _

theorem match_name (e : Ent) : partsMatch (decomposeKey e.name) (specParts dseqFilter) = (txt ":ALS:M:/:dseq:").isPrefixOf e.name := by
  obtain ⟨a, b, c, d, f, rest, ha, hb, hc, hd, hf, h⟩ := five_parts (x := e.name) (by have := name_count e; omega)
  rw [h]
  exact match_disk ha hb hc hd hf

theorem disk_glue (n : Str) : (disk n).name = glue [] (txt "ALS") (txt "M") (txt "/") (txt "dseq") n [] := by
  unfold disk
  rw [grp_name]
  rfl

theorem disk_form (n : Str) : (disk n).name = txt ":ALS:M:/:dseq:" ++ (n ++ [join]) := by
  rw [disk_glue]
  rfl

theorem disk_prefix (n : Str) : (txt ":ALS:M:/:dseq:").isPrefixOf (disk n).name = true := by
  rw [disk_form, List.isPrefixOf_iff_prefix]
  exact List.prefix_append _ _

theorem disk_name_inj {m n : Str} (h : (disk m).name = (disk n).name) : m = n := by
  rw [disk_form, disk_form] at h
  exact List.append_cancel_right (List.append_cancel_left h)

theorem dev_name_inj {u v : Str} (h : (Ent.dev u).name = (Ent.dev v).name) : u = v := by
  rw [dev_name, dev_name] at h
  unfold glue at h
  have := List.append_cancel_left (as := [join, join] ++ nsLetter .device ++ [join]) (by simpa using h)
  simpa using this

theorem match_dev {u : Str} (h : 58 ∉ u) : partsMatch (decomposeKey (Ent.dev u).name) (specParts { ns := .device }) = true := by
  rw [dev_name, decompose_glue [] (by simp) (by simp) (by decide) h (by simp) (by simp)]
  rfl

/-! ### what is read -/

theorem filter_nonempty {l : List Str} {f : KeySpec} (h : ∀ x ∈ l, partsMatch (decomposeKey x) (specParts f) = true) :
    (filterKeys (some l) f).getD [] = l ∧ filterKeys (some l) f ≠ some [] := by
  cases l with
  | nil => exact ⟨rfl, nofun⟩
  | cons a l =>
    have : (a :: l).filter (fun x => partsMatch (decomposeKey x) (specParts f)) = a :: l := List.filter_eq_self.mpr h
    simp only [filterKeys, this, Option.getD_some, true_and]
    nofun

/-- a record of an entity is read by a module that may: its members, if all match the filter -/
theorem depRec_ok {db : Db} {owner : Str} {s f : KeySpec} (hr : Readable db owner) (hs : Rel s)
    (h : ∀ x ∈ mem db s, partsMatch (decomposeKey x) (specParts f) = true) (t : KeySpec)
    (ht : Kvs.canon (composeKey t) = opKey s .set) :
    ∃ found, depRec db owner t f = some (.ok found) ∧ found ≠ some [] ∧ found.getD [] = mem db s := by
  unfold depRec getRec
  rw [ht]
  cases e : db.recs (opKey s .set) with
  | none =>
    refine ⟨none, rfl, nofun, ?_⟩
    unfold mem
    rw [e]
    rfl
  | some r =>
    obtain ⟨hrd, l, hl⟩ := hr s hs r e
    have hm : mem db s = l := by
      unfold mem members
      rw [e]
      obtain ⟨a, b, c, d, v⟩ := r
      dsimp only at hl
      subst hl
      rfl
    dsimp only
    rw [if_pos hrd]
    dsimp only
    rw [hl]
    rw [hm] at h ⊢
    have := filter_nonempty h
    exact ⟨_, rfl, this.2, this.1⟩

theorem devGmb_key (u : Str) : Kvs.canon (composeKey { ns := .device, nsPart := some u, core := some gmb }) =
    opKey ((Ent.dev u).key (txt "#GMB")) .set := rfl

theorem dseqGin_key (n : Str) : Kvs.canon (composeKey { dseqFilter with ident := some n, core := some gin }) =
    opKey ((disk n).key (txt "#GIN")) .set := rfl

theorem canon_name (e : Ent) (c : Str) : Kvs.canon (e.name ++ c) = opKey (e.key c) .set := by
  rw [key_eq]
  have h : ∀ (p1 p2 p3 p4 p5 p6 : Str), Kvs.canon (glue [] p1 p2 p3 p4 p5 p6 ++ c) = glue [] p1 p2 p3 p4 p5 p6 ++ c := by
    intros
    unfold glue
    simp only [List.nil_append, List.cons_append, Kvs.canon]
    rw [List.dropWhile_cons_of_neg (by decide)]
  cases e with
  | dev u => rw [dev_name]; exact h _ _ _ _ _ _
  | grp dom ns part cat name => rw [grp_name]; exact h _ _ _ _ _ _

theorem disk_parts {n : Str} (h : 58 ∉ n) : (decomposeKey (disk n).name).length = 7 := by
  rw [disk_glue, decompose_glue [] (by simp) (by decide) (by decide) (by decide) (by decide) h]
  rfl

theorem dev_parts {u : Str} (h : 58 ∉ u) : (decomposeKey (Ent.dev u).name).length = 7 := by
  rw [dev_name, decompose_glue [] (by simp) (by simp) (by decide) h (by simp) (by simp)]
  rfl

/-- a disk is looked up -/
theorem disk_lookup {db : Db} {n u : Str} (h : Is db n u) : devKeyToDevid db (disk n).name = some (.ok u) := by
  unfold devKeyToDevid
  rw [disk_parts h.num.2.2, if_neg (by decide), if_neg (by decide), show gmb = txt "#GMB" from rfl, canon_name]
  have hk := h.device
  unfold mem members at hk
  unfold rawAliasToDevid
  split at hk
  · rename_i r _ _ _ _ l e
    rw [e]
    dsimp only
    rw [hk]
    dsimp only
    simp only [copyParts, copyNsPart_dev h.ident]
    split <;> simp
  · cases hk

theorem disk_id {n : Str} (h : 58 ∉ n) : idFromKey (disk n).name = some n := by
  rw [disk_glue]
  exact part5 _ (by simp) (by decide) (by decide) (by decide) (by decide) h

/-- a device is looked up -/
theorem dev_lookup {db : Db} {n u : Str} (hc : Consistent db) (h : Is db n u) : devKeyToDsq db (Ent.dev u).name = some (.ok n) := by
  have hu := h.ident.2.2.1
  unfold devKeyToDsq
  rw [dev_parts hu, if_neg (by decide), if_neg (by decide), show gin = txt "#GIN" from rfl, canon_name]
  have hk := h.disk
  have hin := hc.inOf (.dev u) hu
  unfold mem members at hk hin
  split at hk
  · rename_i r _ _ _ _ l e
    rw [e]
    rw [e] at hin
    dsimp only at hin ⊢
    have hf : l.filter (fun x => partsMatch (decomposeKey x) (specParts dseqFilter)) = [(disk n).name] := by
      rw [← hk]
      refine List.filter_congr ?_
      intro x hx
      obtain ⟨a, -, rfl⟩ := hin x hx
      exact match_name a
    have hd : dsqOf (filterKeys (some l) dseqFilter) = .ok n := by
      cases l with
      | nil => cases hf
      | cons x l =>
        simp only [filterKeys]
        rw [hf]
        simp only [dsqOf, disk_id h.num.2.2]
        rw [if_pos (by have := h.num.2.1; simp [uuidSize]; omega)]
    rw [hd]
  · cases hk

/-! ### direct dependencies -/

theorem lies_name {db : Db} {u : Str} (hc : Consistent db) (hu : 58 ∉ u) {x : Str} :
    x ∈ mem db ((Ent.dev u).key (txt "#GMB")) ↔ ∃ n, LiesOn db u n ∧ x = (disk n).name := by
  constructor
  · intro h
    obtain ⟨n, -, e⟩ := hc.ofDev u hu x h
    exact ⟨n, ⟨hu, by unfold Lists; rw [← e]; exact h⟩, e⟩
  · rintro ⟨n, h, rfl⟩
    exact h.2

theorem on_name {db : Db} {n : Str} (hc : Consistent db) {x : Str} :
    x ∈ mem db ((disk n).key (txt "#GIN")) ↔ ∃ w, LiesOn db w n ∧ x = (Ent.dev w).name := by
  constructor
  · intro h
    obtain ⟨a, ha, rfl⟩ := hc.inOf _ (disk_valid n) x h
    have hl := (hc.both a (disk n) ha (disk_valid n)).mpr h
    cases a with
    | dev w => exact ⟨w, ⟨ha, hl⟩, rfl⟩
    | grp dom ns part cat name =>
      obtain ⟨uid, -, e⟩ := hc.ofGroup dom ns part cat name ha _ hl
      exact absurd e (grp_ne_dev (disk_valid n))
  · rintro ⟨w, h, rfl⟩
    exact (hc.both (.dev w) (disk n) h.1 (disk_valid n)).mp h.2

theorem is_num {db : Db} {n n' u : Str} (h : Is db n u) (h' : Is db n' u) : n = n' := by
  have := h.disk
  rw [h'.disk] at this
  exact (disk_name_inj (by simpa using this)).symm

theorem is_ident {db : Db} {n u u' : Str} (h : Is db n u) (h' : Is db n u') : u = u' := by
  have := h.device
  rw [h'.device] at this
  exact (dev_name_inj (by simpa using this)).symm

/-- names found downwards -/
def DownName (db : Db) (v x : Str) : Prop := ∃ n, Is db n v ∧ x = (disk n).name

theorem imm_down {db : Db} {c : Ctx} {dseq owner : Str} {key : Option Str} {u : Str} {m : Search} (hm : m.down = true)
    (hc : Consistent db) (hr : Readable db owner) (hs : StartsDown db c key u) :
    ∃ found, immDeps db c dseq owner key m = some (.ok found) ∧ found ≠ some [] ∧
      ∀ x, x ∈ found.getD [] ↔ ∃ n, LiesOn db u n ∧ x = (disk n).name := by
  have hu : 58 ∉ u := by
    rcases hs with ⟨-, -, h⟩ | ⟨n, -, h⟩
    · exact h
    · exact h.ident.2.2.1
  obtain ⟨found, e, h1, h2⟩ := depRec_ok (t := { ns := .device, nsPart := some u, core := some gmb }) (f := dseqFilter) hr
    ⟨.dev u, hu, Or.inl rfl⟩ (fun x hx => by
      obtain ⟨n, -, rfl⟩ := (lies_name hc hu).mp hx
      rw [match_name, disk_prefix]) (devGmb_key u)
  refine ⟨found, ?_, h1, fun x => by rw [h2]; exact lies_name hc hu⟩
  unfold immDeps
  rw [if_pos hm]
  rcases hs with ⟨rfl, hu, -⟩ | ⟨n, rfl, h⟩
  · simp only [startOf, Option.bind_some, if_true, nsPartOf, orNull, hu, Option.getD_some]
    exact e
  · simp only [startOf, disk_lookup h, Option.bind_some, if_neg h.ident.1]
    exact e

theorem imm_up {db : Db} {c : Ctx} {dseq owner : Str} {key : Option Str} {u n : Str} {m : Search} (hm : m.down = false)
    (hc : Consistent db) (hr : Readable db owner) (hs : StartsUp db dseq key u) (hn : Is db n u) :
    ∃ found, immDeps db c dseq owner key m = some (.ok found) ∧ found ≠ some [] ∧
      ∀ x, x ∈ found.getD [] ↔ ∃ w, LiesOn db w n ∧ x = (Ent.dev w).name := by
  obtain ⟨found, e, h1, h2⟩ := depRec_ok (t := { dseqFilter with ident := some n, core := some gin }) (f := { ns := .device }) hr
    ⟨disk n, disk_valid n, Or.inr rfl⟩ (fun x hx => by
      obtain ⟨w, hw, rfl⟩ := (on_name hc).mp hx
      exact match_dev hw.1) (dseqGin_key n)
  refine ⟨found, ?_, h1, fun x => by rw [h2]; exact on_name hc⟩
  unfold immDeps
  rw [if_neg (by rw [hm]; decide)]
  rcases hs with ⟨rfl, hu⟩ | ⟨rfl, -⟩
  · have := is_num hu hn
    subst this
    simp only [startOf, Option.bind_some, if_true]
    exact e
  · simp only [startOf, dev_lookup hc hn, Option.bind_some, if_neg hn.num.1]
    exact e

/-! ### the loops -/

theorem allLoop_ok {again : Str → Option (Except Int (Option (List Str)))} {R : Str → Option (List Str)} (l : List Str)
    (h : ∀ x ∈ l, again x = some (.ok (R x)) ∧ R x ≠ some []) (acc : List Str) :
    allLoop again acc l = some (.ok (some (acc ++ l.flatMap fun x => (R x).getD []))) := by
  induction l generalizing acc with
  | nil => simp [allLoop]
  | cons x l ih =>
    obtain ⟨h1, h2⟩ := h x (by simp)
    have ih := ih (fun y hy => h y (by simp [hy]))
    unfold allLoop
    rw [h1, Option.bind_some]
    cases e : R x with
    | none => simp only [ih]; simp [e]
    | some r =>
      cases r with
      | nil => exact absurd e h2
      | cons a r => simp only [ih]; simp [e]

/-- what a device found contributes when only those that end the search are asked for -/
def endOf (R : Str → Option (List Str)) (x : Str) : List Str := (R x).getD [x]

theorem endOf_ne {R : Str → Option (List Str)} {x : Str} (h : R x ≠ some []) : endOf R x ≠ [] := by
  unfold endOf
  cases e : R x with
  | none => simp
  | some r => rw [e] at h; simpa using h

theorem endLoop_ok {again : Str → Option (Except Int (Option (List Str)))} {R : Str → Option (List Str)} (l : List Str)
    (h : ∀ x ∈ l, again x = some (.ok (R x)) ∧ R x ≠ some []) (acc : List Str) (hacc : acc ≠ []) :
    endLoop again (some acc) l = some (.ok (some (acc ++ l.flatMap (endOf R)))) := by
  induction l generalizing acc with
  | nil => simp [endLoop]
  | cons x l ih =>
    obtain ⟨h1, h2⟩ := h x (by simp)
    have ih := ih (fun y hy => h y (by simp [hy]))
    unfold endLoop
    rw [h1, Option.bind_some]
    cases acc with
    | nil => exact absurd rfl hacc
    | cons b acc =>
      cases e : R x with
      | none => simp only [Option.getD_some]; rw [ih _ (by simp)]; simp [endOf, e]
      | some r =>
        cases r with
        | nil => exact absurd e h2
        | cons a r =>
          simp only
          rw [if_neg (by simp), ih _ (by simp)]
          simp [endOf, e]

theorem endLoop_start {again : Str → Option (Except Int (Option (List Str)))} {R : Str → Option (List Str)} (l : List Str)
    (h : ∀ x ∈ l, again x = some (.ok (R x)) ∧ R x ≠ some []) (hl : l ≠ []) :
    endLoop again none l = some (.ok (some (l.flatMap (endOf R)))) := by
  cases l with
  | nil => exact absurd rfl hl
  | cons x l =>
    obtain ⟨h1, h2⟩ := h x (by simp)
    have ih := endLoop_ok (again := again) (R := R) l (fun y hy => h y (by simp [hy]))
    unfold endLoop
    rw [h1, Option.bind_some]
    cases e : R x with
    | none => simp only [Option.getD_none]; rw [ih _ (by simp)]; simp [endOf, e]
    | some r =>
      cases r with
      | nil => exact absurd e h2
      | cons a r => simp only; rw [ih _ (by simp)]; simp [endOf, e]

/-! ### the search in a graph -/

theorem trans_first {r : Str → Str → Prop} {v u : Str} : TransGen r v u ↔ r v u ∨ ∃ w, r w u ∧ TransGen r v w := by
  constructor
  · intro h
    cases h with
    | single h => exact Or.inl h
    | tail h h' => exact Or.inr ⟨_, h', h⟩
  · rintro (h | ⟨w, h, h'⟩)
    · exact .single h
    · exact .tail h' h

theorem acc_of_list {r : Str → Str → Prop} (hac : ∀ v, ¬ TransGen r v v) : ∀ (k : Nat) (l : List Str) (u : Str), l.length ≤ k →
    (∀ v, TransGen r v u → v ∈ l) → Acc r u := by
  intro k
  induction k with
  | zero =>
    intro l u hl h
    refine ⟨_, fun v hv => ?_⟩
    have := h v (.single hv)
    cases l with
    | nil => cases this
    | cons => simp at hl
  | succ k ih =>
    intro l u hl h
    refine ⟨_, fun v hv => ?_⟩
    have hm := h v (.single hv)
    refine ih (l.erase v) v ?_ ?_
    · rw [List.length_erase_of_mem hm]
      omega
    · intro w hw
      have hne : w ≠ v := fun e => hac v (e ▸ hw)
      exact (List.mem_erase_of_ne hne).mpr (h w (.tail hw hv))

section Search
variable {db : Db} {c : Ctx} {dseq owner : Str} {m : Search} {Nx Nm : Str → Str → Prop} {At : Option Str → Str → Prop}

/-- what is needed of one step -/
structure Steps (imm : Option Str → Option (Except Int (Option (List Str)))) (Nx Nm : Str → Str → Prop) (At : Option Str → Str → Prop) :
    Prop where
  step : ∀ key u, At key u → ∃ found, imm key = some (.ok found) ∧ found ≠ some [] ∧
    ∀ x, x ∈ found.getD [] ↔ ∃ v, Nx v u ∧ Nm v x
  next : ∀ key u v x, At key u → Nx v u → Nm v x → At (some x) v
  named : ∀ key u v, At key u → Nx v u → ∃ x, Nm v x
  one : ∀ v w x, Nm v x → Nm w x → v = w

/-- the results of the searches from all that was found, from some number of calls on -/
theorem results {f : Nat → Str → Option (Except Int (Option (List Str)))} {P : Str → Option (List Str) → Prop} (l : List Str)
    (h : ∀ x ∈ l, ∃ r k, (∀ fuel, k ≤ fuel → f fuel x = some (.ok r)) ∧ P x r) :
    ∃ (R : Str → Option (List Str)) (k : Nat), (∀ fuel, k ≤ fuel → ∀ x ∈ l, f fuel x = some (.ok (R x))) ∧ ∀ x ∈ l, P x (R x) := by
  induction l with
  | nil => exact ⟨fun _ => none, 0, nofun, nofun⟩
  | cons x l ih =>
    obtain ⟨R, k, h1, h2⟩ := ih (fun y hy => h y (by simp [hy]))
    obtain ⟨r, k', h3, h4⟩ := h x (by simp)
    refine ⟨fun y => if y = x then r else R y, max k k', ?_, ?_⟩
    · intro fuel hf y hy
      by_cases e : y = x
      · subst e
        simp only [if_true]
        exact h3 fuel (by omega)
      · simp only [e, if_false]
        rcases List.mem_cons.mp hy with hy | hy
        · exact absurd hy e
        · exact h1 fuel (by omega) y hy
    · intro y hy
      by_cases e : y = x
      · subst e
        simpa using h4
      · simp only [e, if_false]
        rcases List.mem_cons.mp hy with hy | hy
        · exact absurd hy e
        · exact h2 y hy

theorem Steps.none_next {imm : Option Str → Option (Except Int (Option (List Str)))} (hs : Steps imm Nx Nm At) {key : Option Str}
    {u : Str} (hk : At key u) {found : Option (List Str)} (hf : ∀ x, x ∈ found.getD [] ↔ ∃ v, Nx v u ∧ Nm v x)
    (hnil : found.getD [] = []) (w : Str) : ¬ Nx w u := by
  intro hw
  obtain ⟨x, hx⟩ := hs.named key u w hk hw
  have := (hf x).mpr ⟨w, hw, hx⟩
  rw [hnil] at this
  cases this

theorem search_stop {key : Option Str} {found : Option (List Str)} (e : immDeps db c dseq owner key m = some (.ok found))
    (hnil : found.getD [] = []) (fuel : Nat) (hf : 1 ≤ fuel) : stackGet db c dseq owner m fuel key = some (.ok found) := by
  cases fuel with
  | zero => omega
  | succ fuel =>
    unfold stackGet
    rw [e, Option.bind_some]
    simp only [searchOn, hnil, if_true]

theorem search_all (hm : m = .anc ∨ m = .desc) (hs : Steps (fun key => immDeps db c dseq owner key m) Nx Nm At) {u : Str} (hu : Acc Nx u) :
    ∀ key, At key u → ∃ r k, (∀ fuel, k ≤ fuel → stackGet db c dseq owner m fuel key = some (.ok r)) ∧ r ≠ some [] ∧
      ∀ x, x ∈ r.getD [] ↔ ∃ v, TransGen Nx v u ∧ Nm v x := by
  induction hu with
  | intro u _ ih =>
    intro key hk
    obtain ⟨found, e, hne, hf⟩ := hs.step key u hk
    by_cases hnil : found.getD [] = []
    · refine ⟨found, 1, search_stop e hnil, hne, ?_⟩
      intro x
      rw [hnil]
      have hno := hs.none_next hk hf hnil
      constructor
      · nofun
      · rintro ⟨v, hv, -⟩
        rcases trans_first.mp hv with h | ⟨w, h, -⟩
        · exact absurd h (hno _)
        · exact absurd h (hno _)
    · obtain ⟨R, k, h1, h2⟩ := results (f := fun fuel x => stackGet db c dseq owner m fuel (some x))
        (P := fun x r => r ≠ some [] ∧ ∀ v, Nx v u → Nm v x → ∀ y, y ∈ r.getD [] ↔ ∃ w, TransGen Nx w v ∧ Nm w y) (found.getD []) (by
          intro x hx
          obtain ⟨v, hv, hn⟩ := (hf x).mp hx
          obtain ⟨r, k, h1, h2, h3⟩ := ih v hv (some x) (hs.next key u v x hk hv hn)
          refine ⟨r, k, h1, h2, ?_⟩
          intro w hw hn' y
          rw [← hs.one v w x hn hn']
          exact h3 y)
      refine ⟨some (found.getD [] ++ (found.getD []).flatMap fun x => (R x).getD []), k + 1, ?_, ?_, ?_⟩
      · intro fuel hf
        cases fuel with
        | zero => omega
        | succ fuel =>
          unfold stackGet
          rw [e, Option.bind_some]
          have := allLoop_ok (R := R) (found.getD []) (fun x hx => ⟨h1 fuel (by omega) x hx, (h2 x hx).1⟩) (found.getD [])
          rcases hm with rfl | rfl <;> simp only [searchOn, if_neg hnil] <;> exact this
      · intro h
        simp only [Option.some.injEq, List.append_eq_nil_iff] at h
        exact hnil h.1
      · intro x
        simp only [Option.getD_some, List.mem_append, List.mem_flatMap]
        constructor
        · rintro (h | ⟨y, hy, h⟩)
          · obtain ⟨v, hv, hn⟩ := (hf x).mp h
            exact ⟨v, .single hv, hn⟩
          · obtain ⟨v, hv, hn⟩ := (hf y).mp hy
            obtain ⟨w, hw, hx⟩ := ((h2 y hy).2 v hv hn x).mp h
            exact ⟨w, .tail hw hv, hx⟩
        · rintro ⟨v, hv, hn⟩
          rcases trans_first.mp hv with h | ⟨w, hw, h⟩
          · exact Or.inl ((hf x).mpr ⟨v, h, hn⟩)
          · obtain ⟨y, hy⟩ := hs.named key u w hk hw
            have hyf := (hf y).mpr ⟨w, hw, hy⟩
            exact Or.inr ⟨y, hyf, ((h2 y hyf).2 w hw hy x).mpr ⟨v, h, hn⟩⟩

theorem search_end (hm : m = .base ∨ m = .top) (hs : Steps (fun key => immDeps db c dseq owner key m) Nx Nm At) {u : Str} (hu : Acc Nx u) :
    ∀ key, At key u → ∃ r k, (∀ fuel, k ≤ fuel → stackGet db c dseq owner m fuel key = some (.ok r)) ∧ r ≠ some [] ∧
      (r = none ↔ ∀ w, ¬ Nx w u) ∧ ∀ x, x ∈ r.getD [] ↔ ∃ v, TransGen Nx v u ∧ (∀ w, ¬ Nx w v) ∧ Nm v x := by
  induction hu with
  | intro u _ ih =>
    intro key hk
    obtain ⟨found, e, hne, hf⟩ := hs.step key u hk
    by_cases hnil : found.getD [] = []
    · have hno := hs.none_next hk hf hnil
      refine ⟨found, 1, search_stop e hnil, hne, ⟨fun _ => hno, fun _ => ?_⟩, ?_⟩
      · cases found with
        | none => rfl
        | some l => exact absurd (congrArg some hnil) hne
      intro x
      rw [hnil]
      constructor
      · nofun
      · rintro ⟨v, hv, -⟩
        rcases trans_first.mp hv with h | ⟨w, h, -⟩
        · exact absurd h (hno _)
        · exact absurd h (hno _)
    · obtain ⟨R, k, h1, h2⟩ := results (f := fun fuel x => stackGet db c dseq owner m fuel (some x))
        (P := fun x r => r ≠ some [] ∧ ∀ v, Nx v u → Nm v x → (r = none ↔ ∀ w, ¬ Nx w v) ∧
          ∀ y, y ∈ r.getD [] ↔ ∃ w, TransGen Nx w v ∧ (∀ z, ¬ Nx z w) ∧ Nm w y) (found.getD []) (by
          intro x hx
          obtain ⟨v, hv, hn⟩ := (hf x).mp hx
          obtain ⟨r, k, h1, h2, h3, h4⟩ := ih v hv (some x) (hs.next key u v x hk hv hn)
          refine ⟨r, k, h1, h2, ?_⟩
          intro w hw hn'
          rw [← hs.one v w x hn hn']
          exact ⟨h3, h4⟩)
      have hout : (found.getD []).flatMap (endOf R) ≠ [] := by
        cases hl : found.getD [] with
        | nil => exact absurd hl hnil
        | cons a l =>
          rw [List.flatMap_cons]
          intro h
          exact endOf_ne (h2 a (by rw [hl]; simp)).1 (List.append_eq_nil_iff.mp h).1
      refine ⟨some ((found.getD []).flatMap (endOf R)), k + 1, ?_, ?_, ?_, ?_⟩
      · intro fuel hf
        cases fuel with
        | zero => omega
        | succ fuel =>
          unfold stackGet
          rw [e, Option.bind_some]
          have := endLoop_start (R := R) (found.getD []) (fun x hx => ⟨h1 fuel (by omega) x hx, (h2 x hx).1⟩) hnil
          rcases hm with rfl | rfl <;> simp only [searchOn, if_neg hnil] <;> exact this
      · intro h
        exact hout (Option.some.inj h)
      · constructor
        · nofun
        · intro h
          cases hl : found.getD [] with
          | nil => exact absurd hl hnil
          | cons a l =>
            obtain ⟨v, hv, -⟩ := (hf a).mp (by rw [hl]; simp)
            exact absurd hv (h v)
      · intro x
        simp only [Option.getD_some, List.mem_flatMap]
        constructor
        · rintro ⟨y, hy, h⟩
          obtain ⟨v, hv, hn⟩ := (hf y).mp hy
          obtain ⟨h3, h4⟩ := (h2 y hy).2 v hv hn
          unfold endOf at h
          cases er : R y with
          | none =>
            rw [er] at h
            have : x = y := by simpa using h
            subst this
            exact ⟨v, .single hv, h3.mp er, hn⟩
          | some r =>
            rw [er] at h
            obtain ⟨w, hw, hz, hx⟩ := (h4 x).mp (by rw [er]; exact h)
            exact ⟨w, .tail hw hv, hz, hx⟩
        · rintro ⟨v, hv, hz, hn⟩
          rcases trans_first.mp hv with h | ⟨w, hw, h⟩
          · have hx := (hf x).mpr ⟨v, h, hn⟩
            refine ⟨x, hx, ?_⟩
            unfold endOf
            rw [((h2 x hx).2 v h hn).1.mpr hz]
            simp
          · obtain ⟨y, hy⟩ := hs.named key u w hk hw
            have hyf := (hf y).mpr ⟨w, hw, hy⟩
            obtain ⟨h3, h4⟩ := (h2 y hyf).2 w hw hy
            refine ⟨y, hyf, ?_⟩
            have hx := (h4 x).mpr ⟨v, h, hz, hn⟩
            unfold endOf
            cases er : R y with
            | none => rw [er] at hx; cases hx
            | some r => rw [er] at hx; exact hx

/-- the search ends with a result, or not at all -/
theorem allLoop_none {again : Str → Option (Except Int (Option (List Str)))} (l : List Str)
    (h : ∀ x ∈ l, again x = none ∨ ∃ r, again x = some (.ok r) ∧ r ≠ some []) (hx : ∃ x ∈ l, again x = none) (acc : List Str) :
    allLoop again acc l = none := by
  induction l generalizing acc with
  | nil => obtain ⟨x, hx, -⟩ := hx; cases hx
  | cons x l ih =>
    unfold allLoop
    rcases h x (by simp) with e | ⟨r, e, hr⟩
    · rw [e]; rfl
    · have hx' : ∃ x ∈ l, again x = none := by
        obtain ⟨y, hy, e'⟩ := hx
        rcases List.mem_cons.mp hy with rfl | hy
        · rw [e] at e'; cases e'
        · exact ⟨y, hy, e'⟩
      have ih := ih (fun y hy => h y (by simp [hy])) hx'
      rw [e, Option.bind_some]
      cases r with
      | none => exact ih _
      | some r =>
        cases r with
        | nil => exact absurd rfl hr
        | cons a r => exact ih _

theorem endLoop_none {again : Str → Option (Except Int (Option (List Str)))} (l : List Str)
    (h : ∀ x ∈ l, again x = none ∨ ∃ r, again x = some (.ok r) ∧ r ≠ some []) (hx : ∃ x ∈ l, again x = none) (acc : Option (List Str))
    (hacc : acc ≠ some []) : endLoop again acc l = none := by
  induction l generalizing acc with
  | nil => obtain ⟨x, hx, -⟩ := hx; cases hx
  | cons x l ih =>
    unfold endLoop
    rcases h x (by simp) with e | ⟨r, e, hr⟩
    · rw [e]; rfl
    · have hx' : ∃ x ∈ l, again x = none := by
        obtain ⟨y, hy, e'⟩ := hx
        rcases List.mem_cons.mp hy with rfl | hy
        · rw [e] at e'; cases e'
        · exact ⟨y, hy, e'⟩
      have ih := ih (fun y hy => h y (by simp [hy])) hx'
      rw [e, Option.bind_some]
      cases r with
      | none =>
        cases acc with
        | none => exact ih _ (by simp)
        | some a =>
          cases a with
          | nil => exact absurd rfl hacc
          | cons b a => exact ih _ (by simp)
      | some r =>
        cases r with
        | nil => exact absurd rfl hr
        | cons a r =>
          cases acc with
          | none => exact ih _ (by simp)
          | some a' =>
            cases a' with
            | nil => exact absurd rfl hacc
            | cons b a' =>
              simp only
              rw [if_neg (by simp)]
              exact ih _ (by simp)

/-- which searches go on -/
def GoesOn (m : Search) : Prop := m ≠ .immAnc ∧ m ≠ .immDesc

instance (m : Search) : Decidable (GoesOn m) := inferInstanceAs (Decidable (_ ∧ _))

theorem search_shape (hs : Steps (fun key => immDeps db c dseq owner key m) Nx Nm At) (fuel : Nat) : ∀ key u, At key u →
    stackGet db c dseq owner m fuel key = none ∨
      ∃ r, stackGet db c dseq owner m fuel key = some (.ok r) ∧ r ≠ some [] := by
  induction fuel with
  | zero => intro key u _; exact Or.inl rfl
  | succ fuel ih =>
    intro key u hk
    obtain ⟨found, e, hne, hf⟩ := hs.step key u hk
    unfold stackGet
    rw [e, Option.bind_some]
    simp only [searchOn]
    split
    · exact Or.inr ⟨found, rfl, hne⟩
    · rename_i hnil
      have hch : ∀ x ∈ found.getD [], stackGet db c dseq owner m fuel (some x) = none ∨
          ∃ r, stackGet db c dseq owner m fuel (some x) = some (.ok r) ∧ r ≠ some [] := by
        intro x hx
        obtain ⟨v, hv, hn⟩ := (hf x).mp hx
        exact ih (some x) v (hs.next key u v x hk hv hn)
      have hall : allLoop (fun x => stackGet db c dseq owner m fuel (some x)) (found.getD []) (found.getD []) = none ∨
          ∃ r, allLoop (fun x => stackGet db c dseq owner m fuel (some x)) (found.getD []) (found.getD []) = some (.ok r) ∧ r ≠ some [] := by
        by_cases h : ∃ x ∈ found.getD [], stackGet db c dseq owner m fuel (some x) = none
        · exact Or.inl (allLoop_none _ hch h _)
        · obtain ⟨R, k, h1, h2⟩ := results (f := fun _ x => stackGet db c dseq owner m fuel (some x)) (P := fun _ r => r ≠ some [])
            (found.getD []) (by
              intro x hx
              rcases hch x hx with h' | ⟨r, h', h2⟩
              · exact absurd ⟨x, hx, h'⟩ h
              · exact ⟨r, 0, fun _ _ => h', h2⟩)
          have := allLoop_ok (again := fun x => stackGet db c dseq owner m fuel (some x)) (R := R) (found.getD [])
            (fun x hx => ⟨h1 k (Nat.le_refl _) x hx, h2 x hx⟩) (found.getD [])
          refine Or.inr ⟨_, this, ?_⟩
          intro h
          simp only [Option.some.injEq, List.append_eq_nil_iff] at h
          exact hnil h.1
      have hend : endLoop (fun x => stackGet db c dseq owner m fuel (some x)) none (found.getD []) = none ∨
          ∃ r, endLoop (fun x => stackGet db c dseq owner m fuel (some x)) none (found.getD []) = some (.ok r) ∧ r ≠ some [] := by
        by_cases h : ∃ x ∈ found.getD [], stackGet db c dseq owner m fuel (some x) = none
        · exact Or.inl (endLoop_none _ hch h _ nofun)
        · obtain ⟨R, k, h1, h2⟩ := results (f := fun _ x => stackGet db c dseq owner m fuel (some x)) (P := fun _ r => r ≠ some [])
            (found.getD []) (by
              intro x hx
              rcases hch x hx with h' | ⟨r, h', h2⟩
              · exact absurd ⟨x, hx, h'⟩ h
              · exact ⟨r, 0, fun _ _ => h', h2⟩)
          have := endLoop_start (again := fun x => stackGet db c dseq owner m fuel (some x)) (R := R) (found.getD [])
            (fun x hx => ⟨h1 k (Nat.le_refl _) x hx, h2 x hx⟩) hnil
          refine Or.inr ⟨_, this, ?_⟩
          intro h
          cases hl : found.getD [] with
          | nil => exact hnil hl
          | cons a l =>
            rw [hl] at h
            simp only [Option.some.injEq, List.flatMap_cons, List.append_eq_nil_iff] at h
            exact endOf_ne (h2 a (by rw [hl]; simp)) h.1
      cases m
      · exact Or.inr ⟨found, rfl, hne⟩
      · exact hall
      · exact hend
      · exact Or.inr ⟨found, rfl, hne⟩
      · exact hall
      · exact hend

theorem search_cycle (hm : GoesOn m) (hs : Steps (fun key => immDeps db c dseq owner key m) Nx Nm At) (fuel : Nat) : ∀ key u, At key u →
    (∃ w, (w = u ∨ TransGen Nx w u) ∧ TransGen Nx w w) → stackGet db c dseq owner m fuel key = none := by
  induction fuel with
  | zero => intro key u _ _; rfl
  | succ fuel ih =>
    intro key u hk hw
    -- a device next to this one from which it goes on
    have hnext : ∃ v, Nx v u ∧ ∃ w, (w = v ∨ TransGen Nx w v) ∧ TransGen Nx w w := by
      obtain ⟨w, hw, hcyc⟩ := hw
      have hwu : TransGen Nx w u := by
        rcases hw with rfl | hw
        · exact hcyc
        · exact hw
      rcases trans_first.mp hwu with h | ⟨v, h, h'⟩
      · exact ⟨w, h, w, Or.inl rfl, hcyc⟩
      · exact ⟨v, h, w, Or.inr h', hcyc⟩
    obtain ⟨v, hv, hw'⟩ := hnext
    obtain ⟨found, e, hne, hf⟩ := hs.step key u hk
    obtain ⟨x, hx⟩ := hs.named key u v hk hv
    have hxf := (hf x).mpr ⟨v, hv, hx⟩
    have hnil : found.getD [] ≠ [] := by
      intro h
      rw [h] at hxf
      cases hxf
    have hnone : ∃ x ∈ found.getD [], stackGet db c dseq owner m fuel (some x) = none :=
      ⟨x, hxf, ih (some x) v (hs.next key u v x hk hv hx) hw'⟩
    have hch : ∀ x ∈ found.getD [], stackGet db c dseq owner m fuel (some x) = none ∨
        ∃ r, stackGet db c dseq owner m fuel (some x) = some (.ok r) ∧ r ≠ some [] := by
      intro y hy
      obtain ⟨v', hv', hn⟩ := (hf y).mp hy
      exact search_shape hs fuel (some y) v' (hs.next key u v' y hk hv' hn)
    unfold stackGet
    rw [e, Option.bind_some]
    simp only [searchOn, if_neg hnil]
    cases m
    · exact absurd rfl hm.1
    · exact allLoop_none _ hch hnone _
    · exact endLoop_none _ hch hnone _ nofun
    · exact absurd rfl hm.2
    · exact allLoop_none _ hch hnone _
    · exact endLoop_none _ hch hnone _ nofun

end Search

/-! ### device stacks -/

theorem steps_down {db : Db} {c : Ctx} {dseq owner : Str} {m : Search} (hm : m.down = true) (hc : Consistent db)
    (hr : Readable db owner) :
    Steps (fun key => immDeps db c dseq owner key m) (Below db) (DownName db) (fun key u => StartsDown db c key u ∧ KnownBelow db u) where
  step := by
    rintro key u ⟨hs, hk⟩
    obtain ⟨found, e, h1, h2⟩ := imm_down (dseq := dseq) hm hc hr hs
    refine ⟨found, e, h1, fun x => ?_⟩
    rw [h2]
    constructor
    · rintro ⟨n, hn, rfl⟩
      obtain ⟨w, hw⟩ := hk u (Or.inl rfl) n hn
      exact ⟨w, ⟨n, hn, hw⟩, n, hw, rfl⟩
    · rintro ⟨v, ⟨n, hn, hv⟩, n', hv', rfl⟩
      have := is_num hv hv'
      subst this
      exact ⟨n, hn, rfl⟩
  next := by
    rintro key u v x ⟨-, hk⟩ hv ⟨n, hn, rfl⟩
    refine ⟨Or.inr ⟨n, rfl, hn⟩, ?_⟩
    rintro w (rfl | hw)
    · exact hk w (Or.inr (.single hv))
    · exact hk w (Or.inr (.tail hw hv))
  named := by
    rintro key u v - ⟨n, -, hn⟩
    exact ⟨_, n, hn, rfl⟩
  one := by
    rintro v w x ⟨n, hn, rfl⟩ ⟨n', hn', e⟩
    have := disk_name_inj e
    subst this
    exact is_ident hn hn'

theorem trans_swap {r : Str → Str → Prop} {v u : Str} (h : TransGen r u v) : TransGen (fun a b => r b a) v u := by
  induction h with
  | single h => exact .single h
  | tail _ h ih => exact TransGen.trans (.single h) ih

theorem trans_swap_iff {r : Str → Str → Prop} {v u : Str} : TransGen (fun a b => r b a) v u ↔ TransGen r u v :=
  ⟨fun h => trans_swap h, trans_swap⟩

theorem steps_up {db : Db} {c : Ctx} {dseq owner : Str} {m : Search} (hm : m.down = false) (hc : Consistent db)
    (hr : Readable db owner) :
    Steps (fun key => immDeps db c dseq owner key m) (fun v u => Below db u v) (fun v x => x = (Ent.dev v).name)
      (fun key u => StartsUp db dseq key u ∧ KnownAbove db u) where
  step := by
    rintro key u ⟨hs, hk⟩
    obtain ⟨n, hn⟩ : ∃ n, Is db n u := by
      rcases hs with ⟨-, h⟩ | ⟨-, h⟩
      · exact ⟨_, h⟩
      · exact h
    obtain ⟨found, e, h1, h2⟩ := imm_up (c := c) hm hc hr hs hn
    refine ⟨found, e, h1, fun x => ?_⟩
    rw [h2]
    constructor
    · rintro ⟨w, hw, rfl⟩
      exact ⟨w, ⟨n, hw, hn⟩, rfl⟩
    · rintro ⟨v, ⟨n', hv, hn'⟩, rfl⟩
      have := is_num hn hn'
      subst this
      exact ⟨v, hv, rfl⟩
  next := by
    rintro key u v x ⟨-, hk⟩ ⟨n, hv, hn⟩ rfl
    refine ⟨Or.inr ⟨rfl, hk u (Or.inl rfl) n hn v hv⟩, ?_⟩
    have hb : Below db u v := ⟨n, hv, hn⟩
    rintro w (rfl | hw)
    · exact hk w (Or.inr (.single hb))
    · exact hk w (Or.inr (TransGen.trans (.single hb) hw))
  named := by
    intro key u v _ _
    exact ⟨_, rfl⟩
  one := by
    intro v w x e e'
    exact dev_name_inj (e.symm.trans e')

end Sid.Ubr
