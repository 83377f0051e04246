import Verif.Proof.UbrAlias
import Verif.Props.UbrStack
/-
C102: the question for the aliases of a device.
-/
namespace Sid.Props
open Sid.Ubr Sid.Spec.Delta Sid.Spec.Sync Sid.Spec.Group Sid.Spec.Stack Sid.Spec.Alias
open Sid.Ifc (txt)

/-- C102: at any time in a worker: asked for the aliases of a device, of all modules or of one, of all categories or of one, the call
    returns exactly the aliases the device has now, each once, and their number.
    Partial: no colons in names (`C102_counterexample_colon`), and the device is in some group or has some alias
    (`C102_counterexample_silent`). -/
theorem C102_exact_partial (db0 db : Db) (hs : Synced Rel db0) (hc : Consistent db0) (h : Life db0 db) (c : Ctx) (owner : Str)
    (a : AliasArgs) (u : Str) (hu : a.devId.getD (orNull c.uid) = u) (hv : 58 ∉ u) (hr : MayRead db owner u)
    (hn : NoColons db u) (hin : InSomething db u) :
    ∃ l, aliasGet db c true owner a = some ⟨some l, some l.length, 0⟩ ∧ Asc l ∧ ∀ x, x ∈ l ↔ Wanted db u a x := by
  obtain ⟨base, hi⟩ := life_inv (synced_inv hs hc) h
  have hne : mem db ((Ent.dev u).key (txt "#GIN")) ≠ [] := by
    obtain ⟨e, -, he⟩ := hin
    exact List.ne_nil_of_mem he
  have hset : IsSet (db.recs (opKey ((Ent.dev u).key (txt "#GIN")) .set)) := (hi.2.2 _ ⟨.dev u, hv, Or.inr rfl⟩).1
  refine ⟨_, alias_found hr hset c a hu hne, ?_, ?_⟩
  · have : Asc (mem db ((Ent.dev u).key (txt "#GIN"))) := by
      unfold mem members
      split
      · rename_i hh
        obtain ⟨l, h1, h2⟩ := hset _ hh
        cases h1
        exact h2
      · exact List.Pairwise.nil
    exact this.filter _
  · intro x
    rw [List.mem_filter]
    constructor
    · rintro ⟨h1, h2⟩
      obtain ⟨e, hev, rfl⟩ := hi.1.inOf (.dev u) hv x h1
      cases e with
      | dev w => rw [alias_match_dev w hev] at h2; cases h2
      | grp dom ns part cat name =>
        obtain ⟨p1, p2, -⟩ := hn dom ns part cat name hev h1
        obtain ⟨rfl, rfl, h5, h6⟩ := (alias_match_grp hev p1 p2 a).mp h2
        refine ⟨part, cat.getD [], name, ?_, h5, h6, alias_cat _ _ _ _ _⟩
        unfold IsIn als
        rw [← alias_cat]
        exact h1
    · rintro ⟨mod, cat, name, h1, h2, h3, rfl⟩
      have hev : (als mod cat name).Valid := Or.inl rfl
      obtain ⟨p1, p2, -⟩ := hn _ _ _ _ _ hev h1
      exact ⟨h1, (alias_match_grp hev p1 p2 a).mpr ⟨rfl, rfl, h2, h3⟩⟩

/-- C102: a module that is none of the daemon's is refused. -/
theorem C102_refused (db : Db) (c : Ctx) (owner : Str) (a : AliasArgs) :
    ∃ o, aliasGet db c false owner a = some o ∧ o.code = -22 ∧ o.strv = none := ⟨_, rfl, rfl, rfl⟩

/-- C102 fails for a device the daemon does not know, one that is in no group and has no alias (any more), and one whose record the
    module may not read: all look the same, NULL and success, and the number of aliases is not written, so that the module
    reads whatever was in its variable. -/
theorem C102_counterexample_silent (db : Db) (c : Ctx) (owner : Str) (a : AliasArgs) (u : Str) (hu : a.devId.getD (orNull c.uid) = u)
    (h : ∀ r, db.recs (opKey ((Ent.dev u).key (txt "#GIN")) .set) = some r → rdAllowed r owner = false ∨ r.val = .vector []) :
    aliasGet db c true owner a = some ⟨none, none, 0⟩ := by
  unfold aliasGet getRec
  rw [if_pos rfl, aliasSpec_key, hu]
  cases e : db.recs (opKey ((Ent.dev u).key (txt "#GIN")) .set) with
  | none => rfl
  | some r =>
    dsimp only
    rcases h r e with h1 | h1
    · rw [if_neg (by simp [h1])]
    · split
      · rename_i hh
        split at hh
        · cases hh
        · cases hh; rfl
      · rename_i hh
        split at hh
        · cases hh; rw [h1]; rfl
        · cases hh

/-- C102 fails for categories with a colon: an alias of category `x:y` is returned to those who ask for category `x`, and not to
    those who ask for `x:y`. -/
theorem C102_counterexample_colon (db : Db) (c : Ctx) (owner : Str) (u mod x y name : Str) (hu : orNull c.uid = u)
    (hr : MayRead db owner u) (hset : IsSet (db.recs (opKey ((Ent.dev u).key (txt "#GIN")) .set))) (hm : 58 ∉ mod) (hx : 58 ∉ x)
    (hin : IsIn db (.dev u) (als mod (x ++ 58 :: y) name)) :
    (∃ l, aliasGet db c true owner { aliasKey := some x } = some ⟨some l, some l.length, 0⟩ ∧ (als mod (x ++ 58 :: y) name).name ∈ l) ∧
    ∃ l, aliasGet db c true owner { aliasKey := some (x ++ 58 :: y) } = some ⟨some l, some l.length, 0⟩ ∧
      (als mod (x ++ 58 :: y) name).name ∉ l := by
  have hne : mem db ((Ent.dev u).key (txt "#GIN")) ≠ [] := List.ne_nil_of_mem hin
  have key : ∀ f, partsMatch (decomposeKey (als mod (x ++ 58 :: y) name).name) (specParts (aliasFilter { aliasKey := some f })) = (x == f) := by
    intro f
    unfold als
    rw [grp_name]
    have := alias_match (p0 := []) (p1 := txt "ALS") (p2 := txt "M") (p3 := mod) (p4 := x) (rest := y ++ join :: (name ++ [join]))
      (by simp) (by decide) (by decide) hm hx { aliasKey := some f }
    simp only [glue, Sid.Spec.UbrKey.text, Option.getD_some, List.append_assoc, List.cons_append] at this ⊢
    refine Eq.trans this ?_
    simp [partMatches]
  refine ⟨⟨_, alias_found hr hset c _ (by simpa using hu) hne, ?_⟩, _, alias_found hr hset c _ (by simpa using hu) hne, ?_⟩
  · rw [List.mem_filter]
    exact ⟨hin, by rw [key]; simp⟩
  · rw [List.mem_filter]
    rintro ⟨-, h2⟩
    rw [key] at h2
    have := congrArg List.length (eq_of_beq h2)
    simp at this

/-! ### the hypotheses can be met -/

namespace AliasExample

def ctx : Ctx := { uid := some (txt "a") }

def db? : Option Db :=
  (gcall Db.empty (.aliasAdd ctx (txt "m1") (txt "k") (txt "x"))).bind fun r =>
  (gcall r.2 (.aliasAdd ctx (txt "m2") (txt "l") (txt "y"))).map fun r => r.2

example : (db?.map fun db => [aliasGet db ctx true (txt "m3") {}, aliasGet db ctx true (txt "m3") { modName := some (txt "m2") },
      aliasGet db {} true (txt "m3") { devId := some (txt "a"), aliasKey := some (txt "k") },
      aliasGet db ctx true (txt "m3") { aliasKey := some (txt "z") }, aliasGet db ctx true (txt "m3") { devId := some (txt "b") }]) =
    some [some ⟨some [(als (txt "m1") (txt "k") (txt "x")).name, (als (txt "m2") (txt "l") (txt "y")).name], some 2, 0⟩,
      some ⟨some [(als (txt "m2") (txt "l") (txt "y")).name], some 1, 0⟩,
      some ⟨some [(als (txt "m1") (txt "k") (txt "x")).name], some 1, 0⟩,
      some ⟨some [], some 0, 0⟩, some ⟨none, none, 0⟩] := by decide +kernel

/-- the store above meets the hypotheses of the theorem -/
example : ∃ db, db? = some db ∧ Synced Rel Db.empty ∧ Consistent Db.empty ∧ Life Db.empty db ∧ MayRead db (txt "m3") (txt "a") ∧
    NoColons db (txt "a") ∧ InSomething db (txt "a") := by
  have hd : DevOk ctx := by intro u hu; cases hu; decide
  cases h1 : gcall Db.empty (.aliasAdd ctx (txt "m1") (txt "k") (txt "x")) with
  | none => exact absurd h1 (by intro h; have : (gcall Db.empty (.aliasAdd ctx (txt "m1") (txt "k") (txt "x"))).isSome = true := by decide +kernel
                                rw [h] at this; cases this)
  | some r1 =>
    cases h2 : gcall r1.2 (.aliasAdd ctx (txt "m2") (txt "l") (txt "y")) with
    | none =>
      have : db?.isSome = true := by decide +kernel
      unfold db? at this
      rw [h1, Option.bind_some, h2] at this
      cases this
    | some r2 =>
      have hdb : db? = some r2.2 := by unfold db?; rw [h1, Option.bind_some, h2]; rfl
      have hm : (db?.map fun db => mem db ((Ent.dev (txt "a")).key (txt "#GIN"))) =
          some [(als (txt "m1") (txt "k") (txt "x")).name, (als (txt "m2") (txt "l") (txt "y")).name] := by decide +kernel
      have hrd : (db?.map fun db => (db.recs (opKey ((Ent.dev (txt "a")).key (txt "#GIN")) .set)).map fun r => rdAllowed r (txt "m3")) =
          some (some true) := by decide +kernel
      rw [hdb, Option.map_some, Option.some.injEq] at hm hrd
      refine ⟨_, hdb, GroupExample.empty_synced, GroupExample.empty_consistent, ?_, ?_, ?_, ?_⟩
      · exact .group (.group .start (x := .aliasAdd ctx (txt "m1") (txt "k") (txt "x")) hd h1)
          (x := .aliasAdd ctx (txt "m2") (txt "l") (txt "y")) hd h2
      · intro r hr
        rw [hr, Option.map_some, Option.some.injEq] at hrd
        exact hrd
      · refine noColons_of_count ?_
        rw [hm]
        decide
      · exact ⟨als (txt "m1") (txt "k") (txt "x"), Or.inl rfl, by unfold IsIn; rw [hm]; simp⟩

/-- a category with a colon, as a module adds it -/
example : ((gcall Db.empty (.aliasAdd ctx (txt "m1") (txt "k:l") (txt "x"))).map fun r =>
      [aliasGet r.2 ctx true (txt "m1") { aliasKey := some (txt "k") }, aliasGet r.2 ctx true (txt "m1") { aliasKey := some (txt "k:l") }]) =
    some [some ⟨some [(als (txt "m1") (txt "k:l") (txt "x")).name], some 1, 0⟩, some ⟨some [], some 0, 0⟩] := by decide +kernel

end AliasExample

end Sid.Props
