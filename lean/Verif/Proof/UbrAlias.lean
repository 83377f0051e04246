import Verif.Spec.UbrAlias
import Verif.Proof.UbrStack
/-
Lemmas on the question for aliases.
-/
namespace Sid.Ubr
open Sid.Spec.Delta Sid.Spec.Group Sid.Spec.Stack Sid.Spec.Alias
open Sid.Spec.UbrKey (nsLetter text)
open Sid.Ifc (txt)

theorem alias_match {p0 p1 p2 p3 p4 rest : Str} (h0 : join ∉ p0) (h1 : join ∉ p1) (h2 : join ∉ p2) (h3 : join ∉ p3) (h4 : join ∉ p4)
    (a : AliasArgs) :
    partsMatch (decomposeKey (p0 ++ join :: (p1 ++ join :: (p2 ++ join :: (p3 ++ join :: (p4 ++ join :: rest)))))) (specParts (aliasFilter a)) =
    (p0 == [] && (p1 == txt "ALS" && (p2 == txt "M" && (partMatches p3 a.modName && partMatches p4 a.aliasKey)))) := by
  unfold decomposeKey specParts aliasFilter
  rw [match_step h0, match_step h1, match_step h2, match_step h3, match_step h4, match_free _ _ (by simp)]
  simp [partMatches, opPrefix, nsPrefix, domAlias]

theorem asks_iff (f : Option Str) (x : Str) : partMatches x f = true ↔ Asks f x := by
  cases f with
  | none => simp [partMatches, Asks]
  | some y => simp [partMatches, Asks]

theorem nsLetter_no (ns : Ns) : join ∉ nsLetter ns := by cases ns <;> decide

theorem nsLetter_m {ns : Ns} (h : nsLetter ns = txt "M") : ns = .module := by
  cases ns <;> first | rfl | (revert h; decide)

theorem dom_no {dom : Str} {ns part cat name} (h : (Ent.grp dom ns part cat name).Valid) : join ∉ dom := by
  rcases h with rfl | rfl <;> decide

/-- which of the names of groups are returned -/
theorem alias_match_grp {dom part name : Str} {ns : Ns} {cat : Option Str} (hv : (Ent.grp dom ns part cat name).Valid)
    (hp : 58 ∉ part) (hc : 58 ∉ cat.getD []) (a : AliasArgs) :
    partsMatch (decomposeKey (Ent.grp dom ns part cat name).name) (specParts (aliasFilter a)) = true ↔
      dom = txt "ALS" ∧ ns = .module ∧ Asks a.modName part ∧ Asks a.aliasKey (cat.getD []) := by
  rw [grp_name]
  unfold glue
  have hc' : join ∉ text cat := by cases cat <;> exact hc
  rw [alias_match (by simp) (dom_no hv) (nsLetter_no ns) hp hc']
  have e : text cat = cat.getD [] := by cases cat <;> rfl
  simp only [Bool.and_eq_true, beq_iff_eq, true_and, asks_iff, e]
  constructor
  · rintro ⟨h1, h2, h3⟩; exact ⟨h1, nsLetter_m h2, h3⟩
  · rintro ⟨h1, rfl, h3⟩; exact ⟨h1, rfl, h3⟩

theorem alias_match_dev (u : Str) (hu : 58 ∉ u) (a : AliasArgs) :
    partsMatch (decomposeKey (Ent.dev u).name) (specParts (aliasFilter a)) = false := by
  rw [dev_name]
  unfold glue
  rw [alias_match (by simp) (by simp) (nsLetter_no _) hu (by simp)]
  simp
  intro h
  exact absurd h.symm (by decide)

theorem aliasSpec_key (c : Ctx) (owner : Str) (a : AliasArgs) :
    Kvs.canon (composeKey (aliasSpec c owner a)) = opKey ((Ent.dev (a.devId.getD (orNull c.uid))).key (txt "#GIN")) .set := rfl

theorem alias_cat (dom : Str) (ns : Ns) (part : Str) (cat : Option Str) (name : Str) :
    (Ent.grp dom ns part cat name).name = (Ent.grp dom ns part (some (cat.getD [])) name).name := by
  rw [grp_name, grp_name]
  cases cat <;> rfl

/-- what is found in the list of what the device is in -/
theorem alias_found {db : Db} {owner u : Str} (hr : MayRead db owner u)
    (hset : IsSet (db.recs (opKey ((Ent.dev u).key (txt "#GIN")) .set))) (c : Ctx) (a : AliasArgs)
    (hu : a.devId.getD (orNull c.uid) = u) (hne : mem db ((Ent.dev u).key (txt "#GIN")) ≠ []) :
    aliasGet db c true owner a =
      some ⟨some ((mem db ((Ent.dev u).key (txt "#GIN"))).filter fun x => partsMatch (decomposeKey x) (specParts (aliasFilter a))),
        some ((mem db ((Ent.dev u).key (txt "#GIN"))).filter fun x => partsMatch (decomposeKey x) (specParts (aliasFilter a))).length, 0⟩ := by
  unfold aliasGet getRec
  rw [if_pos rfl, aliasSpec_key, hu]
  unfold mem members at hne ⊢
  cases e : db.recs (opKey ((Ent.dev u).key (txt "#GIN")) .set) with
  | none => rw [e] at hne; exact absurd rfl hne
  | some r =>
    have hrd := hr r e
    obtain ⟨l, hl, -⟩ := hset r e
    rw [e] at hne
    obtain ⟨x1, x2, x3, x4, v⟩ := r
    dsimp only at hl
    subst hl
    dsimp only at hne ⊢
    rw [if_pos hrd]
    cases l with
    | nil => exact absurd rfl hne
    | cons x l => rfl

/-- a key with six colons has none in its parts -/
theorem noColons_of_count {db : Db} {u : Str} (h : ∀ x ∈ mem db ((Ent.dev u).key (txt "#GIN")), x.count join = 6) : NoColons db u := by
  intro dom ns part cat name _ hin
  have h6 := h _ hin
  rw [grp_name] at h6
  unfold glue at h6
  simp only [List.count_append, List.count_cons_self, List.count_nil] at h6
  have e : text cat = cat.getD [] := by cases cat <;> rfl
  rw [e] at h6
  exact ⟨List.count_eq_zero.mp (show part.count join = 0 by omega), List.count_eq_zero.mp (show (cat.getD []).count join = 0 by omega),
    List.count_eq_zero.mp (show name.count join = 0 by omega)⟩

end Sid.Ubr
