import Verif.Proof.UbrStrv
import Verif.Props.UbrStack
/-
C103: the memory of the arrays that searches of the database return.
-/
namespace Sid.Props
open Sid.Ubr Sid.Spec.Stack Sid.Spec.Strv Sid.Spec.Group
open Sid.Ifc (txt)

theorem ret_returns {h h' : Heap} {g : Got} {found : Option (List Str)} (hr : Ret h h' g found) : Returns h h' g found := by
  cases found with
  | none => exact hr
  | some l =>
    obtain ⟨p, x1, x2, x3, x4, x5⟩ := hr
    exact ⟨p, x1, x2, arr_isArray x3 x5, x4⟩

/-- C103: a search of the stack in which nothing is undefined but for memory reads and writes only blocks that are there and within
    their bounds, whichever allocations fail.  It returns what was found in one new block, and every other block is as before: what was
    allocated meanwhile is freed, once.  When it fails it returns NULL, 0 and an error, and all blocks are as before; it fails only with
    the error that is due or when an allocation failed.
    Partial: names are strings that are not empty, and the search comes to an end without reading before an empty array
    (`C103_counterexample_empty`). -/
theorem C103_search_partial (db : Db) (hd : Strings db) (c : Ctx) (dseq owner : Str) (m : Search) (fuel : Nat) (h : Heap) (hs : Sane h)
    (key : Option Str) (r : Except Int (Option (List Str))) (hr : stackGet db c dseq owner m fuel key = some r) :
    ∃ h' g, stackMem db c dseq owner m fuel h key = some (h', g) ∧ Sane h' ∧ Same h h' g.arr ∧
      ((g.code = 0 ∧ ∃ found, r = .ok found ∧ Returns h h' g found) ∨
       (g.code < 0 ∧ g.arr = none ∧ g.count = 0 ∧ (r = .error g.code ∨ NoRoom h h'))) := by
  obtain ⟨h', g, e, o⟩ := stack_spec hd c dseq owner m fuel h key r hs hr
  refine ⟨h', g, e, o.grow.sane, o.same, ?_⟩
  rcases o.res with ⟨h1, found, h2, h3⟩ | h1
  · exact .inl ⟨h1, found, h2, ret_returns h3⟩
  · exact .inr h1

/-- C103: so when a search finds these names (`C50_immediate`, `C50_down_partial`, `C50_up_partial`), the module gets an array with
    exactly these names, or NULL if there are none, unless an allocation fails; and nothing else is left in memory. -/
theorem C103_found (db : Db) (hd : Strings db) (c : Ctx) (dseq owner : Str) (m : Search) (key : Option Str) (P : Str → Prop)
    (hf : Finds (fun fuel => stackGet db c dseq owner m fuel key) P) :
    ∃ k, ∀ fuel, k ≤ fuel → ∀ h, Sane h → ∃ h' g, stackMem db c dseq owner m fuel h key = some (h', g) ∧ Same h h' g.arr ∧
      ((g.code = 0 ∧ ∃ found, Returns h h' g found ∧ ∀ x, x ∈ found.getD [] ↔ P x) ∨
       (g.code < 0 ∧ g.arr = none ∧ g.count = 0 ∧ NoRoom h h')) := by
  obtain ⟨r, k, h1, h2⟩ := hf
  refine ⟨k, fun fuel hk h hs => ?_⟩
  obtain ⟨h', g, e, -, hsm, hor⟩ := C103_search_partial db hd c dseq owner m fuel h hs key _ (h1 fuel hk)
  refine ⟨h', g, e, hsm, ?_⟩
  rcases hor with ⟨hc, found, hfd, hret⟩ | ⟨hc, ha, hn, hor⟩
  · cases hfd
    exact .inl ⟨hc, r, hret, h2⟩
  · refine .inr ⟨hc, ha, hn, ?_⟩
    rcases hor with hor | hor
    · cases hor
    · exact hor

/-- C103: the array of aliases is made the same way. -/
theorem C103_alias (db : Db) (hd : Strings db) (c : Ctx) (owner : Str) (a : AliasArgs) (out : AliasOut)
    (hr : aliasGet db c true owner a = some out) (h : Heap) (hs : Sane h) :
    ∃ h' g, aliasMem h db c owner a = some (h', g) ∧ Sane h' ∧ Same h h' g.arr ∧
      ((g.code = 0 ∧ Returns h h' g out.strv) ∨ (g.code < 0 ∧ g.arr = none ∧ NoRoom h h')) := by
  unfold aliasGet at hr
  rw [if_pos rfl] at hr
  unfold aliasMem
  cases hg : getRec db owner (composeKey (aliasSpec c owner a)) with
  | error e =>
    rw [hg] at hr
    cases hr
    exact ⟨h, _, rfl, hs, fun _ _ => rfl, .inl ⟨rfl, rfl, rfl⟩⟩
  | ok rc =>
    rw [hg] at hr
    dsimp only at hr ⊢
    cases hv : rc.val with
    | scalar d => rw [hv] at hr; cases hr
    | vector l =>
      rw [hv] at hr
      simp only [Option.some.injEq] at hr
      subst hr
      obtain ⟨h', g, e, o⟩ := keyStrv_spec hs (some l) (aliasFilter a) (hd _ _ _ (getRec_ok hg) hv)
      refine ⟨h', g, e, o.grow.sane, o.same, ?_⟩
      rcases o.res with ⟨hc, found, hfd, hret⟩ | ⟨hc, ha, -, hor⟩
      · cases hfd
        refine .inl ⟨hc, ?_⟩
        have : (aliasFound a l).strv = filterKeys (some l) (aliasFilter a) := by
          cases l <;> rfl
        rw [this]
        exact ret_returns hret
      · refine .inr ⟨hc, ha, ?_⟩
        rcases hor with hor | hor
        · cases hor
        · exact hor

/-! ### the hypotheses can be met; what happens with empty arrays -/

namespace StrvExample
open StackExample (ofPairs stack u)

theorem pairs_strings {P : List (Ent × Ent)} (h : ∀ p ∈ P, (0 ∉ p.1.name ∧ p.1.name ≠ []) ∧ 0 ∉ p.2.name ∧ p.2.name ≠ []) :
    Strings (ofPairs P) := by
  intro k r l hr hv x hx
  unfold ofPairs at hr
  dsimp only at hr
  split at hr
  · cases hr
    cases hv
    obtain ⟨p, hp, rfl⟩ := List.mem_map.mp hx
    exact (h p (List.mem_filter.mp hp).1).2
  · split at hr
    · cases hr
      cases hv
      obtain ⟨p, hp, rfl⟩ := List.mem_map.mp hx
      exact (h p (List.mem_filter.mp hp).1).1
    · cases hr

theorem stack_strings : Strings StackExample.db := pairs_strings (by decide +kernel)

/-- no memory in use; allocations succeed but for those of `f` -/
def heap (f : List Nat) : Heap := ⟨fun _ => none, 0, fun n => !f.contains n⟩

theorem heap_sane (f : List Nat) : Sane (heap f) := fun _ _ => rfl

/-- the strings of an array as a module reads them -/
def arrayOf (h : Heap) (p n : Nat) : List (Option Str) := (List.range n).map fun i => (loadPtr h p i).bind (strAt h)

/-- how many blocks are in use -/
def inUse (h : Heap) : Nat := ((List.range h.next).filter fun b => (h.blk b).isSome).length

/-- the base of `u4`: the array, how many blocks are left -/
example : ((stackMem StackExample.db { uid := some (u "4") } (txt "4") (txt "mod") .base 9 (heap []) none).map fun r =>
      (r.2.arr.map fun p => arrayOf r.1 p r.2.count, r.2.code, inUse r.1)) =
    some (some [some (disk (txt "1")).name, some (disk (txt "1")).name, some (disk (txt "2")).name], 0, 1) := by decide +kernel

/-- the same when the fourth allocation fails: nothing is left -/
example : ((stackMem StackExample.db { uid := some (u "4") } (txt "4") (txt "mod") .base 9 (heap [3]) none).map fun r =>
      (r.2, inUse r.1)) = some (⟨none, 0, -12⟩, 0) := by decide +kernel

/-- the devices on `u2`, found by the search and read in memory -/
example (c : Ctx) (dseq : Str) : ∃ k, ∀ fuel, k ≤ fuel → ∀ h, Sane h → ∃ h' g,
    stackMem StackExample.db c dseq (txt "mod") .desc fuel h (some (Ent.dev (u "2")).name) = some (h', g) ∧ Same h h' g.arr ∧
      ((g.code = 0 ∧ ∃ found, Returns h h' g found ∧ ∀ x, x ∈ found.getD [] ↔ ∃ v, Under StackExample.db (u "2") v ∧ x = (Ent.dev v).name) ∨
       (g.code < 0 ∧ g.arr = none ∧ g.count = 0 ∧ NoRoom h h')) :=
  C103_found _ stack_strings _ _ _ _ _ _
    (C50_up_partial StackExample.db c dseq (txt "mod") (StackExample.pairs_consistent StackExample.stack_fine)
      (StackExample.pairs_readable _ _) StackExample.acyclic _ (u "2") (Or.inr ⟨rfl, _, StackExample.is_i "2" (by simp)⟩)
      (StackExample.known_above _) [u "3", u "4"] (fun _ h => (StackExample.under_mem h).2)).1

/-- the aliases of `u2` -/
example : ∃ out, aliasGet StackExample.db { uid := some (u "2") } true (txt "mod") {} = some out ∧ out.strv = some [(disk (txt "2")).name] := by
  refine ⟨_, rfl, ?_⟩
  decide +kernel

/-- `u3` lies on two disks; `u1`, one of them, has a member that is no disk -/
def odd : List (Ent × Ent) :=
  [(disk (txt "1"), .dev (u "1")), (disk (txt "2"), .dev (u "2")), (.dev (u "3"), disk (txt "1")), (.dev (u "3"), disk (txt "2")),
   (.dev (u "1"), .dev (u "2"))]

/-- C103 fails when a device has members, but none of them a disk: what lies below it is an array without strings, and the search goes
    wrong with it.  The search for base devices reads before its start, the search for ancestors reports that there is no memory,
    although there is. -/
theorem C103_counterexample_empty :
    (stackMem (ofPairs odd) { uid := some (u "3") } (txt "3") (txt "mod") .base 9 (heap []) none).isNone = true ∧
    ((stackMem (ofPairs odd) { uid := some (u "1") } (txt "1") (txt "mod") .base 9 (heap []) none).map fun r => (r.2.arr.isSome, r.2.count)) =
      some (true, 0) ∧
    ((stackMem (ofPairs odd) { uid := some (u "3") } (txt "3") (txt "mod") .anc 9 (heap []) none).map fun r => (r.2, inUse r.1)) =
      some (⟨none, 0, -12⟩, 0) := by decide +kernel

end StrvExample

end Sid.Props
