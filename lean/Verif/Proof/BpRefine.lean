import Verif.Proof.BpStep
/-
The tree with its records refines the store of named values, as long as only the least name of a value is removed.
-/
namespace Sid.Bpt
open Sid.Spec Sid.Spec.Aliased

def act : StrMap.Act → Action
  | .skip => .skip
  | .write d n => .write d n
  | .remove => .remove

def view (x : Rec) : Nat × Nat × Nat := (x.data, x.size, x.refs)

/-- the call of the code a call of the specification stands for -/
def toOp : Aliased.Call → Op
  | .add s d n => .add s d n
  | .alias k a f => .alias k a f
  | .update s fn => .update s fun o => act (fn (o.map view))
  | .del s => .del s

structure Rep (b : Bpt) (S : Store) : Prop where
  names : (ents b).Perm S.names
  vals : ∀ r x, b.recs r = some x → S.val r = (x.data, x.size)
  next : S.next = b.nextRec

theorem BInv.fst {b} (h : BInv b) : (ents b).map Prod.fst = (keysOf b).map K.str := by
  rw [ents, List.map_fst_zip]; simp [h.len]

theorem BInv.snd {b} (h : BInv b) : (ents b).map Prod.snd = ptrsOf b := by
  rw [ents, List.map_snd_zip]; simp [h.len]

theorem BInv.asc {b} (h : BInv b) : ((ents b).map Prod.fst).Pairwise fun x y => strLt x y = true := by
  rw [h.fst]
  exact List.pairwise_map.mpr h.sorted

theorem BInv.nodup {b} (h : BInv b) : ((ents b).map Prod.fst).Nodup :=
  h.asc.imp fun hab => strLt_ne hab

theorem mem_unique {L : List (Str × Nat)} (h : (L.map Prod.fst).Nodup) {s r q} (h1 : (s, r) ∈ L) (h2 : (s, q) ∈ L) : r = q := by
  induction L with
  | nil => simp at h1
  | cons p L ih =>
    simp only [List.map_cons, List.nodup_cons] at h
    rcases List.mem_cons.mp h1 with e1 | e1 <;> rcases List.mem_cons.mp h2 with e2 | e2
    · rw [← e1] at e2; exact (congrArg Prod.snd e2).symm
    · subst e1; exact absurd (List.mem_map_of_mem (f := Prod.fst) e2) h.1
    · subst e2; exact absurd (List.mem_map_of_mem (f := Prod.fst) e1) h.1
    · exact ih h.2 e1 e2

theorem denotes_iff {S : Store} (h : (S.names.map Prod.fst).Nodup) {s r} : denotes S s = some r ↔ (s, r) ∈ S.names := by
  simp only [denotes]
  constructor
  · intro e
    obtain ⟨p, hp, rfl⟩ := Option.map_eq_some_iff.mp e
    have h1 := List.mem_of_find?_eq_some hp
    have h2 := List.find?_some hp
    simp at h2
    rw [← h2]; exact h1
  · intro hm
    cases hf : S.names.find? (fun p => p.1 == s) with
    | none =>
      have := List.find?_eq_none.mp hf _ hm
      simp at this
    | some p =>
      have h1 := List.mem_of_find?_eq_some hf
      have h2 := List.find?_some hf
      simp at h2
      have : p = (s, p.2) := by rw [← h2]
      rw [this] at h1
      rw [Option.map_some, mem_unique h h1 hm]

theorem denotes_none {S : Store} {s} (h : ∀ r, (s, r) ∉ S.names) : denotes S s = none := by
  simp only [denotes, Option.map_eq_none_iff, List.find?_eq_none]
  rintro ⟨x, r⟩ hp e
  simp at e
  subst e
  exact h r hp

section
variable {b : Bpt} {S : Store} (h : BInv b) (R : Rep b S)
include h R

theorem Rep.nodup : (S.names.map Prod.fst).Nodup := (R.names.map Prod.fst).nodup_iff.mp h.nodup

theorem Rep.denotes_iff {s r} : denotes S s = some r ↔ (s, r) ∈ ents b := by
  rw [Bpt.denotes_iff (R.nodup h)]; exact R.names.mem_iff.symm

theorem Rep.absent {s} (hs : ∀ k ∈ keysOf b, k.str ≠ s) : denotes S s = none := by
  apply denotes_none
  intro r hr
  have := List.mem_map_of_mem (f := Prod.fst) (R.names.mem_iff.mpr hr)
  rw [h.fst] at this
  obtain ⟨k, hk, e⟩ := List.mem_map.mp this
  exact hs k hk e

theorem Rep.present {s f t LA LB A B PA PB} (hit : Hit b s f t LA LB A B PA PB) : denotes S s = some f.rc := by
  rw [R.denotes_iff h, hit.ents h.tree]; simp

theorem Rep.count (r : Nat) : nameCount S r = (ptrsOf b).count r := by
  rw [← h.snd, nameCount]
  rw [← (R.names.filter fun p => p.2 == r).length_eq, List.count_eq_length_filter, List.filter_map, List.length_map]
  rfl

/-- a lookup reports what the name denotes -/
theorem Rep.lookup (s : Str) : ∃ o, Bpt.lookup b s = some o ∧ o.map view = look S s := by
  rcases find_spec h s with ⟨e, hs⟩ | ⟨f, t, LA, LB, A, B, PA, PB, e, hit⟩
  · exact ⟨none, by simp only [Bpt.lookup, e], by simp [look, R.absent h hs]⟩
  · obtain ⟨x, hx, hc, _⟩ := h.mem_recs hit.mem
    refine ⟨some x, by simp only [Bpt.lookup, e, hx, Option.map_some], ?_⟩
    simp [look, R.present h hit, view, R.vals _ _ hx, R.count h, hc]

theorem Rep.write {r d n b'} (hr : r ∈ ptrsOf b) (e : writeRec b r d n = some b') : BInv b' ∧ Rep b' (setVal S r (d, n)) := by
  obtain ⟨x, hx, b2, e2, hb, hroot, hnr, hrecs⟩ := h.writeRec hr d n
  rw [e] at e2; simp at e2; subst e2
  refine ⟨hb, ?_, ?_, ?_⟩
  · have : ents b' = ents b := by simp only [ents, keysOf, ptrsOf, hroot]
    rw [this]; exact R.names
  · intro q y hy
    rw [hrecs] at hy
    simp only [setVal]
    by_cases eq : q = r
    · subst eq; simp at hy ⊢; subst hy; simp
    · simp only [if_neg eq] at hy ⊢; exact R.vals q y hy
  · rw [hnr]; exact R.next

theorem Rep.addNew {s d n} (hs : ∀ k ∈ keysOf b, k.str ≠ s) :
    ∃ b', Bpt.insertRef (makeRec b d n).1 s (makeRec b d n).2 = some b' ∧ BInv b' ∧ Rep b' (Aliased.add S s d n) := by
  obtain ⟨b', e, hb, hnr, hrecs, EA, EB, e1, e2⟩ := h.insertNew d n hs
  refine ⟨b', e, hb, ?_⟩
  simp only [Aliased.add, R.absent h hs]
  refine ⟨?_, ?_, ?_⟩
  · rw [e2]
    simp only [R.next]
    refine List.perm_middle.trans ?_
    rw [← e1]
    exact R.names.cons _
  · intro q y hy
    rw [hrecs] at hy
    simp only [setVal, R.next]
    by_cases eq : q = b.nextRec
    · subst eq; simp at hy ⊢; subst hy; simp
    · simp only [if_neg eq] at hy ⊢; exact R.vals q y hy
  · rw [hnr]; simp [setVal, R.next]

theorem Rep.add (s : Str) (d n : Nat) : ∃ b', Bpt.add b s d n = some b' ∧ BInv b' ∧ Rep b' (Aliased.add S s d n) := by
  rcases find_spec h s with ⟨e, hs⟩ | ⟨f, t, LA, LB, A, B, PA, PB, e, hit⟩
  · obtain ⟨b', h1, h2⟩ := R.addNew h (d := d) (n := n) hs
    exact ⟨b', by simp only [Bpt.add, e]; exact h1, h2⟩
  · obtain ⟨_, _, b', h1, _⟩ := h.writeRec hit.mem d n
    refine ⟨b', by simp only [Bpt.add, e]; exact h1, ?_⟩
    simp only [Aliased.add, R.present h hit]
    exact R.write h hit.mem h1

theorem Rep.delAbsent {s} (hs : ∀ k ∈ keysOf b, k.str ≠ s) : Rep b (Aliased.del S s) := by
  refine ⟨?_, R.vals, R.next⟩
  simp only [Aliased.del]
  rw [List.filter_eq_self.mpr]
  · exact R.names
  · rintro ⟨x, r⟩ hp
    have := List.mem_map_of_mem (f := Prod.fst) (R.names.mem_iff.mpr hp)
    rw [h.fst] at this
    obtain ⟨k, hk, e⟩ := List.mem_map.mp this
    have := hs k hk
    simp at e ⊢
    rw [← e]; exact this

theorem Rep.delHit {s f t LA LB A B PA PB} (hit : Hit b s f t LA LB A B PA PB) (hleast : LeastName S s) :
    ∃ b', Bpt.deleteEntry b f = some b' ∧ BInv b' ∧ Rep b' (Aliased.del S s) := by
  obtain ⟨b', j, x, hj, e, hb, hnr, hx, hk, hp, hq, hr⟩ := h.deleteEntry hit
  refine ⟨b', e, hb, ?_⟩
  have hE := hit.ents h.tree
  have hl2 := hit.len2 h.tree
  -- no smaller key of the leaf has the record
  have hnot : f.rc ∉ PA := by
    intro hm
    obtain ⟨i, hi, hi'⟩ := List.getElem_of_mem hm
    have hiA : i < A.length := by have := hit.len; omega
    have hmem : (A[i].str, f.rc) ∈ ents b := by
      rw [hE]
      refine List.mem_append_left _ ?_
      rw [List.map_append, List.zip_append (by
        have := hit.len; have := hl2; simp only [List.length_append] at this; rw [List.length_map]; omega)]
      refine List.mem_append_right _ ?_
      rw [List.mem_iff_getElem?]
      refine ⟨i, ?_⟩
      rw [List.getElem?_zip_eq_some]
      refine ⟨?_, ?_⟩
      · rw [List.getElem?_map, List.getElem?_eq_getElem hiA]; rfl
      · rw [List.getElem?_eq_getElem hi, hi']
    have hlt : strLt A[i].str s = true := by
      have hs := h.sorted
      rw [hit.keysOf] at hs
      have := (List.pairwise_append.mp hs).2.2 A[i] (List.mem_append_right _ (List.getElem_mem hiA)) f.key (by simp)
      rw [hit.str] at this; exact this
    have := hleast f.rc A[i].str (R.present h hit) ((R.denotes_iff h).mpr hmem)
    rw [this] at hlt; cases hlt
  have hj' : j = PA.length := by
    rw [hit.ptrs, idxOf?_mid hnot] at hj
    simp at hj; exact hj.symm
  have hE' : ents b' = ((LA.flatMap Leaf.keys ++ A).map K.str).zip (LA.flatMap Leaf.ptrs ++ PA) ++
      ((B ++ LB.flatMap Leaf.keys).map K.str).zip (PB ++ LB.flatMap Leaf.ptrs) := by
    simp only [ents]
    have : ptrsOf b' = (LA.flatMap Leaf.ptrs ++ PA) ++ (PB ++ LB.flatMap Leaf.ptrs) := by
      rw [hp, hit.ptrs, hj', eraseIdx_mid]; simp
    rw [hk, this, List.map_append, List.zip_append (by rw [List.length_map]; exact hl2.symm)]
  refine ⟨?_, ?_, ?_⟩
  · simp only [Aliased.del]
    refine List.Perm.trans ?_ (R.names.filter fun p => p.1 != s)
    rw [hE, hE', List.filter_append, List.filter_cons]
    simp only [bne_self_eq_false, Bool.false_eq_true, if_false]
    have hnd := h.nodup
    rw [hE, List.map_append, List.map_cons, List.nodup_append] at hnd
    rw [List.filter_eq_self.mpr, List.filter_eq_self.mpr]
    · rintro ⟨y, r⟩ hy
      have := List.mem_map_of_mem (f := Prod.fst) hy
      have h2 := (List.nodup_cons.mp hnd.2.1).1
      simp only [bne_iff_ne, ne_eq]
      rintro rfl
      exact h2 this
    · rintro ⟨y, r⟩ hy
      have := List.mem_map_of_mem (f := Prod.fst) hy
      have h2 := hnd.2.2 y this s (by simp)
      simpa using h2
  · intro q y hy
    simp only [Aliased.del]
    by_cases eq : q = f.rc
    · subst eq
      rw [hr] at hy
      split at hy
      · simp at hy
      · simp at hy; subst hy; exact R.vals _ x hx
    · rw [hq q eq] at hy; exact R.vals q y hy
  · rw [hnr]; exact R.next

theorem Rep.del (s : Str) (hleast : LeastName S s) : ∃ b', Bpt.del b s = some b' ∧ BInv b' ∧ Rep b' (Aliased.del S s) := by
  rcases find_spec h s with ⟨e, hs⟩ | ⟨f, t, LA, LB, A, B, PA, PB, e, hit⟩
  · exact ⟨b, by simp only [Bpt.del, e], h, R.delAbsent h hs⟩
  · obtain ⟨b', h1, h2⟩ := R.delHit h hit hleast
    exact ⟨b', by simp only [Bpt.del, e]; exact h1, h2⟩

theorem Rep.update (s : Str) (fn) (hsafe : SafeCall S (.update s fn)) :
    ∃ b', Bpt.update b s (fun o => act (fn (o.map view))) = some b' ∧ BInv b' ∧ Rep b' (Aliased.step S (.update s fn)) := by
  simp only [Aliased.step]
  simp only [SafeCall] at hsafe
  rcases find_spec h s with ⟨e, hs⟩ | ⟨f, t, LA, LB, A, B, PA, PB, e, hit⟩
  · have hlook : look S s = none := by simp [look, R.absent h hs]
    simp only [Bpt.update, e, hlook, Option.map_none]
    cases fn none with
    | skip => exact ⟨b, rfl, h, R⟩
    | write d n => exact R.add h s d n
    | remove => exact ⟨b, rfl, h, R.delAbsent h hs⟩
  · obtain ⟨x, hx, hc, _⟩ := h.mem_recs hit.mem
    have hlook : look S s = some (view x) := by
      simp [look, R.present h hit, view, R.vals _ _ hx, R.count h, hc]
    rw [hlook] at hsafe ⊢
    simp only [Bpt.update, e, hx, Option.map_some]
    cases ea : fn (some (view x)) with
    | skip => exact ⟨b, rfl, h, R⟩
    | write d n =>
      obtain ⟨_, _, b', h1, _⟩ := h.writeRec hit.mem d n
      refine ⟨b', h1, ?_⟩
      simp only [Aliased.add, R.present h hit]
      exact R.write h hit.mem h1
    | remove =>
      rw [ea] at hsafe
      exact R.delHit h hit hsafe

theorem Rep.alias (k a : Str) (force : Bool) :
    ∃ b', Bpt.addAlias b k a force = some ((Aliased.alias S k a force).1, b') ∧ BInv b' ∧ Rep b' (Aliased.alias S k a force).2 := by
  rcases find_spec h k with ⟨e, hs⟩ | ⟨f, t, LA, LB, A, B, PA, PB, e, hit⟩
  · refine ⟨b, ?_, h, ?_⟩ <;> simp only [Bpt.addAlias, e, Aliased.alias, R.absent h hs]
    exact R
  · rcases find_spec h a with ⟨e', hs'⟩ | ⟨g, t', LA', LB', A', B', PA', PB', e', hit'⟩
    · obtain ⟨x, hx, b', h1, h2, hnr, hrecs, EA, EB, e1, e2⟩ := h.insertRef hit.mem hs'
      refine ⟨b', ?_, h2, ?_⟩ <;> simp only [Bpt.addAlias, e, e', Aliased.alias, R.present h hit, R.absent h hs', h1, Option.map_some]
      refine ⟨?_, ?_, by rw [hnr]; exact R.next⟩
      · rw [e2]
        refine List.perm_middle.trans ?_
        rw [← e1]; exact R.names.cons _
      · intro q y hy
        rw [hrecs] at hy
        by_cases eq : q = f.rc
        · subst eq; simp at hy; subst hy; exact R.vals _ x hx
        · simp only [if_neg eq] at hy; exact R.vals q y hy
    · simp only [Bpt.addAlias, e, e', Aliased.alias, R.present h hit, R.present h hit']
      by_cases hne : f.rc = g.rc
      · refine ⟨b, ?_, h, ?_⟩
        · rw [if_pos hne, if_pos hne.symm]
        · rw [if_pos hne.symm]; exact R
      · rw [if_neg hne, if_neg (Ne.symm hne)]
        cases force with
        | false => exact ⟨b, by simp, h, by simp; exact R⟩
        | true =>
          obtain ⟨b', x, y, h1, h2, hnr, hx, hy, hk, hp, hq, hrr, hrf⟩ := h.redirect hit' hit.mem hne
          refine ⟨b', by simp [h1], h2, ?_⟩
          simp only [if_true]
          have hl2 := hit'.len2 h.tree
          have hE := hit'.ents h.tree
          have hE' : ents b' = ((LA'.flatMap Leaf.keys ++ A').map K.str).zip (LA'.flatMap Leaf.ptrs ++ PA') ++
              (a, f.rc) :: ((B' ++ LB'.flatMap Leaf.keys).map K.str).zip (PB' ++ LB'.flatMap Leaf.ptrs) := by
            simp only [ents]
            rw [hk, hit'.keysOf, hp, List.map_append, List.zip_append (by rw [List.length_map]; exact hl2.symm),
              List.map_cons, List.zip_cons_cons, hit'.str]
          refine ⟨?_, ?_, by rw [hnr]; exact R.next⟩
          · refine List.Perm.trans ?_ (R.names.map fun p => if p.1 = a then (a, f.rc) else p)
            have hnd := h.nodup
            rw [hE, List.map_append, List.map_cons, List.nodup_append] at hnd
            rw [hE, hE']
            have hid : ∀ L : List (Str × Nat), (∀ p ∈ L, p.1 ≠ a) → L.map (fun p => if p.1 = a then (a, f.rc) else p) = L := by
              intro L hL
              conv => rhs; rw [← List.map_id L]
              apply List.map_congr_left
              intro p hp
              rw [if_neg (hL p hp)]; rfl
            rw [List.map_append (l₂ := _ :: _), List.map_cons, hid _ ?_, hid _ ?_]
            · simp
            · intro p hp e
              have := List.mem_map_of_mem (f := Prod.fst) hp
              rw [e] at this
              exact (List.nodup_cons.mp hnd.2.1).1 this
            · intro p hp e
              have := List.mem_map_of_mem (f := Prod.fst) hp
              exact hnd.2.2 _ this a (by simp) e
          · intro q z hz
            by_cases e1 : q = f.rc
            · subst e1
              rw [hrr] at hz; simp at hz; subst hz
              exact R.vals _ y hy
            · by_cases e2 : q = g.rc
              · subst e2
                rw [hrf] at hz
                split at hz
                · simp at hz
                · simp at hz; subst hz; exact R.vals _ x hx
              · rw [hq q e2 e1] at hz; exact R.vals q z hz

theorem Rep.step (c : Aliased.Call) (hsafe : SafeCall S c) :
    ∃ b', Bpt.step b (toOp c) = some b' ∧ BInv b' ∧ Rep b' (Aliased.step S c) := by
  cases c with
  | add s d n => exact R.add h s d n
  | alias k a f =>
    obtain ⟨b', h1, h2⟩ := R.alias h k a f
    exact ⟨b', by simp [toOp, Bpt.step, h1], h2⟩
  | update s fn => exact R.update h s fn hsafe
  | del s => exact R.del h s hsafe

end

theorem Rep.run {b S} (h : BInv b) (R : Rep b S) (cs : List Aliased.Call) (hsafe : Safe S cs) :
    ∃ b', Bpt.run b (cs.map toOp) = some b' ∧ BInv b' ∧ Rep b' (cs.foldl Aliased.step S) := by
  induction cs generalizing b S with
  | nil => exact ⟨b, rfl, h, R⟩
  | cons c cs ih =>
    obtain ⟨b1, h1, h2, h3⟩ := R.step h c hsafe.1
    obtain ⟨b', h4, h5⟩ := ih h2 h3 hsafe.2
    exact ⟨b', by simp only [List.map_cons, Bpt.run, h1]; exact h4, h5⟩

theorem create_rep {o b} (e : create o = some b) : Rep b Aliased.empty := by
  simp only [create] at e
  split at e
  · simp at e
  · simp at e
    subst e
    refine ⟨by simp [ents, keysOf, Aliased.empty], by simp, rfl⟩

/-! ### without aliases -/

def toAlias : StrMap.Call → Aliased.Call
  | .add s d n => .add s d n
  | .update s fn => .update s fun o => fn (o.map fun v => (v.1, v.2.1))
  | .del s => .del s

/-- every value has one name -/
structure Single (S : Store) (m : StrMap.Map) : Prop where
  nodup : (S.names.map Prod.fst).Nodup
  inj : ∀ s s' r, (s, r) ∈ S.names → (s', r) ∈ S.names → s = s'
  lt : ∀ p ∈ S.names, p.2 < S.next
  val : ∀ s, (denotes S s).map S.val = m s

theorem Single.least {S m} (h : Single S m) (s : Str) : LeastName S s := by
  intro r s' h1 h2
  have := h.inj s s' r ((denotes_iff h.nodup).mp h1) ((denotes_iff h.nodup).mp h2)
  subst this; exact strLt_irrefl _

theorem Single.look {S m} (h : Single S m) (s : Str) : (look S s).map (fun v => (v.1, v.2.1)) = m s := by
  rw [← h.val s, Aliased.look, Option.map_map]
  cases denotes S s <;> rfl

theorem Single.safe {S m} (h : Single S m) (c : StrMap.Call) : SafeCall S (toAlias c) := by
  cases c with
  | add => trivial
  | update s fn =>
    simp only [toAlias, SafeCall]
    split
    · exact h.least s
    · trivial
  | del s => exact h.least s

theorem denotes_mem {S : Store} {s r} (h : denotes S s = some r) : (s, r) ∈ S.names := by
  simp only [denotes] at h
  obtain ⟨p, hp, rfl⟩ := Option.map_eq_some_iff.mp h
  have h2 := List.find?_some hp
  simp at h2
  rw [← h2]; exact List.mem_of_find?_eq_some hp

theorem Single.add {S m} (h : Single S m) (s : Str) (d n : Nat) : Single (Aliased.add S s d n) (StrMap.put m s (some (d, n))) := by
  simp only [Aliased.add]
  cases e : denotes S s with
  | some r =>
    refine ⟨h.nodup, h.inj, h.lt, fun s' => ?_⟩
    have e' : denotes (setVal S r (d, n)) s' = denotes S s' := rfl
    rw [e']
    simp only [StrMap.put]
    by_cases hs : s' = s
    · subst hs; simp [e, setVal]
    · rw [if_neg hs, ← h.val s']
      cases e2 : denotes S s' with
      | none => rfl
      | some q =>
        have : q ≠ r := by
          rintro rfl
          exact hs (h.inj _ _ _ (denotes_mem e2) (denotes_mem e))
        simp [setVal, this]
  | none =>
    have hno : ∀ r, (s, r) ∉ S.names := by
      intro r hr
      rw [(denotes_iff h.nodup).mpr hr] at e; cases e
    refine ⟨?_, ?_, ?_, ?_⟩
    · simp only [List.map_cons, List.nodup_cons]
      refine ⟨?_, h.nodup⟩
      rw [List.mem_map]
      rintro ⟨⟨x, r⟩, hp, rfl⟩
      exact hno r hp
    · intro s1 s2 r h1 h2
      rcases List.mem_cons.mp h1 with e1 | e1 <;> rcases List.mem_cons.mp h2 with e2 | e2
      · rw [Prod.mk.injEq] at e1 e2; rw [e1.1, e2.1]
      · rw [Prod.mk.injEq] at e1; have := h.lt _ e2; simp only at this; omega
      · rw [Prod.mk.injEq] at e2; have := h.lt _ e1; simp only at this; omega
      · exact h.inj _ _ _ e1 e2
    · intro p hp
      simp only [setVal]
      rcases List.mem_cons.mp hp with e1 | e1
      · subst e1; simp
      · have := h.lt p e1; omega
    · intro s'
      simp only [StrMap.put]
      by_cases hs : s' = s
      · subst hs; simp [denotes, setVal]
      · rw [if_neg hs, ← h.val s']
        have : denotes { setVal S S.next (d, n) with names := (s, S.next) :: S.names, next := S.next + 1 } s' = denotes S s' := by
          simp only [denotes, List.find?_cons]
          rw [show (s == s') = false by simpa using Ne.symm hs]
        rw [this]
        cases e2 : denotes S s' with
        | none => rfl
        | some q =>
          have := h.lt _ (denotes_mem e2)
          simp only at this
          have : q ≠ S.next := by omega
          simp [setVal, this]

theorem Single.del {S m} (h : Single S m) (s : Str) : Single (Aliased.del S s) (StrMap.put m s none) := by
  have hsub : (S.names.filter fun p => p.1 != s).Sublist S.names := List.filter_sublist
  have hnd : ((Aliased.del S s).names.map Prod.fst).Nodup := (hsub.map _).nodup h.nodup
  refine ⟨hnd, fun a a' r h1 h2 => h.inj a a' r (hsub.subset h1) (hsub.subset h2), fun p hp => h.lt p (hsub.subset hp), fun s' => ?_⟩
  simp only [StrMap.put]
  by_cases hs : s' = s
  · subst hs
    rw [denotes_none (by simp [Aliased.del])]; simp
  · rw [if_neg hs, ← h.val s']
    have : denotes (Aliased.del S s) s' = denotes S s' := by
      cases e : denotes S s' with
      | some r =>
        rw [denotes_iff hnd]
        simp [Aliased.del, hs, denotes_mem e]
      | none =>
        apply denotes_none
        intro r hr
        have := (denotes_iff h.nodup).mpr (hsub.subset hr)
        rw [e] at this; cases this
    rw [this]; rfl

theorem Single.step {S m} (h : Single S m) (c : StrMap.Call) : Single (Aliased.step S (toAlias c)) (StrMap.step m c) := by
  cases c with
  | add s d n => exact h.add s d n
  | update s fn =>
    simp only [toAlias, Aliased.step, StrMap.step, h.look s]
    cases fn (m s) with
    | skip => exact h
    | write d n => exact h.add s d n
    | remove => exact h.del s
  | del s => exact h.del s

theorem Single.run {S m} (h : Single S m) (cs : List StrMap.Call) :
    Safe S (cs.map toAlias) ∧ Single ((cs.map toAlias).foldl Aliased.step S) (cs.foldl StrMap.step m) := by
  induction cs generalizing S m with
  | nil => exact ⟨trivial, h⟩
  | cons c cs ih =>
    obtain ⟨h1, h2⟩ := ih (h.step c)
    exact ⟨⟨h.safe c, h1⟩, h2⟩

theorem single_empty : Single Aliased.empty fun _ => none :=
  ⟨by simp [Aliased.empty], by simp [Aliased.empty], by simp [Aliased.empty], fun s => by simp [Aliased.empty, denotes]⟩

end Sid.Bpt
