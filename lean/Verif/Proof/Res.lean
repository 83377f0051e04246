import Verif.Spec.Res
import Verif.Proof.StableSort
/- The heap of resources represents a world (Spec/Res.lean), and every operation keeps it that way. -/
namespace Sid.Res
open Sid.Spec.Res Sid.StableSort

/-- the structure that represents a resource of the world -/
def nodeOf (w : World) (i : Nat) (o : Obj) : Node :=
  ⟨w.up i, w.kids i, o.attr.type, o.attr.name, o.attr.noUp, o.attr.noDown, o.attr.noIso, o.attr.prio,
    o.held + (if (w.up i).isSome then 1 else 0), o.attr.loop⟩

structure R (s : St) (w : World) : Prop where
  next : s.next = w.next
  bound : ∀ i, w.next ≤ i → w.obj i = none
  node : ∀ i, s.heap i = (w.obj i).map (nodeOf w i)
  uniq : (w.att.map (·.2)).Nodup
  ends : ∀ e ∈ w.att, w.live e.1 ∧ w.live e.2
  acyc : ∀ a b, w.Below a b → (b, a) ∉ w.att
  logNodup : s.log.Nodup
  logMem : ∀ i, i ∈ s.log ↔ i < w.next ∧ w.obj i = none

theorem World_kids_def (w : World) (r : Nat) : w.kids r = sortBy w.prio ((w.att.filter (·.1 = r)).map (·.2)) := rfl

theorem kids_mem (w : World) (r c : Nat) : c ∈ w.kids r ↔ (r, c) ∈ w.att := by
  rw [World_kids_def, (perm _ _).mem_iff]
  simp only [List.mem_map, List.mem_filter]
  constructor
  · rintro ⟨⟨a, b⟩, ⟨h1, h2⟩, rfl⟩
    simp at h2
    subst h2
    exact h1
  · intro h
    exact ⟨(r, c), ⟨h, by simp⟩, rfl⟩

theorem up_mem {w : World} (h : (w.att.map (·.2)).Nodup) (p c : Nat) : w.up c = some p ↔ (p, c) ∈ w.att := by
  unfold World.up
  constructor
  · intro hu
    simp only [Option.map_eq_some_iff] at hu
    obtain ⟨e, h1, rfl⟩ := hu
    have := List.mem_of_find?_eq_some h1
    have h2 := List.find?_some h1
    simp at h2
    subst h2
    exact this
  · intro hm
    generalize w.att = l at h hm
    induction l with
    | nil => simp at hm
    | cons e l ih =>
      simp only [List.map_cons, List.nodup_cons] at h
      rw [List.find?_cons]
      by_cases he : e.2 = c
      · simp only [he, decide_true]
        rcases List.mem_cons.mp hm with rfl | hm
        · rfl
        · exact absurd (by rw [he]; exact List.mem_map.mpr ⟨(p, c), hm, rfl⟩) h.1
      · simp only [he, decide_false]
        rcases List.mem_cons.mp hm with rfl | hm
        · simp at he
        · exact ih h.2 hm

theorem up_none {w : World} {c : Nat} : w.up c = none ↔ ∀ p, (p, c) ∉ w.att := by
  unfold World.up
  simp only [Option.map_eq_none_iff, List.find?_eq_none]
  constructor
  · intro h p hm; simpa using h _ hm
  · rintro h ⟨a, b⟩ hm
    simp only [decide_eq_true_eq]
    rintro rfl
    exact h a hm

theorem kids_nodup {w : World} (h : (w.att.map (·.2)).Nodup) (r : Nat) : (w.kids r).Nodup := by
  rw [World_kids_def, (perm _ _).nodup_iff]
  exact h.sublist (List.filter_sublist.map _)

/-- worlds with the same attachments and priorities have the same children lists -/
theorem kids_congr {w w' : World} (r : Nat) (ha : w'.att.filter (·.1 = r) = w.att.filter (·.1 = r))
    (hp : ∀ c, (r, c) ∈ w.att → w'.prio c = w.prio c) : w'.kids r = w.kids r := by
  rw [World_kids_def, World_kids_def, ha]
  refine sortBy_congr fun x hx => hp x ?_
  exact (kids_mem w r x).mp (by rw [World_kids_def, (perm _ _).mem_iff]; exact hx)

theorem below_mono {w w' : World} (h : ∀ e ∈ w'.att, e ∈ w.att) {a b : Nat} (hb : w'.Below a b) : w.Below a b := by
  induction hb with
  | refl => exact .refl
  | down _ he ih => exact .down ih (h _ he)

theorem below_trans {w : World} {a b c : Nat} (h1 : w.Below a b) (h2 : w.Below b c) : w.Below a c := by
  induction h2 with
  | refl => exact h1
  | down _ he ih => exact .down ih he

theorem below_put {w : World} {r a b : Nat} {o : Option Obj} (hb : (w.put r o).Below a b) : w.Below a b :=
  below_mono (w := w) (w' := w.put r o) (fun _ he => he) hb

/-! ### single changes -/

theorem detach_none {w : World} {c : Nat} (h : w.up c = none) : w.detach c = w := by
  have : (w.att.filter fun e => decide (e.2 ≠ c)) = w.att := by
    rw [List.filter_eq_self]
    rintro ⟨a, b⟩ hm
    simp only [ne_eq, decide_not, Bool.not_eq_eq_eq_not, Bool.not_true, decide_eq_false_iff_not]
    rintro rfl
    exact up_none.mp h a hm
  cases w
  simp only [World.detach] at this ⊢
  rw [this]

theorem detach_mem {w : World} {c : Nat} {e : Nat × Nat} : e ∈ (w.detach c).att ↔ e ∈ w.att ∧ e.2 ≠ c := by
  simp [World.detach]

theorem detach_up {w : World} (c x : Nat) : (w.detach c).up x = if x = c then none else w.up x := by
  unfold World.up World.detach
  simp only [List.find?_filter]
  by_cases h : x = c
  · subst h
    rw [if_pos rfl]
    simp only [Option.map_eq_none_iff, List.find?_eq_none]
    intro e _
    simp
  · rw [if_neg h]
    congr 1
    congr 1
    funext e
    by_cases he : e.2 = x
    · simp [he, h]
    · simp [he]

theorem detach_kids (w : World) (c r : Nat) : (w.detach c).kids r = (w.kids r).filter fun x => x ≠ c := by
  rw [World_kids_def, World_kids_def]
  have : (w.detach c).prio = w.prio := rfl
  rw [this, ← sortBy_filter]
  congr 1
  simp only [World.detach, List.filter_filter, List.filter_map]
  congr 1
  apply List.filter_congr
  intro e _
  simp [Bool.and_comm]

theorem R.live_iff {s w} (h : R s w) (i : Nat) : s.heap i = none ↔ w.obj i = none := by
  rw [h.node i]; simp

theorem R.heap {s w} (h : R s w) {i : Nat} {o : Obj} (ho : w.obj i = some o) : s.heap i = some (nodeOf w i o) := by
  rw [h.node i, ho]; rfl

theorem remove_spec {s w c} (h : R s w) (hc : w.live c) :
    ∃ s', removeFromParent s c = some s' ∧ R s' (w.detach c) := by
  obtain ⟨o, ho⟩ := Option.ne_none_iff_exists'.mp hc
  unfold removeFromParent
  rw [h.heap ho]
  simp only [nodeOf]
  cases hu : w.up c with
  | none => exact ⟨s, rfl, by rw [detach_none hu]; exact h⟩
  | some p =>
    have hm := (up_mem h.uniq p c).mp hu
    have hpl : w.live p := (h.ends _ hm).1
    obtain ⟨op, hop⟩ := Option.ne_none_iff_exists'.mp hpl
    have hpc : c ≠ p := by
      rintro rfl
      exact h.acyc c c .refl hm
    simp only [h.heap hop, St.put, if_neg hpc, h.heap ho]
    refine ⟨_, rfl, h.next, h.bound, ?_, ?_, ?_, ?_, h.logNodup, h.logMem⟩
    · intro i
      have hk : (w.detach c).kids p = (w.kids p).erase c := by
        rw [detach_kids, (kids_nodup h.uniq p).erase_eq_filter]
        apply List.filter_congr
        intro x _
        by_cases hx : x = c <;> simp [hx, bne]
      have hko : ∀ i, i ≠ p → (w.detach c).kids i = w.kids i := by
        intro i hi
        rw [detach_kids, List.filter_eq_self]
        intro x hx
        have hxm := (kids_mem w i x).mp hx
        simp only [ne_eq, decide_not, Bool.not_eq_eq_eq_not, Bool.not_true, decide_eq_false_iff_not]
        rintro rfl
        have := (up_mem h.uniq i x).mpr hxm
        rw [hu] at this
        exact hi (Option.some.inj this).symm
      have hobj : (w.detach c).obj = w.obj := rfl
      by_cases hic : i = c
      · subst hic
        simp only [if_true, hobj, ho, Option.map_some, nodeOf, detach_up, hu, hko i hpc]
        simp
      · by_cases hip : i = p
        · subst hip
          simp only [if_neg (Ne.symm hpc), if_true, hobj, hop, Option.map_some, nodeOf, detach_up, hk,
            if_neg (Ne.symm hpc)]
        · simp only [if_neg hic, if_neg hip, hobj, h.node i]
          cases w.obj i with
          | none => rfl
          | some oi => simp only [Option.map_some, nodeOf, detach_up, if_neg hic, hko i hip]
    · exact h.uniq.sublist (List.filter_sublist.map _)
    · intro e he
      exact h.ends e (detach_mem.mp he).1
    · intro a b hb he
      exact h.acyc a b (below_mono (fun e he => (detach_mem.mp he).1) hb) (detach_mem.mp he).1

/-- attach `c` below `p` -/
def _root_.Sid.Spec.Res.World.attach (w : World) (p c : Nat) : World := { w with att := w.att ++ [(p, c)] }

theorem attach_mem {w : World} {p c : Nat} {e : Nat × Nat} : e ∈ (w.attach p c).att ↔ e ∈ w.att ∨ e = (p, c) := by
  simp [World.attach]

theorem attach_up {w : World} {p c : Nat} (h : w.up c = none) (x : Nat) :
    (w.attach p c).up x = if x = c then some p else w.up x := by
  unfold World.up World.attach at *
  rw [List.find?_append]
  by_cases hx : x = c
  · subst hx
    rw [if_pos rfl]
    simp only [Option.map_eq_none_iff] at h
    simp [h]
  · rw [if_neg hx]
    simp [Ne.symm hx]

theorem attach_kids (w : World) (p c r : Nat) :
    (w.attach p c).kids r = if r = p then ins w.prio c (w.kids r) else w.kids r := by
  rw [World_kids_def, World_kids_def]
  have : (w.attach p c).prio = w.prio := rfl
  rw [this]
  simp only [World.attach, List.filter_append]
  split
  · rename_i h
    subst h
    rw [← sortBy_append]
    simp
  · rename_i h
    simp [Ne.symm h]

theorem insPos_ins {h : Nat → Option Node} {f : Nat → Int} {c : Nat} {l : List Nat}
    (hl : ∀ x ∈ l, ∃ n, h x = some n ∧ n.prio = f x) : insPos h (f c) c l = some (ins f c l) := by
  induction l with
  | nil => rfl
  | cons d l ih =>
    obtain ⟨n, h1, h2⟩ := hl d (by simp)
    simp only [insPos, h1, ins, h2, ih fun x hx => hl x (by simp [hx])]
    split <;> rfl

theorem below_attach {w : World} {p c a b : Nat} (h : (w.attach p c).Below a b) :
    w.Below a b ∨ (w.Below a p ∧ w.Below c b) := by
  induction h with
  | refl => exact .inl .refl
  | @down x y _ he ih =>
    rcases attach_mem.mp he with he | he
    · rcases ih with ih | ⟨i1, i2⟩
      · exact .inl (.down ih he)
      · exact .inr ⟨i1, .down i2 he⟩
    · cases he
      rcases ih with ih | ⟨i1, i2⟩
      · exact .inr ⟨ih, .refl⟩
      · exact .inr ⟨i1, .refl⟩

theorem add_spec {s w c p} (h : R s w) (hc : w.live c) (hp : w.live p) (hu : w.up c = none) (hb : ¬ w.Below c p) :
    ∃ s', addToParent s c p = some s' ∧ R s' (w.attach p c) := by
  obtain ⟨o, ho⟩ := Option.ne_none_iff_exists'.mp hc
  obtain ⟨op, hop⟩ := Option.ne_none_iff_exists'.mp hp
  have hpc : p ≠ c := by rintro rfl; exact hb .refl
  have hprio : w.prio c = o.attr.prio := by simp [World.prio, ho]
  unfold addToParent
  rw [h.heap ho]
  simp only [St.put, if_neg hpc, h.heap hop]
  have hins : insPos (fun j => if j = c then some { nodeOf w c o with parent := some p, refs := (nodeOf w c o).refs + 1 } else s.heap j)
      (nodeOf w c o).prio c (nodeOf w p op).children = some (ins w.prio c (w.kids p)) := by
    show insPos _ o.attr.prio c (w.kids p) = _
    rw [← hprio]
    apply insPos_ins
    intro x hx
    by_cases hxc : x = c
    · subst hxc
      exact ⟨_, if_pos rfl, by simp [nodeOf, hprio]⟩
    · obtain ⟨ox, hox⟩ := Option.ne_none_iff_exists'.mp (h.ends _ ((kids_mem w p x).mp hx)).2
      exact ⟨_, by rw [if_neg hxc, h.heap hox], by simp [nodeOf, World.prio, hox]⟩
  rw [hins]
  refine ⟨_, rfl, h.next, h.bound, ?_, ?_, ?_, ?_, h.logNodup, h.logMem⟩
  · intro i
    have hobj : (w.attach p c).obj = w.obj := rfl
    by_cases hip : i = p
    · subst hip
      simp only [if_true, hobj, hop, Option.map_some, nodeOf, attach_up hu, attach_kids, if_neg hpc]
    · by_cases hic : i = c
      · subst hic
        simp only [if_neg hip, if_true, hobj, ho, Option.map_some, nodeOf, attach_up hu, attach_kids, hu]
        simp
      · simp only [if_neg hip, if_neg hic, hobj, h.node i]
        cases w.obj i with
        | none => rfl
        | some oi => simp only [Option.map_some, nodeOf, attach_up hu, attach_kids, if_neg hic, if_neg hip]
  · have : (w.attach p c).att.map (·.2) = w.att.map (·.2) ++ [c] := by simp [World.attach]
    rw [this, List.nodup_append]
    refine ⟨h.uniq, by simp, ?_⟩
    intro a ha b hb'
    simp at hb'
    subst hb'
    rintro rfl
    obtain ⟨⟨q, b⟩, he, rfl⟩ := List.mem_map.mp ha
    exact up_none.mp hu q he
  · intro e he
    rcases attach_mem.mp he with he | rfl
    · exact h.ends e he
    · exact ⟨hp, hc⟩
  · intro a b hab he
    rcases below_attach hab with hab | ⟨h1, h2⟩
    · rcases attach_mem.mp he with he | he
      · exact h.acyc a b hab he
      · cases he; exact hb hab
    · rcases attach_mem.mp he with he | he
      · exact hb (below_trans (.down h2 he) h1)
      · cases he; exact hb h2

/-- changing one resource's data, not the priority of an attached one -/
theorem put_spec {s w r o o'} (h : R s w) (ho : w.obj r = some o) (hp : o'.attr.prio = o.attr.prio ∨ w.up r = none) :
    R (s.put r (some (nodeOf w r o'))) (w.put r (some o')) := by
  have hk : ∀ i, (w.put r (some o')).kids i = w.kids i := by
    intro i
    refine kids_congr i rfl fun c hc => ?_
    simp only [World.prio, World.put]
    by_cases hcr : c = r
    · subst hcr
      rcases hp with hp | hp
      · simp [ho, hp]
      · exact absurd hc (up_none.mp hp i)
    · simp [hcr]
  have hu : ∀ i, (w.put r (some o')).up i = w.up i := fun i => rfl
  refine ⟨h.next, ?_, ?_, h.uniq, ?_, ?_, h.logNodup, ?_⟩
  · intro i hi
    have := h.bound i hi
    simp only [World.put]
    rw [if_neg (by rintro rfl; rw [ho] at this; cases this)]
    exact this
  · intro i
    simp only [St.put]
    by_cases hi : i = r
    · subst hi
      simp only [if_true, World.put, Option.map_some, nodeOf]
      rw [← World.put, hk, hu]
    · rw [if_neg hi, h.node i]
      show _ = (if i = r then some o' else w.obj i).map _
      rw [if_neg hi]
      cases w.obj i with
      | none => rfl
      | some oi => simp only [Option.map_some, nodeOf, hk, hu]
  · intro e he
    have := h.ends e he
    simp only [World.live, World.put] at this ⊢
    constructor
    · split <;> simp [this.1]
    · split <;> simp [this.2]
  · intro a b hb
    exact h.acyc a b (below_mono (w := w) (w' := w.put r (some o')) (fun e he => he) hb)
  · intro i
    show i ∈ s.log ↔ i < w.next ∧ (if i = r then some o' else w.obj i) = none
    rw [h.logMem i]
    by_cases hi : i = r
    · subst hi; simp [ho]
    · rw [if_neg hi]

/-- freeing a resource that is not connected to anything -/
theorem free_spec {s w r o} (h : R s w) (ho : w.obj r = some o) (hu : w.up r = none) (hc : ∀ c, (r, c) ∉ w.att) :
    R { s.put r none with log := s.log ++ [r] } (w.put r none) := by
  have hk : ∀ i, (w.put r none).kids i = w.kids i := by
    intro i
    refine kids_congr i rfl fun c hcm => ?_
    simp only [World.prio, World.put]
    rw [if_neg (by intro hcr; subst hcr; exact up_none.mp hu i (by assumption))]
  refine ⟨h.next, ?_, ?_, h.uniq, ?_, ?_, ?_, ?_⟩
  · intro i hi
    simp only [World.put]
    split
    · rfl
    · exact h.bound i hi
  · intro i
    simp only [St.put, World.put]
    by_cases hi : i = r
    · simp [hi]
    · rw [if_neg hi, if_neg hi, h.node i]
      cases w.obj i with
      | none => rfl
      | some oi =>
        simp only [Option.map_some, nodeOf]
        rw [← World.put, hk]
        rfl
  · rintro ⟨a, b⟩ he
    have := h.ends _ he
    simp only [World.live, World.put] at this ⊢
    have h1 : a ≠ r := by rintro rfl; exact hc b he
    have h2 : b ≠ r := by rintro rfl; exact up_none.mp hu a he
    simp only [h1, h2, if_false]
    exact this
  · intro a b hb
    exact h.acyc a b (below_mono (w := w) (w' := w.put r none) (fun e he => he) hb)
  · have : r ∉ s.log := fun hm => by rw [((h.logMem r).mp hm).2] at ho; cases ho
    rw [List.nodup_append]
    refine ⟨h.logNodup, by simp, ?_⟩
    intro a ha b hb
    simp at hb; subst hb
    rintro rfl
    exact this ha
  · intro i
    have hr : r < w.next := by
      by_cases hlt : r < w.next
      · exact hlt
      · rw [h.bound r (by omega)] at ho; cases ho
    simp only [World.put, List.mem_append, List.mem_singleton, h.logMem i]
    by_cases hi : i = r
    · subst hi; simp [hr]
    · simp [hi]

/-! ### destroying -/

theorem gone_mono {w : World} {S T : Nat → Prop} (h : ∀ x, S x → T x) {x : Nat} (hg : Gone w S x) : Gone w T x := by
  induction hg with
  | base hs => exact .base (h _ hs)
  | child _ he hu ih => exact .child ih he hu

theorem gone_or {w : World} {S T : Nat → Prop} {x : Nat} : Gone w (fun x => S x ∨ T x) x ↔ Gone w S x ∨ Gone w T x := by
  constructor
  · intro h
    induction h with
    | base hs => exact hs.imp .base .base
    | child _ he hu ih => exact ih.imp (fun ih => .child ih he hu) (fun ih => .child ih he hu)
  · rintro (h | h)
    · exact gone_mono (fun _ => .inl) h
    · exact gone_mono (fun _ => .inr) h

theorem gone_below {w : World} {c x : Nat} (h : Gone w (· = c) x) : w.Below c x := by
  induction h with
  | base hs => subst hs; exact .refl
  | child _ he _ ih => exact .down ih he

open Classical in
/-- what happens to a child of a destroyed resource -/
noncomputable def _root_.Sid.Spec.Res.World.orphan (w : World) (c : Nat) : World :=
  if w.unheld c then w.destroy (· = c) else w.detach c

noncomputable def loopW (w : World) (L : List Nat) : World := L.foldl World.orphan w

/-- those of `L` that go away -/
def dying (w : World) (L : List Nat) : Nat → Prop := fun c => c ∈ L ∧ w.unheld c

theorem parent_unique {s : St} {w : World} (h : R s w) {r p c : Nat} (h1 : (r, c) ∈ w.att) (h2 : (p, c) ∈ w.att) : p = r := by
  have := (up_mem h.uniq r c).mpr h1
  rw [(up_mem h.uniq p c).mpr h2] at this
  exact Option.some.inj this

theorem dying_below {w : World} {L : List Nat} {x : Nat} (hg : Gone w (dying w L) x) : ∃ c ∈ L, w.Below c x := by
  induction hg with
  | base hs => exact ⟨_, hs.1, .refl⟩
  | child _ he _ ih =>
    obtain ⟨c, h1, h2⟩ := ih
    exact ⟨c, h1, .down h2 he⟩

/-- the other children stay -/
theorem sibling_stays {s : St} {w : World} {r c : Nat} (h : R s w) {L : List Nat} (hL : ∀ c ∈ L, (r, c) ∈ w.att)
    (hc : (r, c) ∈ w.att) (hn : c ∉ L) : ¬ Gone w (dying w L) c := by
  intro hg
  cases hg with
  | base hs => exact hn hs.1
  | @child p _ hp he hu =>
    have := parent_unique h hc he
    subst this
    obtain ⟨d, h1, h2⟩ := dying_below hp
    exact h.acyc d p h2 (hL d h1)

theorem parent_stays {s : St} {w : World} {r : Nat} (h : R s w) {L : List Nat} (hL : ∀ c ∈ L, (r, c) ∈ w.att) :
    ¬ Gone w (dying w L) r := by
  intro hg
  obtain ⟨d, h1, h2⟩ := dying_below hg
  exact h.acyc d r h2 (hL d h1)

theorem dying_append {w : World} {L : List Nat} {c x : Nat} (hu : w.unheld c) :
    Gone w (dying w (L ++ [c])) x ↔ Gone w (dying w L) x ∨ Gone w (· = c) x := by
  have hd : dying w (L ++ [c]) = fun x => dying w L x ∨ x = c := by
    funext x
    simp only [dying, List.mem_append, List.mem_singleton, eq_iff_iff]
    constructor
    · rintro ⟨h1 | h1, h2⟩
      · exact .inl ⟨h1, h2⟩
      · exact .inr h1
    · rintro (⟨h1, h2⟩ | rfl)
      · exact ⟨.inl h1, h2⟩
      · exact ⟨.inr rfl, hu⟩
  rw [hd]
  exact gone_or

theorem dying_append_held {w : World} {L : List Nat} {c : Nat} (hu : ¬ w.unheld c) : dying w (L ++ [c]) = dying w L := by
  funext x
  simp only [dying, List.mem_append, List.mem_singleton, eq_iff_iff]
  constructor
  · rintro ⟨h1 | rfl, h2⟩
    · exact ⟨h1, h2⟩
    · exact absurd h2 hu
  · rintro ⟨h1, h2⟩
    exact ⟨.inl h1, h2⟩

theorem World.ext' {w w' : World} (h1 : ∀ x, w.obj x = w'.obj x) (h2 : w.att = w'.att) (h3 : w.next = w'.next) : w = w' := by
  cases w; cases w'
  simp only at h1 h2 h3
  subst h2 h3
  simp only [World.mk.injEq, and_self, and_true]
  exact funext h1

open Classical in
/-- the world after the children in `L` have been dealt with -/
noncomputable def afterW (w : World) (L : List Nat) : World :=
  { w with
    obj := fun x => if Gone w (dying w L) x then none else w.obj x
    att := w.att.filter fun e => ¬ Gone w (dying w L) e.1 ∧ ¬ Gone w (dying w L) e.2 ∧ e.2 ∉ L }

theorem afterW_att {w : World} {L : List Nat} {e : Nat × Nat} :
    e ∈ (afterW w L).att ↔ e ∈ w.att ∧ ¬ Gone w (dying w L) e.1 ∧ ¬ Gone w (dying w L) e.2 ∧ e.2 ∉ L := by
  simp only [afterW, List.mem_filter, decide_eq_true_eq]

theorem gone_after {s : St} {w : World} {r c : Nat} (h : R s w) {L : List Nat} (hL : ∀ c ∈ L, (r, c) ∈ w.att)
    (hc : (r, c) ∈ w.att) {x : Nat} (hx : ¬ Gone w (dying w L) x) :
    Gone (afterW w L) (· = c) x ↔ Gone w (· = c) x := by
  constructor
  · intro hg
    clear hx
    induction hg with
    | base hs => exact .base hs
    | child _ he hu ih =>
      refine .child ih (afterW_att.mp he).1 ?_
      obtain ⟨o, h1, h2⟩ := hu
      simp only [afterW] at h1
      split at h1
      · cases h1
      · exact ⟨o, h1, h2⟩
  · intro hg
    induction hg with
    | base hs => exact .base hs
    | @child p y hp he hu ih =>
      have hpn : ¬ Gone w (dying w L) p := fun hd => hx (.child hd he hu)
      refine .child (ih hpn) (afterW_att.mpr ⟨he, hpn, hx, ?_⟩) ?_
      · intro hm
        have := parent_unique h (hL y hm) he
        subst this
        exact h.acyc c p (gone_below hp) hc
      · obtain ⟨o, h1, h2⟩ := hu
        exact ⟨o, by simp only [afterW, if_neg hx]; exact h1, h2⟩

theorem orphan_after {s : St} {w : World} {r c : Nat} (h : R s w) {L : List Nat} (hL : ∀ c ∈ L, (r, c) ∈ w.att)
    (hc : (r, c) ∈ w.att) (hn : c ∉ L) : (afterW w L).orphan c = afterW w (L ++ [c]) := by
  have hng := sibling_stays h hL hc hn
  have huc : (afterW w L).unheld c ↔ w.unheld c := by
    unfold World.unheld afterW
    simp only [if_neg hng]
  unfold World.orphan
  by_cases hu : w.unheld c
  · rw [if_pos (huc.mpr hu)]
    have hg : ∀ x, (Gone w (dying w L) x ∨ Gone (afterW w L) (· = c) x) ↔ Gone w (dying w (L ++ [c])) x := by
      intro x
      rw [dying_append hu]
      by_cases hx : Gone w (dying w L) x
      · simp [hx]
      · rw [gone_after h hL hc hx]
    apply World.ext'
    · intro x
      simp only [World.destroy]
      by_cases h1 : Gone (afterW w L) (· = c) x
      · rw [if_pos h1]
        simp only [afterW]
        rw [if_pos ((hg x).mp (.inr h1))]
      · rw [if_neg h1]
        simp only [afterW]
        by_cases h2 : Gone w (dying w L) x
        · rw [if_pos h2, if_pos ((hg x).mp (.inl h2))]
        · rw [if_neg h2, if_neg (fun h3 => ((hg x).mpr h3).elim h2 h1)]
    · simp only [World.destroy]
      rw [show (afterW w L).att = w.att.filter (fun e => @decide _ (Classical.propDecidable
        (¬ Gone w (dying w L) e.1 ∧ ¬ Gone w (dying w L) e.2 ∧ e.2 ∉ L))) from List.filter_congr fun e _ => by
          rw [decide_eq_decide]]
      rw [show (afterW w (L ++ [c])).att = w.att.filter (fun e => @decide _ (Classical.propDecidable
        (¬ Gone w (dying w (L ++ [c])) e.1 ∧ ¬ Gone w (dying w (L ++ [c])) e.2 ∧ e.2 ∉ L ++ [c]))) from
          List.filter_congr fun e _ => by rw [decide_eq_decide]]
      rw [List.filter_filter]
      apply List.filter_congr
      rintro ⟨a, b⟩ _
      rw [Bool.eq_iff_iff]
      simp only [Bool.and_eq_true, decide_eq_true_eq, List.mem_append, List.mem_singleton, not_or, ← hg]
      constructor
      · rintro ⟨⟨h1, h2⟩, h3, h4, h5⟩
        refine ⟨⟨h3, h1⟩, ⟨h4, h2⟩, h5, ?_⟩
        rintro rfl
        exact h2 (.base rfl)
      · rintro ⟨⟨h3, h1⟩, ⟨h4, h2⟩, h5, -⟩
        exact ⟨⟨h1, h2⟩, h3, h4, h5⟩
    · rfl
  · rw [if_neg (fun h' => hu (huc.mp h'))]
    apply World.ext'
    · intro x
      simp only [World.detach, afterW]
      rw [dying_append_held hu]
    · simp only [World.detach, afterW, List.filter_filter]
      apply List.filter_congr
      rintro ⟨a, b⟩ _
      rw [dying_append_held hu, Bool.eq_iff_iff]
      simp only [Bool.and_eq_true, decide_eq_true_eq, List.mem_append, List.mem_singleton, not_or]
      constructor
      · rintro ⟨h1, h2, h3, h4⟩; exact ⟨h2, h3, h4, h1⟩
      · rintro ⟨h2, h3, h4, h1⟩; exact ⟨h1, h2, h3, h4⟩
    · rfl

theorem afterW_nil (w : World) : afterW w [] = w := by
  have hn : ∀ x, ¬ Gone w (dying w []) x := by
    intro x hg
    obtain ⟨c, hc, _⟩ := dying_below hg
    simp at hc
  apply World.ext' <;> simp [afterW, hn]

/-- dealing with the children one after the other -/
theorem loop_spec {w : World} {r : Nat} {s₀ : St} (h₀ : R s₀ w) (f : St → Nat → Option St) :
    ∀ (L K : List Nat) (s : St), (K ++ L).Nodup → (∀ c ∈ K ++ L, (r, c) ∈ w.att) → R s (afterW w K) →
    (∀ (K : List Nat) (s : St) (c : Nat), c ∈ L → (∀ c ∈ K, (r, c) ∈ w.att) → c ∉ K → R s (afterW w K) →
      ∃ s', f s c = some s' ∧ R s' ((afterW w K).orphan c)) →
    ∃ s', L.foldlM f s = some s' ∧ R s' (afterW w (K ++ L)) := by
  intro L
  induction L with
  | nil => intro K s _ _ h _; exact ⟨s, rfl, by simpa using h⟩
  | cons c L ih =>
    intro K s hnd hch h hf
    have hK : ∀ c ∈ K, (r, c) ∈ w.att := fun x hx => hch x (by simp [hx])
    have hcK : c ∉ K := fun hm => (List.nodup_append.mp hnd).2.2 c hm c (by simp) rfl
    obtain ⟨s1, h1, h2⟩ := hf K s c (by simp) hK hcK h
    rw [orphan_after h₀ hK (hch c (by simp)) hcK] at h2
    have e : K ++ c :: L = (K ++ [c]) ++ L := by simp
    obtain ⟨s', h3, h4⟩ := ih (K ++ [c]) s1 (by rw [← e]; exact hnd) (by rw [← e]; exact hch) h2
      fun K s x hx => hf K s x (by simp [hx])
    refine ⟨s', ?_, by rw [e]; exact h4⟩
    simp only [List.foldlM_cons, h1]
    exact h3

/-- all children have been dealt with; what remains is to detach and free the resource -/
theorem end_spec {s₀ s : St} {w : World} {r : Nat} (h₀ : R s₀ w) (hr : w.live r) {L : List Nat} (hL : ∀ c, c ∈ L ↔ (r, c) ∈ w.att)
    (h : R s (afterW w L)) :
    ∃ s', ((removeFromParent s r).map fun s => { s.put r none with log := s.log ++ [r] }) = some s' ∧ R s' (w.destroy (· = r)) := by
  have hrn := parent_stays h₀ (L := L) (fun c hc => (hL c).mp hc)
  have hr' : (afterW w L).live r := by
    simp only [World.live, afterW, if_neg hrn]; exact hr
  obtain ⟨s1, h1, h2⟩ := remove_spec h hr'
  rw [h1]
  refine ⟨_, rfl, ?_⟩
  obtain ⟨o, ho⟩ := Option.ne_none_iff_exists'.mp hr'
  have hfin : w.destroy (· = r) = ((afterW w L).detach r).put r none := by
    have hg : ∀ x, Gone w (· = r) x ↔ x = r ∨ Gone w (dying w L) x := by
      intro x
      constructor
      · intro hg
        induction hg with
        | base hs => exact .inl hs
        | @child p c _ he hu ih =>
          rcases ih with rfl | ih
          · exact .inr (.base ⟨(hL c).mpr he, hu⟩)
          · exact .inr (.child ih he hu)
      · rintro (rfl | hg)
        · exact .base rfl
        · induction hg with
          | base hs => exact .child (.base rfl) ((hL _).mp hs.1) hs.2
          | child _ he hu ih => exact .child ih he hu
    apply World.ext'
    · intro x
      simp only [World.destroy, World.put, World.detach, afterW]
      by_cases hx : x = r
      · rw [if_pos ((hg x).mpr (.inl hx)), if_pos hx]
      · rw [if_neg hx]
        by_cases hd : Gone w (dying w L) x
        · rw [if_pos hd, if_pos ((hg x).mpr (.inr hd))]
        · rw [if_neg hd, if_neg (fun h => ((hg x).mp h).elim hx hd)]
    · simp only [World.destroy, World.put, World.detach, afterW, List.filter_filter]
      apply List.filter_congr
      rintro ⟨a, b⟩ he
      rw [Bool.eq_iff_iff]
      simp only [Bool.and_eq_true, decide_eq_true_eq, hg, not_or]
      constructor
      · rintro ⟨⟨h1, h2⟩, h3, h4⟩
        refine ⟨h3, h2, h4, fun hm => h1 ?_⟩
        exact parent_unique h₀ ((hL b).mp hm) he
      · rintro ⟨h3, h2, h4, h5⟩
        refine ⟨⟨?_, h2⟩, h3, h4⟩
        rintro rfl
        exact h5 ((hL b).mpr he)
    · rfl
  rw [hfin]
  apply free_spec h2 (o := o) ho
  · rw [detach_up]; simp
  · intro c hc
    have := afterW_att.mp (detach_mem.mp hc).1
    exact this.2.2.2 ((hL c).mpr this.1)

/-! ### the depth of the recursion -/

def Fits (w : World) : Nat → Nat → Prop
  | 0, _ => False
  | n + 1, x => ∀ c, (x, c) ∈ w.att → Fits w n c

theorem fits_mono {w w' : World} (h : ∀ e ∈ w'.att, e ∈ w.att) : ∀ {n x}, Fits w n x → Fits w' n x := by
  intro n
  induction n with
  | zero => intro x hf; exact hf
  | succ n ih => intro x hf c hc; exact ih (hf c (h _ hc))

theorem nodup_bound : ∀ (n : Nat) (l : List Nat), l.Nodup → (∀ x ∈ l, x < n) → l.length ≤ n := by
  intro n
  induction n with
  | zero =>
    intro l _ h
    cases l with
    | nil => simp
    | cons a l => have := h a (by simp); omega
  | succ n ih =>
    intro l hn h
    have := ih (l.erase n) (hn.erase n) fun x hx => by
      have h1 := h x (List.mem_of_mem_erase hx)
      have h2 : x ≠ n := by rintro rfl; exact hn.not_mem_erase hx
      omega
    rw [List.length_erase] at this
    split at this <;> omega

theorem fits_all {s w} (h : R s w) (x : Nat) (hx : x < w.next) : Fits w (w.next + 1) x := by
  have key : ∀ (n : Nat) (l : List Nat) (x : Nat), l.Nodup → (∀ y ∈ l, y < w.next ∧ w.Below y x) → x ∈ l →
      w.next + 1 ≤ n + l.length → Fits w (n + 1) x := by
    intro n
    induction n with
    | zero =>
      intro l x hn hl _ hlen
      have := nodup_bound w.next l hn fun y hy => (hl y hy).1
      omega
    | succ n ih =>
      intro l x hn hl hx hlen c hc
      have hcl : c < w.next := by
        by_cases hlt : c < w.next
        · exact hlt
        · exact absurd (h.bound c (by omega)) (h.ends _ hc).2
      refine ih (c :: l) c (List.nodup_cons.mpr ⟨?_, hn⟩) ?_ (by simp) (by simp; omega)
      · intro hm
        exact h.acyc c x (hl c hm).2 hc
      · intro y hy
        rcases List.mem_cons.mp hy with rfl | hy
        · exact ⟨hcl, .refl⟩
        · exact ⟨(hl y hy).1, .down (hl y hy).2 hc⟩
  exact key w.next [x] x (by simp) (by simp [hx]; exact .refl) (by simp) (by simp)

/-! ### dropping references -/

theorem dropKind_nested {w : World} {r : Nat} {o : Obj} :
    dropKind (nodeOf w r o) true = if o.held = 0 then .destroy else .detach := by
  unfold dropKind nodeOf
  cases hu : w.up r with
  | none => by_cases h : o.held = 0 <;> simp [h]
  | some p => by_cases h : o.held = 0 <;> simp [h]

theorem dropKind_top {w : World} {r : Nat} {o : Obj} :
    dropKind (nodeOf w r o) false =
      if o.held = 0 then .destroy else if o.held = 1 ∧ w.up r = none then .last else .keep := by
  unfold dropKind nodeOf
  cases hu : w.up r with
  | none =>
    by_cases h : o.held = 0
    · simp [h]
    · by_cases h1 : o.held = 1
      · simp [h1]
      · have : ¬ (o.held - 1 = 0) := by omega
        simp [h, h1, this]
  | some p => by_cases h : o.held = 0 <;> simp [h]

theorem unheld_iff {w : World} {r : Nat} {o : Obj} (ho : w.obj r = some o) : w.unheld r ↔ o.held = 0 := by
  unfold World.unheld
  rw [ho]
  constructor
  · rintro ⟨o', h1, h2⟩; cases h1; exact h2
  · intro h; exact ⟨o, rfl, h⟩

theorem afterW_live {s : St} {w : World} {r c : Nat} (h : R s w) {K : List Nat} (hK : ∀ c ∈ K, (r, c) ∈ w.att)
    (hc : (r, c) ∈ w.att) (hn : c ∉ K) : (afterW w K).obj c = w.obj c := by
  simp only [afterW, if_neg (sibling_stays h hK hc hn)]

theorem destroy_spec {fuel : Nat} (ih : ∀ (s : St) (w : World) (r : Nat), R s w → w.live r → Fits w fuel r →
      ∃ s', unrefN fuel s r true = some s' ∧ R s' (w.orphan r))
    {s : St} {w : World} {r : Nat} (h : R s w) (hr : w.live r) (hf : Fits w (fuel + 1) r) :
    ∃ s', ((w.kids r).reverse.foldlM (fun s c => unrefN fuel s c true) s).bind (fun s =>
        (removeFromParent s r).map fun s => { s.put r none with log := s.log ++ [r] }) = some s' ∧
      R s' (w.destroy (· = r)) := by
  have hmem : ∀ c, c ∈ (w.kids r).reverse ↔ (r, c) ∈ w.att := fun c => by rw [List.mem_reverse, kids_mem]
  obtain ⟨s1, h1, h2⟩ := loop_spec (r := r) h (fun s c => unrefN fuel s c true) (w.kids r).reverse [] s
    (by rw [List.nil_append]; exact (List.reverse_perm _).nodup_iff.mpr (kids_nodup h.uniq r))
    (by simpa using fun c => (kids_mem w r c).mp) (by rw [afterW_nil]; exact h)
    (by
      intro K s c hc hK hn hR
      have hc' := (hmem c).mp hc
      refine ih s _ c hR ?_ (fits_mono (fun e he => (afterW_att.mp he).1) (hf c hc'))
      rw [World.live, afterW_live h hK hc' hn]
      exact (h.ends _ hc').2)
  rw [h1]
  exact end_spec h hr hmem h2

theorem nested_spec : ∀ (fuel : Nat) (s : St) (w : World) (r : Nat), R s w → w.live r → Fits w fuel r →
    ∃ s', unrefN fuel s r true = some s' ∧ R s' (w.orphan r) := by
  intro fuel
  induction fuel with
  | zero => intro s w r _ _ hf; exact absurd hf id
  | succ fuel ih =>
    intro s w r h hr hf
    obtain ⟨o, ho⟩ := Option.ne_none_iff_exists'.mp hr
    simp only [unrefN, h.heap ho, dropKind_nested]
    unfold World.orphan
    by_cases hh : o.held = 0
    · rw [if_pos hh, if_pos ((unheld_iff ho).mpr hh)]
      exact destroy_spec ih h hr hf
    · rw [if_neg hh, if_neg (fun hu => hh ((unheld_iff ho).mp hu))]
      exact remove_spec h hr

theorem live_lt {s w r} (h : R s w) (hr : w.live r) : r < w.next := by
  by_cases hlt : r < w.next
  · exact hlt
  · exact absurd (h.bound r (by omega)) hr

theorem unref_spec {s : St} {w : World} {r : Nat} (h : R s w) (hr : w.live r) :
    ∃ s', unref s r = some s' ∧ R s' (w.drop r) := by
  obtain ⟨o, ho⟩ := Option.ne_none_iff_exists'.mp hr
  have hf := fits_all h r (live_lt h hr)
  unfold unref World.drop
  simp only [unrefN, h.heap ho, dropKind_top, ho, h.next]
  have hnode : ({ nodeOf w r o with refs := (nodeOf w r o).refs - 1 } : Node) = nodeOf w r { o with held := o.held - 1 } ∨ o.held = 0 := by
    by_cases hh : o.held = 0
    · exact .inr hh
    · left
      simp only [nodeOf]
      congr 1
      omega
  by_cases hh : o.held = 0
  · simp only [hh, if_true]
    exact destroy_spec (nested_spec _) h hr hf
  · have hnode := hnode.resolve_right hh
    simp only [hh, if_false]
    have h1 := put_spec (o' := { o with held := o.held - 1 }) h ho (.inl rfl)
    by_cases hl : o.held = 1 ∧ w.up r = none
    · rw [if_pos hl]
      simp only [hl, and_self, if_true]
      rw [hnode]
      have := destroy_spec (nested_spec _) h1 (r := r) (by simp [World.live, World.put]) (fits_mono (w := w) (w' := w.put r (some { o with held := o.held - 1 })) (fun e he => he) hf)
      rw [show (w.put r (some { o with held := o.held - 1 })).kids r = (nodeOf w r o).children from ?_] at this
      · simpa [hl.1] using this
      · have := h1.heap (i := r) (o := { o with held := o.held - 1 }) (by simp [World.put])
        simp only [St.put, if_true, Option.some.injEq, nodeOf] at this
        simp only [Node.mk.injEq] at this
        exact this.2.1.symm
    · rw [if_neg hl]
      simp only [hl, if_false]
      exact ⟨_, rfl, by rw [hnode]; exact h1⟩

/-! ### all operations -/

theorem createBegin_spec {s w p a} (h : R s w) (hp : ∀ x, p = some x → w.live x) :
    ∃ s', createBegin s p a = some s' ∧ R s' (w.step (.create p a)).1 := by
  have hn : w.obj w.next = none := h.bound _ (Nat.le_refl _)
  have hno : ∀ e ∈ w.att, e.1 ≠ w.next ∧ e.2 ≠ w.next := by
    intro e he
    have := h.ends e he
    exact ⟨fun h1 => this.1 (by rw [h1]; exact hn), fun h1 => this.2 (by rw [h1]; exact hn)⟩
  have hu : w.up w.next = none := up_none.mpr fun p hm => (hno _ hm).2 rfl
  have hk0 : w.kids w.next = [] := by
    rw [List.eq_nil_iff_forall_not_mem]
    intro c hc
    exact (hno _ ((kids_mem w _ c).mp hc)).1 rfl
  let w1 : World := { w.put w.next (some ⟨a, 1⟩) with next := w.next + 1 }
  have hk : ∀ i, w1.kids i = w.kids i := by
    intro i
    refine kids_congr i rfl fun c hc => ?_
    have : c ≠ w.next := (hno _ hc).2
    simp [World.prio, w1, World.put, this]
  have h1 : R { s.put s.next (some ⟨none, [], a.type, a.name, a.noUp, a.noDown, a.noIso, a.prio, 1, a.loop⟩) with
      next := s.next + 1 } w1 := by
    refine ⟨by simp [w1, h.next], ?_, ?_, h.uniq, ?_, ?_, h.logNodup, ?_⟩
    · intro i hi
      simp only [w1, World.put] at hi ⊢
      rw [if_neg (by omega)]
      exact h.bound i (by omega)
    · intro i
      simp only [St.put, h.next]
      by_cases hi : i = w.next
      · subst hi
        rw [if_pos rfl]
        have e : w1.obj w.next = some ⟨a, 1⟩ := by simp [w1, World.put]
        rw [e]
        simp only [Option.map_some, nodeOf]
        rw [hk, hk0, show w1.up w.next = none from hu]
        rfl
      · rw [if_neg hi, h.node i, show w1.obj i = w.obj i by simp [w1, World.put, hi]]
        cases w.obj i with
        | none => rfl
        | some oi => simp only [Option.map_some, nodeOf]; rw [hk]; rfl
    · intro e he
      obtain ⟨e1, e2⟩ := hno e he
      have := h.ends e he
      simp only [World.live, w1, World.put, if_neg e1, if_neg e2]
      exact this
    · intro x y hb
      exact h.acyc x y (below_mono (w := w) (w' := w1) (fun e he => he) hb)
    · intro i
      show i ∈ s.log ↔ i < w.next + 1 ∧ (if i = w.next then some _ else w.obj i) = none
      rw [h.logMem i]
      by_cases hi : i = w.next
      · subst hi; simp
      · rw [if_neg hi]
        constructor
        · rintro ⟨h1, h2⟩; exact ⟨by omega, h2⟩
        · rintro ⟨h1, h2⟩; exact ⟨by omega, h2⟩
  unfold createBegin
  cases p with
  | none =>
    refine ⟨_, rfl, ?_⟩
    rw [World.ext' (w := (w.step (.create none a)).1) (w' := w1) (fun _ => rfl) (by simp [World.step, w1, World.put]) rfl]
    exact h1
  | some x =>
    simp only
    have hx : w.live x := hp x rfl
    have hxn : x ≠ w.next := fun e => hx (by rw [e]; exact hn)
    have hb : ¬ w1.Below w.next x := by
      intro hb
      cases hb with
      | refl => exact hxn rfl
      | down hq he =>
        have key : ∀ y, w1.Below w.next y → y = w.next := by
          intro y hy
          induction hy with
          | refl => rfl
          | down _ he ih => subst ih; exact absurd rfl (hno _ he).1
        have := key _ hq
        subst this
        exact (hno _ he).1 rfl
    rw [h.next]
    obtain ⟨s', e1, e2⟩ := add_spec (c := w.next) (p := x) h1 (by simp [World.live, w1, World.put])
      (by simp only [World.live, w1, World.put, if_neg hxn]; exact hx) hu hb
    rw [h.next] at e1
    exact ⟨s', e1, e2⟩

theorem createFail_spec {s w r} (h : R s w) (hok : w.Ok (.failed r)) :
    ∃ s', createFail s r = some s' ∧ R s' (w.destroy (· = r)) := by
  obtain ⟨⟨o, ho, -⟩, hch⟩ := hok
  have hr : w.live r := by simp [World.live, ho]
  unfold createFail
  simp only [h.heap ho]
  show ∃ s', ((w.kids r).reverse.foldlM (fun s c => unref s c) s).bind _ = some s' ∧ _
  have hmem : ∀ c, c ∈ (w.kids r).reverse ↔ (r, c) ∈ w.att := fun c => by rw [List.mem_reverse, kids_mem]
  obtain ⟨s1, h1, h2⟩ := loop_spec (r := r) h (fun s c => unref s c) (w.kids r).reverse [] s
    (by rw [List.nil_append]; exact (List.reverse_perm _).nodup_iff.mpr (kids_nodup h.uniq r))
    (by simpa using fun c => (kids_mem w r c).mp) (by rw [afterW_nil]; exact h)
    (by
      intro K s c hc hK hn hR
      have hc' := (hmem c).mp hc
      obtain ⟨oc, hoc, hheld⟩ := hch c hc'
      have hoc' : (afterW w K).obj c = some oc := by rw [afterW_live h hK hc' hn]; exact hoc
      obtain ⟨s', e1, e2⟩ := unref_spec hR (r := c) (by simp [World.live, hoc'])
      refine ⟨s', e1, ?_⟩
      unfold World.orphan
      rw [if_pos ⟨oc, hoc', hheld⟩]
      unfold World.drop at e2
      simpa [hoc', hheld] using e2)
  rw [h1]
  exact end_spec h hr hmem h2

theorem reparent_spec {w : World} {r p : Nat} {s₀ : St} (h₀ : R s₀ w) (hrp : (p, r) ∈ w.att) :
    ∀ (L K : List Nat) (s : St), (K ++ L).Nodup → (∀ c ∈ K ++ L, (r, c) ∈ w.att) →
    R s { w with att := w.att.filter (fun e => e.2 ∉ K) ++ K.map fun c => (p, c) } →
    ∃ s', L.foldlM (fun s c => (removeFromParent s c).bind fun s => addToParent s c p) s = some s' ∧
      R s' { w with att := w.att.filter (fun e => e.2 ∉ K ++ L) ++ (K ++ L).map fun c => (p, c) } := by
  intro L
  induction L with
  | nil => intro K s _ _ h; exact ⟨s, rfl, by simpa using h⟩
  | cons c L ih =>
    intro K s hnd hch h
    have hrc : (r, c) ∈ w.att := hch c (by simp)
    have hcK : c ∉ K := fun hm => (List.nodup_append.mp hnd).2.2 c hm c (by simp) rfl
    have hrr : ∀ x ∈ K, x ≠ r := by
      rintro x hx rfl
      exact h₀.acyc x x .refl (hch x (by simp [hx]))
    generalize hw : ({ w with att := w.att.filter (fun e => e.2 ∉ K) ++ K.map fun c => (p, c) } : World) = wK at h
    have hKr : (p, r) ∈ wK.att := by
      subst hw
      simp only [List.mem_append, List.mem_filter, hrp, true_and, decide_eq_true_eq]
      exact .inl fun hm => hrr r hm rfl
    have hKc : (r, c) ∈ wK.att := by
      subst hw
      simp only [List.mem_append, List.mem_filter, hrc, true_and, decide_eq_true_eq]
      exact .inl hcK
    obtain ⟨s1, e1, e2⟩ := remove_spec h (h.ends _ hKc).2
    have hb : ¬ (wK.detach c).Below c p := by
      intro hb
      have := below_mono (w := wK) (fun e he => (detach_mem.mp he).1) hb
      exact h.acyc c r (.down this hKr) hKc
    obtain ⟨s2, e3, e4⟩ := add_spec e2 (c := c) (p := p) (h.ends _ hKc).2 (h.ends _ hKr).1 (by rw [detach_up]; simp) hb
    have e : K ++ c :: L = (K ++ [c]) ++ L := by simp
    have hwe : (wK.detach c).attach p c =
        { w with att := w.att.filter (fun e => e.2 ∉ K ++ [c]) ++ (K ++ [c]).map fun c => (p, c) } := by
      subst hw
      simp only [World.attach, World.detach, List.filter_append, List.filter_filter, List.map_append, List.map_cons,
        List.map_nil, List.append_assoc]
      congr 1
      congr 1
      · apply List.filter_congr
        intro e _
        rw [Bool.eq_iff_iff]
        simp only [Bool.and_eq_true, decide_eq_true_eq, List.mem_append, List.mem_singleton, not_or]
        exact ⟨fun ⟨a, b⟩ => ⟨b, a⟩, fun ⟨a, b⟩ => ⟨b, a⟩⟩
      · congr 1
        rw [List.filter_eq_self]
        intro e he
        obtain ⟨x, hx, rfl⟩ := List.mem_map.mp he
        simp only [ne_eq, decide_not, Bool.not_eq_eq_eq_not, Bool.not_true, decide_eq_false_iff_not]
        rintro rfl
        exact hcK hx
    rw [hwe] at e4
    obtain ⟨s3, e5, e6⟩ := ih (K ++ [c]) s2 (by rw [← e]; exact hnd) (by rw [← e]; exact hch) e4
    refine ⟨s3, ?_, by rw [e]; exact e6⟩
    simp only [List.foldlM_cons, e1, Option.bind_some, e3]
    exact e5

theorem step_spec {s w op} (h : R s w) (hok : w.Ok op) :
    ∃ s', step s op = some (s', (w.step op).2) ∧ R s' (w.step op).1 := by
  cases op with
  | create p a =>
    obtain ⟨s', e1, e2⟩ := createBegin_spec (a := a) h hok
    exact ⟨s', by simp [step, e1, World.step], e2⟩
  | created r =>
    obtain ⟨o, ho, hheld⟩ := hok
    refine ⟨s.put r (some { nodeOf w r o with refs := (nodeOf w r o).refs - 1 }),
      by simp [step, createDone, h.heap ho, World.step], ?_⟩
    have := put_spec (o' := { o with held := o.held - 1 }) h ho (.inl rfl)
    rw [show ({ nodeOf w r o with refs := (nodeOf w r o).refs - 1 } : Node) = nodeOf w r { o with held := o.held - 1 } by
      simp only [nodeOf]; congr 1; omega]
    simpa only [World.step, ho] using this
  | failed r =>
    obtain ⟨s', e1, e2⟩ := createFail_spec h hok
    exact ⟨s', by simp [step, e1, World.step], e2⟩
  | ref r =>
    obtain ⟨o, ho⟩ := Option.ne_none_iff_exists'.mp hok
    refine ⟨s.put r (some { nodeOf w r o with refs := (nodeOf w r o).refs + 1 }),
      by simp [step, addRef, h.heap ho, World.step], ?_⟩
    have := put_spec (o' := { o with held := o.held + 1 }) h ho (.inl rfl)
    rw [show ({ nodeOf w r o with refs := (nodeOf w r o).refs + 1 } : Node) = nodeOf w r { o with held := o.held + 1 } by
      simp only [nodeOf]; congr 1; omega]
    simpa only [World.step, ho] using this
  | unref r =>
    obtain ⟨s', e1, e2⟩ := unref_spec h hok
    exact ⟨s', by simp [step, e1, World.step], e2⟩
  | setPrio r prio =>
    obtain ⟨o, ho⟩ := Option.ne_none_iff_exists'.mp hok
    simp only [step, setPrio, h.heap ho, World.step, ho]
    by_cases hpe : prio = o.attr.prio
    · rw [if_pos (by simpa [nodeOf] using hpe)]
      refine ⟨s, rfl, ?_⟩
      cases hu : w.up r with
      | none => exact h
      | some p => simp only [hpe, if_true]; exact h
    · rw [if_neg (by simpa [nodeOf] using hpe)]
      show ∃ s', Option.map _ (match w.up r with | none => some s | some p => _) = _ ∧ _
      cases hu : w.up r with
      | none => exact ⟨s, rfl, h⟩
      | some p =>
        simp only [hpe, if_false]
        have hm := (up_mem h.uniq p r).mp hu
        obtain ⟨s1, e1, e2⟩ := remove_spec h (c := r) hok
        rw [e1]
        simp only [Option.bind_some, e2.heap (i := r) (o := o) ho]
        have hud : (w.detach r).up r = none := by rw [detach_up]; simp
        have e3 := put_spec (o' := { o with attr := { o.attr with prio } }) e2 ho (.inr hud)
        rw [show nodeOf (w.detach r) r { o with attr := { o.attr with prio } } =
          { nodeOf (w.detach r) r o with prio := prio } from rfl] at e3
        have hb : ¬ ((w.detach r).put r (some { o with attr := { o.attr with prio } })).Below r p := by
          intro hb
          exact h.acyc r p (below_mono (w := w) (fun e he => (detach_mem.mp he).1) (below_put hb)) hm
        have hpr : p ≠ r := by rintro rfl; exact h.acyc p p .refl hm
        obtain ⟨s2, e4, e5⟩ := add_spec e3 (c := r) (p := p) (by simp [World.live, World.put])
          (by simp only [World.live, World.put, if_neg hpr]; exact (h.ends _ hm).1) hud hb
        rw [e4]
        exact ⟨s2, rfl, e5⟩
  | addChild p c u d i =>
    obtain ⟨hp, hc, hb⟩ := hok
    obtain ⟨o, ho⟩ := Option.ne_none_iff_exists'.mp hc
    simp only [step, addChild, h.heap ho, World.step, ho]
    show ∃ s', (if (w.up c).isSome = true then _ else _) = _ ∧ _
    cases hu : w.up c with
    | some q => exact ⟨s, by simp, by simpa using h⟩
    | none =>
      simp only [Option.isSome_none, Bool.false_eq_true, if_false, ne_eq, not_true_eq_false]
      have e3 := put_spec (o' := { o with attr := { o.attr with noUp := u, noDown := d, noIso := i } }) h ho (.inl rfl)
      obtain ⟨s2, e4, e5⟩ := add_spec e3 (c := c) (p := p) (by simp [World.live, World.put])
        (by
          simp only [World.live, World.put]
          split
          · simp
          · exact hp) hu
        (fun h' => hb hu (below_put h'))
      rw [show nodeOf w c { o with attr := { o.attr with noUp := u, noDown := d, noIso := i } } =
          { nodeOf w c o with noUp := u, noDown := d, noIso := i } from rfl] at e4
      rw [e4]
      exact ⟨s2, rfl, e5⟩
  | isolate r subtree =>
    obtain ⟨o, ho⟩ := Option.ne_none_iff_exists'.mp hok
    simp only [step, isolate, h.heap ho, World.step, ho]
    simp only [show (nodeOf w r o).parent = w.up r from rfl]
    cases hu : w.up r with
    | none => exact ⟨s, rfl, h⟩
    | some p =>
      have hm := (up_mem h.uniq p r).mp hu
      simp only
      show ∃ s', (if (o.attr.loop || o.attr.noIso) = true then _ else _) = _ ∧ _
      by_cases hl : (o.attr.loop || o.attr.noIso) = true
      · simp only [hl, if_true]; exact ⟨s, rfl, h⟩
      · simp only [hl, if_false]
        by_cases hst : subtree = true
        · simp only [hst, if_true]
          obtain ⟨s1, e1, e2⟩ := remove_spec h (c := r) hok
          exact ⟨s1, by rw [e1]; rfl, e2⟩
        · simp only [hst, if_false]
          have hw0 : ({ w with att := w.att.filter (fun e => e.2 ∉ ([] : List Nat)) ++ ([] : List Nat).map fun c => (p, c) } : World) = w :=
            World.ext' (fun _ => rfl) (by rw [List.map_nil, List.append_nil, List.filter_eq_self]; simp) rfl
          obtain ⟨s1, e1, e2⟩ := reparent_spec h hm (w.kids r) [] s (by simpa using kids_nodup h.uniq r)
            (by simpa using fun c => (kids_mem w r c).mp) (by rw [hw0]; exact h)
          simp only [List.nil_append] at e2
          obtain ⟨s2, e3, e4⟩ := remove_spec e2 (c := r) hok
          refine ⟨s2, ?_, ?_⟩
          · show Option.bind ((w.kids r).foldlM _ s) _ = _
            rw [e1]
            simp [e3]
          · have : ({ w with att := w.att.filter (fun e => e.1 ≠ r ∧ e.2 ≠ r) ++ (w.kids r).map fun c => (p, c) } : World) =
                World.detach { w with att := w.att.filter (fun e => e.2 ∉ w.kids r) ++ (w.kids r).map fun c => (p, c) } r := by
              simp only [World.detach, List.filter_append, List.filter_filter]
              congr 1
              congr 1
              · apply List.filter_congr
                rintro ⟨a, b⟩ he
                rw [Bool.eq_iff_iff]
                simp only [Bool.and_eq_true, decide_eq_true_eq, kids_mem]
                constructor
                · rintro ⟨h1, h2⟩
                  exact ⟨h2, fun h3 => h1 (parent_unique h h3 he)⟩
                · rintro ⟨h2, h1⟩
                  exact ⟨fun h3 => h1 (by rw [← h3]; exact he), h2⟩
              · symm
                rw [List.filter_eq_self]
                intro e he
                obtain ⟨x, hx, rfl⟩ := List.mem_map.mp he
                simp only [ne_eq, decide_not, Bool.not_eq_eq_eq_not, Bool.not_true, decide_eq_false_iff_not]
                rintro rfl
                exact h.acyc x x .refl ((kids_mem w x x).mp hx)
            rw [this]
            exact e4

theorem init_R : R init empty := by
  refine ⟨rfl, fun _ _ => rfl, fun _ => rfl, by simp [empty], by simp [empty], by simp [empty], by simp [init], ?_⟩
  intro i
  simp [init, empty]

theorem run_spec {w ops w' es} (hh : History w ops w' es) : ∀ {s}, R s w → ∃ s', run s ops = some (s', es) ∧ R s' w' := by
  induction hh with
  | nil => intro s h; exact ⟨s, rfl, h⟩
  | cons hok _ ih =>
    intro s h
    obtain ⟨s1, e1, e2⟩ := step_spec h hok
    obtain ⟨s2, e3, e4⟩ := ih e2
    exact ⟨s2, by simp [run, e1, e3], e4⟩

end Sid.Res
