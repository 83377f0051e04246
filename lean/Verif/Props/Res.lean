import Verif.Proof.ResSearch
/-
C24, C25, C26: resource trees.  C66: priorities.  C67: going back and forth among children.  C68: asking whether a given
resource is found.
-/
namespace Sid.Props
open Sid.Res Sid.Spec.Res

private theorem reached {ops w es} (h : History empty ops w es) : ∃ s, run init ops = some (s, es) ∧ R s w := run_spec h init_R

/-! ### C25 -/

/-- C25.  For every history of calls that keeps to the rules: no call touches a destroyed resource (`run` is defined) and
    each returns what the specification says; the resources that exist are those that the specification says, each with
    the parent, children and number of references the specification says; and each resource that existed and does not any
    more has been destroyed exactly once. -/
theorem C25_resources_live_as_specified {ops w es} (h : History empty ops w es) :
    ∃ s, run init ops = some (s, es) ∧
      (∀ i, s.heap i ≠ none ↔ w.live i) ∧
      (∀ i n o, s.heap i = some n → w.obj i = some o →
        n.parent = w.up i ∧ n.children = w.kids i ∧ n.refs = o.held + (if w.up i = none then 0 else 1) ∧
        n.type = o.attr.type ∧ n.name = o.attr.name ∧ n.prio = o.attr.prio) ∧
      s.log.Nodup ∧ (∀ i, i ∈ s.log ↔ i < s.next ∧ ¬ w.live i) := by
  obtain ⟨s, e, r⟩ := reached h
  refine ⟨s, e, ?_, ?_, r.logNodup, ?_⟩
  · intro i
    rw [r.node i, World.live]
    cases w.obj i <;> simp
  · intro i n o hn ho
    rw [r.node i, ho] at hn
    cases hn
    refine ⟨rfl, rfl, ?_, rfl, rfl, rfl⟩
    show o.held + _ = _
    cases w.up i <;> rfl
  · intro i
    rw [r.logMem, r.next, World.live]
    cases w.obj i <;> simp


private theorem gone_put {w : World} {r : Nat} {o o'} (ho : w.obj r = some o) {x : Nat} :
    Gone (w.put r (some o')) (· = r) x ↔ Gone w (· = r) x := by
  constructor
  · intro h
    induction h with
    | base h => exact .base h
    | @child p c _ he hu ih =>
      by_cases hc : c = r
      · exact .base hc
      · refine .child ih he ?_
        obtain ⟨oc, h1, h2⟩ := hu
        exact ⟨oc, by simpa [World.put, hc] using h1, h2⟩
  · intro h
    induction h with
    | base h => exact .base h
    | @child p c _ he hu ih =>
      by_cases hc : c = r
      · exact .base hc
      · refine .child ih he ?_
        obtain ⟨oc, h1, h2⟩ := hu
        exact ⟨oc, by simpa [World.put, hc] using h1, h2⟩

/-- C25, what goes when a reference is dropped: nothing if others are left; if it was the last one, the resource and,
    repeatedly, those children that only their parents refer to.  Each of them is destroyed once, in this call. -/
theorem C25_destroyed_with_the_last_reference {ops w es r o} (h : History empty ops w es) (hr : w.obj r = some o) :
    ∃ s s', run init ops = some (s, es) ∧ step s (.unref r) = some (s', .ok ()) ∧ s'.log.Nodup ∧
      (∀ x, x ∈ s.log → x ∈ s'.log) ∧
      (∀ x, (x ∈ s'.log ∧ x ∉ s.log) ↔ w.live x ∧ o.held + (if w.up r = none then 0 else 1) ≤ 1 ∧ Gone w (· = r) x) := by
  obtain ⟨s, e, R1⟩ := reached h
  have hl : w.live r := by simp [World.live, hr]
  obtain ⟨s', e', R2⟩ := step_spec (op := .unref r) R1 hl
  have hn : (w.step (.unref r)).1.next = w.next := by
    simp only [World.step, World.drop, hr]
    split
    · rfl
    · split <;> rfl
  have hobj : ∀ x, (w.step (.unref r)).1.obj x = none ↔
      w.obj x = none ∨ (o.held + (if w.up r = none then 0 else 1) ≤ 1 ∧ Gone w (· = r) x) := by
    intro x
    simp only [World.step, World.drop, hr]
    split
    · rename_i h0
      have : o.held + (if w.up r = none then 0 else 1) ≤ 1 := by split <;> omega
      simp only [World.destroy, this, true_and]
      by_cases hg : Gone w (· = r) x
      · simp [hg]
      · simp [hg]
    · rename_i h0
      split
      · rename_i h1
        have : o.held + (if w.up r = none then 0 else 1) ≤ 1 := by rw [if_pos h1.2]; omega
        simp only [World.destroy, this, true_and]
        rw [gone_put hr]
        by_cases hg : Gone w (· = r) x
        · simp [hg]
        · have hx : x ≠ r := fun hx => hg (.base hx)
          simp [hg, World.put, hx]
      · rename_i h1
        have : ¬ o.held + (if w.up r = none then 0 else 1) ≤ 1 := by
          split
          · rename_i h2; simp [h2] at h1; omega
          · omega
        simp only [this, false_and, or_false, World.put]
        by_cases hx : x = r
        · simp [hx, hr]
        · simp [hx]
  refine ⟨s, s', e, e', R2.logNodup, ?_, ?_⟩
  · intro x hx
    rw [R1.logMem] at hx
    rw [R2.logMem, hn, hobj]
    exact ⟨hx.1, .inl hx.2⟩
  · intro x
    rw [R2.logMem, R1.logMem, hn, hobj, World.live]
    constructor
    · rintro ⟨⟨h1, h2⟩, h3⟩
      have h4 : w.obj x ≠ none := fun h4 => h3 ⟨h1, h4⟩
      exact ⟨h4, h2.resolve_left h4⟩
    · rintro ⟨h1, h2⟩
      exact ⟨⟨live_lt R1 h1, .inr h2⟩, fun h3 => h1 h3.2⟩

private def a0 : Attr := ⟨1, [1], false, false, false, 0, false⟩

/-- a parent 0 with two children: 1 of priority 5, 2 of priority 3, of which 2 is referred to by somebody else -/
def sampleOps : List Op :=
  [.create none a0, .created 0, .create (some 0) { a0 with prio := 5 }, .created 1, .create (some 0) { a0 with prio := 3 },
   .created 2, .ref 2]

private def sampleWorld : World :=
  ⟨fun i => if i = 2 then some ⟨{ a0 with prio := 3 }, 1⟩ else if i = 1 then some ⟨{ a0 with prio := 5 }, 0⟩
    else if i = 0 then some ⟨a0, 0⟩ else none, [(0, 1), (0, 2)], 3⟩

private theorem World_eq {w w' : World} (h1 : ∀ i, w.obj i = w'.obj i) (h2 : w.att = w'.att) (h3 : w.next = w'.next) : w = w' := by
  cases w; cases w'; simp only [World.mk.injEq]; exact ⟨funext h1, h2, h3⟩

theorem sample_history : History empty sampleOps sampleWorld (List.replicate 7 (.ok ())) := by
  have key : ∃ w, History empty sampleOps w (List.replicate 7 (.ok ())) ∧ w = sampleWorld := by
    refine ⟨_, .cons ?_ (.cons ?_ (.cons ?_ (.cons ?_ (.cons ?_ (.cons ?_ (.cons ?_ .nil)))))), ?_⟩
    case refine_8 =>
      refine World_eq (fun i => ?_) rfl rfl
      simp only [World.step, World.put, empty, sampleWorld]
      by_cases h2 : i = 2
      · simp [h2]
      · by_cases h1 : i = 1
        · simp [h1]
        · by_cases h0 : i = 0
          · simp [h0]
          · simp [h0, h1, h2]
    all_goals simp [World.Ok, World.step, World.live, World.put, empty]
  obtain ⟨w, h, rfl⟩ := key
  exact h

/-- the hypotheses of both theorems are met; dropping the parent destroys it and child 1, child 2 stays -/
example : History empty sampleOps sampleWorld (List.replicate 7 (.ok ())) ∧ sampleWorld.obj 0 = some ⟨a0, 0⟩ ∧
    Gone sampleWorld (· = 0) 1 ∧ ¬ Gone sampleWorld (· = 0) 2 := by
  refine ⟨sample_history, rfl, .child (p := 0) (.base rfl) (by decide) ⟨_, rfl, rfl⟩, ?_⟩
  intro h
  cases h with
  | base h => cases h
  | child _ _ h =>
    obtain ⟨o, h1, h2⟩ := h
    cases h1
    cases h2

/-- what happens without the rule that nothing is attached below itself: `sid_res_add_child` does not check, the two
    resources then own each other, and after dropping both nothing was destroyed -/
theorem C25_cycle_counterexample :
    let ops := [Op.create none a0, .created 0, .create none a0, .created 1, .addChild 0 1 false false false,
      .addChild 1 0 false false false]
    ∃ s, run init ops = some (s, List.replicate 6 (.ok ())) ∧ s.log = [] ∧
      (s.heap 0).map (·.parent) = some (some 1) ∧ (s.heap 1).map (·.parent) = some (some 0) ∧
      unref s 0 = none :=
  ⟨_, rfl, rfl, rfl, rfl, rfl⟩

/-- what happens without the rule for failing initializers: a child to which somebody else refers keeps a pointer to the
    destroyed parent, and dropping it is a use after free -/
theorem C25_failed_creation_counterexample :
    let ops := [Op.create none a0, .create (some 0) a0, .created 1, .ref 1, .failed 0]
    ∃ s, run init ops = some (s, List.replicate 5 (.ok ())) ∧ s.heap 0 = none ∧
      (s.heap 1).map (·.parent) = some (some 0) ∧ unref s 1 = none :=
  ⟨_, rfl, rfl, rfl, rfl⟩

/-! ### C24 -/

/-- C24.  After every history, the children of a resource are what is attached to it, each once, in order of priority,
    children of equal priority in order of attachment. -/
theorem C24_children_in_order {ops w es} (h : History empty ops w es) :
    ∃ s, run init ops = some (s, es) ∧ ∀ r n, s.heap r = some n →
      n.children.Nodup ∧ (∀ c, c ∈ n.children ↔ (r, c) ∈ w.att) ∧
      n.children.Pairwise (fun a b => w.prio a ≤ w.prio b) ∧
      ∀ k, n.children.filter (fun c => w.prio c = k) =
        ((w.att.filter (·.1 = r)).map (·.2)).filter fun c => w.prio c = k := by
  obtain ⟨s, e, R1⟩ := reached h
  refine ⟨s, e, fun r n hn => ?_⟩
  rw [R1.node] at hn
  obtain ⟨o, ho, rfl⟩ := Option.map_eq_some_iff.mp hn
  exact ⟨kids_nodup R1.uniq r, fun c => kids_mem w r c, Sid.StableSort.sorted _ _, fun k => Sid.StableSort.filter_key _ _ k⟩

/-- C24, iterating.  From the start, an iterator returns the children in their order, except those that must not be
    entered; then NULL. -/
theorem C24_iteration_in_order {ops w es r} (h : History empty ops w es) (hr : w.live r) :
    ∃ s n, run init ops = some (s, es) ∧ s.heap r = some n ∧
      nextAll s.heap n.children (n.children.length + 1) (iterReset n.children r) = some (n.children.filter w.shown) := by
  obtain ⟨s, e, R1⟩ := reached h
  obtain ⟨o, ho⟩ := Option.ne_none_iff_exists'.mp hr
  refine ⟨s, _, e, R1.heap ho, ?_⟩
  have hv : ∀ c, visible s.heap c = w.shown c := by
    intro c
    unfold visible World.shown
    rw [R1.node]
    cases w.obj c <;> rfl
  have := nextAll_spec (h := s.heap) ((w.kids r).length + 1) [] (w.kids r) (iterReset (w.kids r) r)
    (kids_nodup R1.uniq r) (by
      intro c hc
      have hl := (R1.ends _ ((kids_mem w r c).mp hc)).2
      rw [R1.node]
      simpa [World.live] using hl) rfl (by omega)
  rw [funext hv] at this
  exact this

example : History empty sampleOps sampleWorld (List.replicate 7 (.ok ())) ∧ sampleWorld.live 0 ∧ sampleWorld.kids 0 = [2, 1] := by
  refine ⟨sample_history, by simp [World.live, sampleWorld], ?_⟩
  unfold World.kids
  simp [sampleWorld, World.prio, a0, List.mergeSort, List.MergeSort.Internal.splitInTwo]

/-! ### C66 -/

/-- C66.  After setting the priority of a resource that has a parent, its priority is the one set, and it still has that
    parent. -/
theorem C66_priority_set_partial {ops w es r p prio} (h : History empty ops w es) (hr : w.live r) (hp : w.up r = some p) :
    ∃ s s' n, run init ops = some (s, es) ∧ step s (.setPrio r prio) = some (s', .ok ()) ∧ s'.heap r = some n ∧
      n.prio = prio ∧ n.parent = some p := by
  obtain ⟨s, e, R1⟩ := reached h
  obtain ⟨s', e', R2⟩ := step_spec (op := .setPrio r prio) R1 hr
  obtain ⟨o, ho⟩ := Option.ne_none_iff_exists'.mp hr
  have hw : (w.step (.setPrio r prio)).1 = if prio = o.attr.prio then w else
          { (w.detach r).put r (some { o with attr := { o.attr with prio } }) with
            att := (w.detach r).att ++ [(p, r)] } := by
    simp only [World.step, ho, hp]
  rw [hw] at R2
  have e'' : step s (.setPrio r prio) = some (s', .ok ()) := by rw [e']; rfl
  by_cases hq : prio = o.attr.prio
  · rw [if_pos hq] at R2
    exact ⟨s, s', _, e, e'', R2.heap ho, hq.symm, hp⟩
  · rw [if_neg hq] at R2
    refine ⟨s, s', _, e, e'', R2.heap (o := { o with attr := { o.attr with prio } }) (by simp [World.put]), rfl, ?_⟩
    refine (up_mem R2.uniq p r).mpr ?_
    simp

example : History empty sampleOps sampleWorld (List.replicate 7 (.ok ())) ∧ sampleWorld.live 1 ∧ sampleWorld.up 1 = some 0 :=
  ⟨sample_history, by simp [World.live, sampleWorld], by simp [World.up, sampleWorld]⟩

/-- C66 is false as stated: for a resource without parent nothing is set (and nothing is reported) -/
theorem C66_no_parent_counterexample :
    ∃ s, run init [.create none a0, .created 0, .setPrio 0 7] = some (s, List.replicate 3 (.ok ())) ∧
      (s.heap 0).map (·.prio) = some 0 :=
  ⟨_, rfl, rfl⟩

/-! ### C67 -/

/-- C67.  From the start, going backwards returns the children in reverse order. -/
theorem C67_backwards_partial {ops w es r} (h : History empty ops w es) (hr : w.live r) :
    ∃ s n, run init ops = some (s, es) ∧ s.heap r = some n ∧
      prevAll s.heap n.children (n.children.length + 1) (iterReset n.children r) =
        some (n.children.filter w.shown).reverse := by
  obtain ⟨s, e, R1⟩ := reached h
  obtain ⟨o, ho⟩ := Option.ne_none_iff_exists'.mp hr
  refine ⟨s, _, e, R1.heap ho, ?_⟩
  have hv : ∀ c, visible s.heap c = w.shown c := by
    intro c
    unfold visible World.shown
    rw [R1.node]
    cases w.obj c <;> rfl
  rw [prevAll_rev]
  have := nextAll_spec (h := s.heap) ((w.kids r).length + 1) [] (w.kids r).reverse
    { iterReset (w.kids r) r with prev := (iterReset (w.kids r) r).next, next := (iterReset (w.kids r) r).prev }
    ((List.reverse_perm _).nodup_iff.mpr (kids_nodup R1.uniq r)) (by
      intro c hc
      rw [List.nil_append, List.mem_reverse] at hc
      have hl := (R1.ends _ ((kids_mem w r c).mp hc)).2
      rw [R1.node]
      simpa [World.live] using hl) rfl (by simp)
  rw [funext hv, List.filter_reverse] at this
  exact this

/-- C67 is false as stated: with children 0, 1, 2, going one step forwards and then one step backwards leads to the last
    child, because a step forwards leaves the backward pointer where it was -/
theorem C67_forth_and_back_counterexample :
    let ops := [Op.create none a0, .created 0, .create (some 0) a0, .created 1, .create (some 0) a0, .created 2,
      .create (some 0) a0, .created 3]
    ∃ s n, run init ops = some (s, List.replicate 8 (.ok ())) ∧ s.heap 0 = some n ∧ n.children = [1, 2, 3] ∧
      ∃ it it', iterNext s.heap n.children 4 (iterReset n.children 0) = some (it, some 1) ∧
        iterPrev s.heap n.children 4 it = some (it', some 3) :=
  ⟨_, _, rfl, rfl, rfl, _, _, rfl, rfl⟩

/-! ### C26 -/

private theorem search_down {s w type ident m r} (h : R s w) (hr : w.live r) :
    (∃ res, search s r .immDesc type ident m = some res ∧ FoundIn w (w.Covers (m = .no) r .immDesc) type ident m res) ∧
    (∃ res, search s r .dfs type ident m = some res ∧ FoundIn w (w.Covers (m = .no) r .dfs) type ident m res) ∧
    (∃ res, search s r .wideDfs type ident m = some res ∧
      FoundIn w (fun x => w.Under (fun _ => True) r x ∧ (m = .no → w.enterable x)) type ident m res) := by
  have hf := fits_all h r (live_lt h hr)
  refine ⟨?_, ?_, ?_⟩
  · obtain ⟨res, e, f1, f2⟩ := immDesc_spec (type := type) (ident := ident) (m := m) (ign := none) (fuel := s.next) h hr
    refine ⟨res, e, fun x hx => ?_, fun hn x hx => f2 hn x ⟨hx.1, fun hm => ⟨by simp, hx.2 hm⟩⟩⟩
    obtain ⟨⟨g1, g2⟩, g3⟩ := f1 x hx
    exact ⟨⟨g1, fun hm => (g2 hm).2⟩, g3⟩
  · simp only [search, h.next]
    exact dfs_spec h _ r hr hf
  · simp only [search, h.next]
    exact wide_spec h _ r hr hf

private theorem search_up {s w type ident m r} (h : R s w) (hr : w.live r) :
    (∃ res, search s r .immAnc type ident m = some res ∧ FoundIn w (w.Covers (m = .no) r .immAnc) type ident m res) ∧
    (∃ res, search s r .anc type ident m = some res ∧ FoundIn w (w.Covers (m = .no) r .anc) type ident m res) ∧
    (∃ res, search s r .top type ident m = some res ∧ FoundIn w (w.Covers (m = .no) r .top) type ident m res) := by
  have hf := fitsUp_all h r (live_lt h hr)
  refine ⟨immAnc_spec h hr, ?_, ?_⟩
  · simp only [search, h.next]
    exact anc_spec h _ r hr hf
  · simp only [search, h.next]
    exact top_spec h _ r hr hf

private theorem sel_all {m : Match} (hm : ∀ y, m ≠ .this y) (x : Nat) : sel m x := fun y hy => absurd hy (hm y)

private theorem matches_all {w : World} {x : Nat} (hx : w.live x) : w.Matches none none x := by
  obtain ⟨o, ho⟩ := Option.ne_none_iff_exists'.mp hx
  exact ⟨o, ho, by simp, by simp⟩

private theorem search_comp {s w type ident m r} (h : R s w) (hr : w.live r) (hm : ∀ y, m ≠ .this y) :
    (∃ res, search s r .genus type ident m = some res ∧
      FoundIn w (fun x => ∃ t, ((t = r ∨ w.Over (fun y => m = .no → w.leavable y) r t) ∧ w.up t = none) ∧
        w.Under (fun _ => True) t x ∧ (m = .no → w.enterable x)) type ident m res) ∧
    (∃ res, search s r .sib type ident m = some res ∧ FoundIn w (w.Covers (m = .no) r .sib) type ident m res) := by
  have hf := fitsUp_all h r (live_lt h hr)
  constructor
  · obtain ⟨t, e, f1, f2⟩ := top_spec (type := none) (ident := none) (m := m) h _ r hr hf
    simp only [search, h.next, e]
    cases t with
    | none =>
      refine ⟨none, rfl, by simp, ?_⟩
      rintro - x ⟨t, ht, -⟩ _
      refine f2 rfl t ht ⟨matches_all ?_, sel_all hm t⟩
      rcases ht.1 with rfl | ho
      · exact hr
      · cases ho with
        | parent _ hu => exact up_live h hu
        | higher _ _ hu => exact up_live h hu
    | some t =>
      obtain ⟨ht, hmt, -⟩ := f1 t rfl
      have hlt : w.live t := by obtain ⟨o, ho, -⟩ := hmt; simp [World.live, ho]
      obtain ⟨res, e2, g1, g2⟩ := wide_spec (type := type) (ident := ident) (m := m) h _ t hlt (fits_all h t (live_lt h hlt))
      refine ⟨res, e2, fun x hx => ?_, fun hn x hx => ?_⟩
      · obtain ⟨k1, k2⟩ := g1 x hx
        exact ⟨⟨t, ht, k1⟩, k2⟩
      · obtain ⟨t', ht', hx⟩ := hx
        have := top_unique ht.1 ht.2 ht'.1 ht'.2
        subst this
        exact g2 hn x hx
  · obtain ⟨t, e, f1, f2⟩ := immAnc_spec (type := none) (ident := none) (m := m) h hr
    simp only [search, e]
    cases t with
    | none =>
      refine ⟨none, rfl, by simp, ?_⟩
      rintro - x ⟨t, ht, hl, -⟩ _
      exact f2 rfl t ⟨ht, hl⟩ ⟨matches_all (up_live h ht), sel_all hm t⟩
    | some t =>
      obtain ⟨⟨ht, hl⟩, -⟩ := f1 t rfl
      obtain ⟨res, e2, g1, g2⟩ := immDesc_spec (type := type) (ident := ident) (m := m) (ign := some r) (fuel := s.next) h (up_live h ht)
      refine ⟨res, e2, fun x hx => ?_, fun hn x hx => ?_⟩
      · obtain ⟨⟨k1, k2⟩, k3⟩ := g1 x hx
        exact ⟨⟨t, ht, hl, k1, fun hn => ⟨fun he => (k2 hn).1 (by rw [he]), (k2 hn).2⟩⟩, k3⟩
      · obtain ⟨t', ht', -, k1, k2⟩ := hx
        rw [ht] at ht'
        cases ht'
        exact g2 hn x ⟨k1, fun hn => ⟨fun he => (k2 hn).1 (by cases he; rfl), (k2 hn).2⟩⟩

/-- the methods that go down through more than one level in the wide way -/
def isWide (m : Method) : Bool := m == .wideDfs || m == .genus

private theorem under_up {w : World} (hn : (w.att.map (·.2)).Nodup) {P : Nat → Prop} {r x : Nat} (h : w.Under P r x) : w.up x ≠ none := by
  cases h with
  | child he => rw [(up_mem hn _ _).mpr he]; simp
  | deeper _ _ he => rw [(up_mem hn _ _).mpr he]; simp

private theorem under_closed {w : World} (hn : (w.att.map (·.2)).Nodup) (hc : w.Closed) {P : Nat → Prop} {r x : Nat}
    (h : w.Under (fun _ => True) r x) (hP : ∀ y, w.enterable y → P y) : w.Under P r x := by
  induction h with
  | child he => exact .child he
  | deeper hu _ he ih =>
    refine .deeper ih (hP _ ?_) he
    exact Classical.byContradiction fun hne => under_up hn hu (hc _ _ he hne)

/-- C26.  Any search, on any tree reached by a history: the resource found is of the type and name asked for and is one
    that the method covers without crossing a boundary; and if nothing is found then nothing that the method covers is of
    that type and name.  For the two wide methods, provided that no resource with a parent has children and must not be
    entered; see below. -/
theorem C26_search_sound_and_complete_partial {ops w es start} (method : Method) (type : Option Nat) (ident : Option Str)
    (h : History empty ops w es) (hs : w.live start) (hw : isWide method = true → w.Closed) :
    ∃ s res, run init ops = some (s, es) ∧ search s start method type ident .no = some res ∧
      (∀ x, res = some x → w.Covers True start method x ∧ w.Matches type ident x) ∧
      (res = none → ∀ x, w.Covers True start method x → ¬ w.Matches type ident x) := by
  obtain ⟨s, e, R1⟩ := reached h
  have hm : ∀ y, Match.no ≠ .this y := by intro y hy; cases hy
  have hT : (Match.no = Match.no) = True := by simp
  have fin : ∀ {C : Nat → Prop} {res}, FoundIn w C type ident .no res →
      (∀ x, res = some x → C x ∧ w.Matches type ident x) ∧ (res = none → ∀ x, C x → ¬ w.Matches type ident x) := by
    intro C res hf
    refine ⟨fun x hx => ⟨(hf.1 x hx).1, (hf.1 x hx).2.1⟩, fun hn x hx hmm => hf.2 hn x hx ⟨hmm, sel_all hm x⟩⟩
  obtain ⟨⟨r1, d1, d2⟩, ⟨r2, d3, d4⟩, ⟨r3, d5, d6⟩⟩ := search_down (type := type) (ident := ident) (m := .no) R1 hs
  obtain ⟨⟨r4, u1, u2⟩, ⟨r5, u3, u4⟩, ⟨r6, u5, u6⟩⟩ := search_up (type := type) (ident := ident) (m := .no) R1 hs
  obtain ⟨⟨r7, c1, c2⟩, ⟨r8, c3, c4⟩⟩ := search_comp (type := type) (ident := ident) (m := .no) R1 hs hm
  rw [hT] at d2 d4 u2 u4 u6 c4
  cases method with
  | immDesc => exact ⟨s, r1, e, d1, fin d2⟩
  | dfs => exact ⟨s, r2, e, d3, fin d4⟩
  | wideDfs =>
    have hc := hw rfl
    refine ⟨s, r3, e, d5, fun x hx => ?_, fun hn x hx => ?_⟩
    · obtain ⟨⟨g1, g2⟩, g3, -⟩ := d6.1 x hx
      exact ⟨⟨under_closed R1.uniq hc g1 fun _ hy _ => hy, fun _ => g2 rfl⟩, g3⟩
    · exact (fin d6).2 hn x ⟨under_congr (fun _ _ => trivial) hx.1, fun _ => hx.2 trivial⟩
  | immAnc => exact ⟨s, r4, e, u1, fin u2⟩
  | anc => exact ⟨s, r5, e, u3, fin u4⟩
  | top => exact ⟨s, r6, e, u5, fin u6⟩
  | genus =>
    have hc := hw rfl
    simp only [hT] at c2
    refine ⟨s, r7, e, c1, fun x hx => ?_, fun hn x hx => ?_⟩
    · obtain ⟨⟨t, g0, g1, g2⟩, g3, -⟩ := c2.1 x hx
      exact ⟨⟨t, g0, under_closed R1.uniq hc g1 fun _ hy _ => hy, g2⟩, g3⟩
    · obtain ⟨t, k0, k1, k2⟩ := hx
      exact (fin c2).2 hn x ⟨t, k0, under_congr (fun _ _ => trivial) k1, k2⟩
  | sib => exact ⟨s, r8, e, c3, fin c4⟩

example : History empty sampleOps sampleWorld (List.replicate 7 (.ok ())) ∧ sampleWorld.live 0 ∧ sampleWorld.Closed ∧
    sampleWorld.Covers True 0 .wideDfs 1 ∧ sampleWorld.Covers True 1 .sib 2 ∧ sampleWorld.Covers True 1 .genus 2 := by
  refine ⟨sample_history, by simp [World.live, sampleWorld], ?_, ⟨.child (by decide), fun _ => ⟨_, rfl, rfl⟩⟩,
    ⟨0, by simp [World.up, sampleWorld], fun _ => ⟨_, rfl, rfl⟩, by decide, fun _ => ⟨by decide, ⟨_, rfl, rfl⟩⟩⟩,
    ⟨0, ⟨.inr (.parent (fun _ => ⟨_, rfl, rfl⟩) (by simp [World.up, sampleWorld])), by simp [World.up, sampleWorld]⟩,
      .child (by decide), fun _ => ⟨_, rfl, rfl⟩⟩⟩
  intro p c he _
  have : p = 0 := by simp [sampleWorld] at he; omega
  subst this
  simp [World.up, sampleWorld]

/-- C26, the wide methods on all trees: they cross the boundaries downwards; only what they return may be entered itself -/
theorem C26_wide_search_exact {ops w es start} (type : Option Nat) (ident : Option Str)
    (h : History empty ops w es) (hs : w.live start) :
    ∃ s res, run init ops = some (s, es) ∧ search s start .wideDfs type ident .no = some res ∧
      (∀ x, res = some x → w.Under (fun _ => True) start x ∧ w.enterable x ∧ w.Matches type ident x) ∧
      (res = none → ∀ x, w.Under (fun _ => True) start x → w.enterable x → ¬ w.Matches type ident x) := by
  obtain ⟨s, e, R1⟩ := reached h
  obtain ⟨-, -, ⟨r3, d5, d6⟩⟩ := search_down (type := type) (ident := ident) (m := .no) R1 hs
  refine ⟨s, r3, e, d5, fun x hx => ?_, fun hn x hx hex hm => ?_⟩
  · obtain ⟨⟨g1, g2⟩, g3, -⟩ := d6.1 x hx
    exact ⟨g1, g2 rfl, g3⟩
  · exact d6.2 hn x ⟨hx, fun _ => hex⟩ ⟨hm, sel_all (by intro y hy; cases hy) x⟩

/-- C26 is false as stated for the wide methods: the child 1 must not be entered, but its child 2 is found -/
theorem C26_wide_crosses_boundary_counterexample :
    let ops := [Op.create none a0, .created 0, .create (some 0) { a0 with noDown := true }, .created 1,
      .create (some 1) { a0 with type := 2 }, .created 2]
    ∃ s, run init ops = some (s, List.replicate 6 (.ok ())) ∧
      search s 0 .wideDfs (some 2) none .no = some (some 2) ∧ search s 0 .dfs (some 2) none .no = some none ∧
      search s 0 .genus (some 2) none .no = some (some 2) :=
  ⟨_, rfl, rfl, rfl, rfl⟩

/-! ### C68 -/

/-- C68, first question: `sid_res_search_match` says whether a resource of the type and name exists that the method
    covers when boundaries are not heeded. -/
theorem C68_match_query {ops w es start} (method : Method) (type : Option Nat) (ident : Option Str)
    (h : History empty ops w es) (hs : w.live start) :
    ∃ s res, run init ops = some (s, es) ∧ search s start method type ident .any = some res ∧
      (res ≠ none ↔ ∃ x, w.Covers False start method x ∧ w.Matches type ident x) := by
  obtain ⟨s, e, R1⟩ := reached h
  have hm : ∀ y, Match.any ≠ .this y := by intro y hy; cases hy
  have hF : (Match.any = Match.no) = False := by simp
  have fin : ∀ {C : Nat → Prop} {res}, FoundIn w C type ident .any res →
      (res ≠ none ↔ ∃ x, C x ∧ w.Matches type ident x) := by
    intro C res hf
    constructor
    · intro hn
      obtain ⟨x, hx⟩ := Option.ne_none_iff_exists'.mp hn
      exact ⟨x, (hf.1 x hx).1, (hf.1 x hx).2.1⟩
    · rintro ⟨x, h1, h2⟩ hn
      exact hf.2 hn x h1 ⟨h2, sel_all hm x⟩
  obtain ⟨⟨r1, d1, d2⟩, ⟨r2, d3, d4⟩, ⟨r3, d5, d6⟩⟩ := search_down (type := type) (ident := ident) (m := .any) R1 hs
  obtain ⟨⟨r4, u1, u2⟩, ⟨r5, u3, u4⟩, ⟨r6, u5, u6⟩⟩ := search_up (type := type) (ident := ident) (m := .any) R1 hs
  obtain ⟨⟨r7, c1, c2⟩, ⟨r8, c3, c4⟩⟩ := search_comp (type := type) (ident := ident) (m := .any) R1 hs hm
  have hTF : (fun _ : Nat => True) = fun y => False → w.enterable y := by funext y; simp
  simp only [hF] at d2 d4 d6 u2 u4 u6 c2 c4
  rw [hTF] at d6 c2
  cases method with
  | immDesc => exact ⟨s, r1, e, d1, fin d2⟩
  | dfs => exact ⟨s, r2, e, d3, fin d4⟩
  | wideDfs => exact ⟨s, r3, e, d5, fin d6⟩
  | immAnc => exact ⟨s, r4, e, u1, fin u2⟩
  | anc => exact ⟨s, r5, e, u3, fin u4⟩
  | top => exact ⟨s, r6, e, u5, fin u6⟩
  | genus => exact ⟨s, r7, e, c1, fin c2⟩
  | sib => exact ⟨s, r8, e, c3, fin c4⟩

/-- C68, second question: for the methods that go one way, `sid_res_search_match_res` says whether the resource is among
    those that the method covers when boundaries are not heeded. -/
theorem C68_match_resource_query_partial {ops w es start x} (method : Method) (h : History empty ops w es)
    (hs : w.live start) (hx : w.live x) (hm : method ≠ .genus) (hm' : method ≠ .sib) :
    ∃ s res, run init ops = some (s, es) ∧ search s start method none none (.this x) = some res ∧
      (res ≠ none ↔ w.Covers False start method x) := by
  obtain ⟨s, e, R1⟩ := reached h
  have hF : (Match.this x = Match.no) = False := by simp
  have fin : ∀ {C : Nat → Prop} {res}, FoundIn w C none none (.this x) res → (res ≠ none ↔ C x) := by
    intro C res hf
    constructor
    · intro hn
      obtain ⟨y, hy⟩ := Option.ne_none_iff_exists'.mp hn
      obtain ⟨h1, -, h2⟩ := hf.1 y hy
      rw [h2 x rfl] at h1
      exact h1
    · intro h1 hn
      exact hf.2 hn x h1 ⟨matches_all hx, fun y hy => by cases hy; rfl⟩
  obtain ⟨⟨r1, d1, d2⟩, ⟨r2, d3, d4⟩, ⟨r3, d5, d6⟩⟩ := search_down (type := none) (ident := none) (m := .this x) R1 hs
  obtain ⟨⟨r4, u1, u2⟩, ⟨r5, u3, u4⟩, ⟨r6, u5, u6⟩⟩ := search_up (type := none) (ident := none) (m := .this x) R1 hs
  have hTF : (fun _ : Nat => True) = fun y => False → w.enterable y := by funext y; simp
  simp only [hF] at d2 d4 d6 u2 u4 u6
  rw [hTF] at d6
  cases method with
  | immDesc => exact ⟨s, r1, e, d1, fin d2⟩
  | dfs => exact ⟨s, r2, e, d3, fin d4⟩
  | wideDfs => exact ⟨s, r3, e, d5, fin d6⟩
  | immAnc => exact ⟨s, r4, e, u1, fin u2⟩
  | anc => exact ⟨s, r5, e, u3, fin u4⟩
  | top => exact ⟨s, r6, e, u5, fin u6⟩
  | genus => exact absurd rfl hm
  | sib => exact absurd rfl hm'

example : History empty sampleOps sampleWorld (List.replicate 7 (.ok ())) ∧ sampleWorld.live 1 ∧
    sampleWorld.Covers False 1 .anc 0 :=
  ⟨sample_history, by simp [World.live, sampleWorld], .parent (by simp) (by simp [World.up, sampleWorld])⟩

/-- C68 is false as stated: asked for siblings, or for the whole tree, the answer is always no, because the resource
    asked for is also required to be the parent, or the top -/
theorem C68_siblings_never_found_counterexample {ops w es start x} (h : History empty ops w es) (hs : w.live start)
    (hx : w.live x) :
    ∃ s, run init ops = some (s, es) ∧ search s start .sib none none (.this x) = some none ∧
      search s start .genus none none (.this x) = some none := by
  obtain ⟨s, e, R1⟩ := reached h
  refine ⟨s, e, ?_, ?_⟩
  · obtain ⟨t, e1, f1, f2⟩ := immAnc_spec (type := none) (ident := none) (m := .this x) R1 hs
    simp only [search, e1]
    cases t with
    | none => rfl
    | some t =>
      obtain ⟨-, -, ht⟩ := f1 t rfl
      have ht := ht x rfl
      subst ht
      obtain ⟨res, e2, g1, g2⟩ := immDesc_spec (type := none) (ident := none) (m := .this t) (ign := some start) (fuel := s.next) R1 hx
      simp only [e2]
      cases res with
      | none => rfl
      | some y =>
        obtain ⟨⟨k1, -⟩, -, k2⟩ := g1 y rfl
        have k2 := k2 t rfl
        subst k2
        exact absurd k1 (R1.acyc y y .refl)
  · obtain ⟨t, e1, f1, f2⟩ := top_spec (type := none) (ident := none) (m := .this x) R1 _ start hs (fitsUp_all R1 start (live_lt R1 hs))
    simp only [search, R1.next, e1]
    cases t with
    | none => rfl
    | some t =>
      obtain ⟨⟨-, ht0⟩, -, ht⟩ := f1 t rfl
      have ht := ht x rfl
      subst ht
      obtain ⟨res, e2, g1, g2⟩ := wide_spec (type := none) (ident := none) (m := .this t) R1 _ t hx (fits_all R1 t (live_lt R1 hx))
      simp only [e2]
      cases res with
      | none => rfl
      | some y =>
        obtain ⟨⟨k1, -⟩, -, k2⟩ := g1 y rfl
        have k2 := k2 t rfl
        subst k2
        exact absurd ht0 (under_up R1.uniq k1)

end Sid.Props
