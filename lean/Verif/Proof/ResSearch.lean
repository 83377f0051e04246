import Verif.Proof.Res
/- Searching the tree of resources, and iterating over children. -/
namespace Sid.Res
open Sid.Spec.Res

theorem firstOf_spec {f : Nat → Option (Option Nat)} : ∀ {l : List Nat}, (∀ c ∈ l, ∃ x, f c = some x) →
    ∃ x, firstOf f l = some x ∧ (∀ y, x = some y → ∃ c ∈ l, f c = some (some y)) ∧ (x = none → ∀ c ∈ l, f c = some none) := by
  intro l
  induction l with
  | nil => intro _; exact ⟨none, rfl, by simp, by simp⟩
  | cons c l ih =>
    intro h
    obtain ⟨x, hx⟩ := h c (by simp)
    cases x with
    | some y =>
      exact ⟨some y, by simp [firstOf, hx], fun z hz => ⟨c, by simp, by rw [hx, hz]⟩, by simp⟩
    | none =>
      obtain ⟨x, h1, h2, h3⟩ := ih fun d hd => h d (by simp [hd])
      refine ⟨x, by simp [firstOf, hx, h1], fun y hy => ?_, fun hn d hd => ?_⟩
      · obtain ⟨d, hd, he⟩ := h2 y hy
        exact ⟨d, by simp [hd], he⟩
      · rcases List.mem_cons.mp hd with rfl | hd
        · exact hx
        · exact h3 hn d hd

theorem under_iff {w : World} {P : Nat → Prop} {r x : Nat} :
    w.Under P r x ↔ (r, x) ∈ w.att ∨ ∃ c, (r, c) ∈ w.att ∧ P c ∧ w.Under P c x := by
  constructor
  · intro h
    induction h with
    | child he => exact .inl he
    | @deeper p c hp hP he ih =>
      right
      rcases ih with ih | ⟨d, h1, h2, h3⟩
      · exact ⟨p, ih, hP, .child he⟩
      · exact ⟨d, h1, h2, .deeper h3 hP he⟩
  · rintro (h | ⟨c, h1, h2, h3⟩)
    · exact .child h
    · induction h3 with
      | child he => exact .deeper (.child h1) h2 he
      | deeper _ hP he ih => exact .deeper ih hP he

theorem under_congr {w : World} {P Q : Nat → Prop} {r x : Nat} (h : ∀ y, P y → Q y) (hu : w.Under P r x) : w.Under Q r x := by
  induction hu with
  | child he => exact .child he
  | deeper _ hP he ih => exact .deeper ih (h _ hP) he

theorem nodeMatch_iff {w : World} {type id} {x : Nat} {o : Obj} (ho : w.obj x = some o) :
    nodeMatch type id (nodeOf w x o) = true ↔ w.Matches type id x := by
  unfold nodeMatch World.Matches nodeOf
  rw [ho]
  cases type <;> cases id <;> simp

/-- the condition on a visited resource, beyond type and id -/
def sel (m : Match) (x : Nat) : Prop := ∀ y, m = .this y → x = y

theorem resMatch_iff {w : World} {type id m} {x : Nat} {o : Obj} (ho : w.obj x = some o) :
    resMatch type id m x (nodeOf w x o) = true ↔ w.Matches type id x ∧ sel m x := by
  unfold resMatch sel
  rw [Bool.and_eq_true, nodeMatch_iff ho]
  cases m <;> simp

theorem canDown_iff {w : World} {ign m} {x : Nat} {o : Obj} (ho : w.obj x = some o) :
    canDown ign m x (nodeOf w x o) = true ↔ (m = .no → (some x ≠ ign ∧ w.enterable x)) := by
  unfold canDown World.enterable nodeOf
  rw [ho]
  cases m <;> simp

theorem canUp_iff {w : World} {m} {x : Nat} {o : Obj} (ho : w.obj x = some o) :
    canUp m (nodeOf w x o) = true ↔ (m = .no → ((w.up x).isSome = true ∧ w.leavable x)) := by
  unfold canUp World.leavable nodeOf
  rw [ho]
  cases m <;> simp

/-- what is found below `r`: `P` are the resources the method goes through -/
def FoundIn (w : World) (C : Nat → Prop) (type : Option Nat) (ident : Option Str) (m : Match) (res : Option Nat) : Prop :=
  (∀ x, res = some x → C x ∧ w.Matches type ident x ∧ sel m x) ∧
  (res = none → ∀ x, C x → ¬ (w.Matches type ident x ∧ sel m x))

theorem visit_ok {s w type ident m dfs ign deeper c} (h : R s w) (hc : w.live c) (hd : dfs = true → ∃ x, deeper c = some x) :
    ∃ x, visit type ident m dfs s.heap ign deeper c = some x := by
  obtain ⟨oc, hoc⟩ := Option.ne_none_iff_exists'.mp hc
  simp only [visit, h.heap hoc]
  split
  · exact ⟨_, rfl⟩
  · split
    · exact ⟨_, rfl⟩
    · split
      · rename_i hh; exact hd hh
      · exact ⟨_, rfl⟩

theorem visit_some {s w type ident m dfs ign deeper c x} (h : R s w) (hc : w.live c)
    (he : visit type ident m dfs s.heap ign deeper c = some (some x)) :
    (m = .no → some c ≠ ign ∧ w.enterable c) ∧
      ((x = c ∧ w.Matches type ident c ∧ sel m c) ∨ (dfs = true ∧ deeper c = some (some x))) := by
  obtain ⟨oc, hoc⟩ := Option.ne_none_iff_exists'.mp hc
  simp only [visit, h.heap hoc] at he
  split at he
  · cases he
  · rename_i hd
    refine ⟨(canDown_iff hoc).mp (by simpa using hd), ?_⟩
    split at he
    · rename_i hm
      cases he
      exact .inl ⟨rfl, (resMatch_iff hoc).mp hm⟩
    · split at he
      · rename_i hh; exact .inr ⟨hh, he⟩
      · cases he

theorem visit_none {s w type ident m dfs ign deeper c} (h : R s w) (hc : w.live c)
    (he : visit type ident m dfs s.heap ign deeper c = some none) (hd : m = .no → some c ≠ ign ∧ w.enterable c) :
    ¬ (w.Matches type ident c ∧ sel m c) ∧ (dfs = true → deeper c = some none) := by
  obtain ⟨oc, hoc⟩ := Option.ne_none_iff_exists'.mp hc
  simp only [visit, h.heap hoc] at he
  rw [(canDown_iff (ign := ign) hoc).mpr hd] at he
  simp only [Bool.not_true, Bool.false_eq_true, if_false] at he
  split at he
  · cases he
  · rename_i hm
    refine ⟨fun hh => hm ((resMatch_iff hoc).mpr hh), fun hh => ?_⟩
    rw [if_pos hh] at he
    exact he

theorem immDesc_spec {s w type ident m ign fuel r} (h : R s w) (hr : w.live r) :
    ∃ res, searchDown type ident m .immDesc (fuel + 1) s.heap ign r = some res ∧
      FoundIn w (fun x => (r, x) ∈ w.att ∧ (m = .no → some x ≠ ign ∧ w.enterable x)) type ident m res := by
  obtain ⟨o, ho⟩ := Option.ne_none_iff_exists'.mp hr
  simp only [searchDown, h.heap ho]
  obtain ⟨x, h1, h2, h3⟩ := firstOf_spec (l := (nodeOf w r o).children)
    (f := visit type ident m (Method.immDesc == .dfs) s.heap ign fun c => searchDown type ident m .immDesc fuel s.heap none c) (by
      intro c hc
      exact visit_ok h (h.ends _ ((kids_mem w r c).mp hc)).2 (by intro hh; cases hh))
  rw [h1]
  refine ⟨x, by cases x <;> rfl, ?_, ?_⟩
  · rintro y rfl
    obtain ⟨c, hc, he⟩ := h2 y rfl
    have hc := (kids_mem w r c).mp hc
    obtain ⟨g1, ⟨rfl, g2⟩ | ⟨g2, -⟩⟩ := visit_some h (h.ends _ hc).2 he
    · exact ⟨⟨hc, g1⟩, g2⟩
    · cases g2
  · rintro rfl y ⟨hy, hd⟩ hm
    exact (visit_none h (h.ends _ hy).2 (h3 rfl y ((kids_mem w r y).mpr hy)) hd).1 hm

theorem dfs_spec {s w type ident m} (h : R s w) : ∀ (fuel r : Nat), w.live r → Fits w fuel r →
    ∃ res, searchDown type ident m .dfs fuel s.heap none r = some res ∧
      FoundIn w (fun x => w.Under (fun y => m = .no → w.enterable y) r x ∧ (m = .no → w.enterable x)) type ident m res := by
  intro fuel
  induction fuel with
  | zero => intro r _ hf; exact absurd hf id
  | succ fuel ih =>
    intro r hr hf
    obtain ⟨o, ho⟩ := Option.ne_none_iff_exists'.mp hr
    simp only [searchDown, h.heap ho]
    obtain ⟨x, h1, h2, h3⟩ := firstOf_spec (l := (nodeOf w r o).children)
      (f := visit type ident m (Method.dfs == .dfs) s.heap none fun c => searchDown type ident m .dfs fuel s.heap none c) (by
        intro c hc
        have hc := (kids_mem w r c).mp hc
        obtain ⟨res, e, -⟩ := ih c (h.ends _ hc).2 (hf c hc)
        exact visit_ok h (h.ends _ hc).2 fun _ => ⟨res, e⟩)
    rw [h1]
    refine ⟨x, by cases x <;> rfl, ?_, ?_⟩
    · rintro y rfl
      obtain ⟨c, hc, he⟩ := h2 y rfl
      have hc := (kids_mem w r c).mp hc
      obtain ⟨g1, ⟨rfl, g2⟩ | ⟨-, g2⟩⟩ := visit_some h (h.ends _ hc).2 he
      · exact ⟨⟨.child hc, fun hn => (g1 hn).2⟩, g2⟩
      · obtain ⟨res, e, f1, f2⟩ := ih c (h.ends _ hc).2 (hf c hc)
        rw [e, Option.some.injEq] at g2
        obtain ⟨⟨k1, k2⟩, k3⟩ := f1 y g2
        exact ⟨⟨under_iff.mpr (.inr ⟨c, hc, fun hn => (g1 hn).2, k1⟩), k2⟩, k3⟩
    · rintro rfl y ⟨hy, hd⟩ hm
      rcases under_iff.mp hy with hy | ⟨c, hc, hP, hy⟩
      · exact (visit_none h (h.ends _ hy).2 (h3 rfl y ((kids_mem w r y).mpr hy)) fun hn => ⟨by simp, hd hn⟩).1 hm
      · have he := (visit_none h (h.ends _ hc).2 (h3 rfl c ((kids_mem w r c).mpr hc)) fun hn => ⟨by simp, hP hn⟩).2 rfl
        obtain ⟨res, e, f1, f2⟩ := ih c (h.ends _ hc).2 (hf c hc)
        rw [e, Option.some.injEq] at he
        exact f2 he y ⟨hy, hd⟩ hm

/-- WIDE_DFS goes through everything and returns only what may be entered -/
theorem wide_spec {s w type ident m} (h : R s w) : ∀ (fuel r : Nat), w.live r → Fits w fuel r →
    ∃ res, searchDown type ident m .wideDfs fuel s.heap none r = some res ∧
      FoundIn w (fun x => w.Under (fun _ => True) r x ∧ (m = .no → w.enterable x)) type ident m res := by
  intro fuel
  induction fuel with
  | zero => intro r _ hf; exact absurd hf id
  | succ fuel ih =>
    intro r hr hf
    obtain ⟨o, ho⟩ := Option.ne_none_iff_exists'.mp hr
    simp only [searchDown, h.heap ho]
    obtain ⟨x, h1, h2, h3⟩ := firstOf_spec (l := (nodeOf w r o).children)
      (f := visit type ident m (Method.wideDfs == .dfs) s.heap none fun c => searchDown type ident m .wideDfs fuel s.heap none c) (by
        intro c hc
        exact visit_ok h (h.ends _ ((kids_mem w r c).mp hc)).2 (by intro hh; cases hh))
    obtain ⟨z, k1, k2, k3⟩ := firstOf_spec (l := (nodeOf w r o).children)
      (f := fun c => searchDown type ident m .wideDfs fuel s.heap none c) (by
        intro c hc
        have hc := (kids_mem w r c).mp hc
        obtain ⟨res, e, -⟩ := ih c (h.ends _ hc).2 (hf c hc)
        exact ⟨res, e⟩)
    rw [h1, k1]
    cases x with
    | some y =>
      refine ⟨some y, rfl, ?_, by simp⟩
      rintro _ ⟨⟩
      obtain ⟨c, hc, he⟩ := h2 y rfl
      have hc := (kids_mem w r c).mp hc
      obtain ⟨g1, ⟨rfl, g2⟩ | ⟨g2, -⟩⟩ := visit_some h (h.ends _ hc).2 he
      · exact ⟨⟨.child hc, fun hn => (g1 hn).2⟩, g2⟩
      · cases g2
    | none =>
      refine ⟨z, rfl, ?_, ?_⟩
      · rintro y rfl
        obtain ⟨c, hc, he⟩ := k2 y rfl
        have hc := (kids_mem w r c).mp hc
        obtain ⟨res, e, f1, f2⟩ := ih c (h.ends _ hc).2 (hf c hc)
        simp only [e, Option.some.injEq] at he
        obtain ⟨⟨g1, g2⟩, g3⟩ := f1 y he
        exact ⟨⟨under_iff.mpr (.inr ⟨c, hc, trivial, g1⟩), g2⟩, g3⟩
      · rintro rfl y ⟨hy, hd⟩ hm
        rcases under_iff.mp hy with hy | ⟨c, hc, hP, hy⟩
        · exact (visit_none h (h.ends _ hy).2 (h3 rfl y ((kids_mem w r y).mpr hy)) fun hn => ⟨by simp, hd hn⟩).1 hm
        · have he := k3 rfl c ((kids_mem w r c).mpr hc)
          obtain ⟨res, e, f1, f2⟩ := ih c (h.ends _ hc).2 (hf c hc)
          simp only [e, Option.some.injEq] at he
          exact f2 he y ⟨hy, hd⟩ hm

/-! ### upwards -/

theorem up_live {s w} (h : R s w) {r p : Nat} (hu : w.up r = some p) : w.live p :=
  (h.ends _ ((up_mem h.uniq p r).mp hu)).1

theorem immAnc_spec {s w type ident m r} (h : R s w) (hr : w.live r) :
    ∃ res, searchImmAnc type ident m s.heap r = some res ∧
      FoundIn w (fun x => w.up r = some x ∧ (m = .no → w.leavable r)) type ident m res := by
  obtain ⟨o, ho⟩ := Option.ne_none_iff_exists'.mp hr
  simp only [searchImmAnc, h.heap ho]
  by_cases hc : canUp m (nodeOf w r o) = true
  · rw [if_pos hc]
    simp only [show (nodeOf w r o).parent = w.up r from rfl]
    have hc := (canUp_iff ho).mp hc
    cases hu : w.up r with
    | none => exact ⟨none, rfl, by simp, by simp⟩
    | some p =>
      obtain ⟨op, hop⟩ := Option.ne_none_iff_exists'.mp (up_live h hu)
      simp only [h.heap hop]
      refine ⟨_, rfl, ?_, ?_⟩
      · intro x hx
        split at hx
        · rename_i hm
          cases hx
          exact ⟨⟨rfl, fun hn => (hc hn).2⟩, (resMatch_iff hop).mp hm⟩
        · cases hx
      · intro hn x ⟨hx, _⟩ hm
        cases hx
        rw [(resMatch_iff hop).mpr hm] at hn
        simp at hn
  · rw [if_neg hc]
    refine ⟨none, rfl, by simp, ?_⟩
    rintro - x ⟨hx, hl⟩ _
    exact hc ((canUp_iff ho).mpr fun hn => ⟨by simp [hx], hl hn⟩)

def FitsUp (w : World) : Nat → Nat → Prop
  | 0, _ => False
  | n + 1, x => ∀ p, (p, x) ∈ w.att → FitsUp w n p

theorem below_cons {w : World} {p c b : Nat} (he : (p, c) ∈ w.att) (h : w.Below c b) : w.Below p b :=
  below_trans (.down .refl he) h

theorem fitsUp_all {s w} (h : R s w) (x : Nat) (hx : x < w.next) : FitsUp w (w.next + 1) x := by
  have key : ∀ (n : Nat) (l : List Nat) (x : Nat), l.Nodup → (∀ y ∈ l, y < w.next ∧ w.Below x y) → x ∈ l →
      w.next + 1 ≤ n + l.length → FitsUp w (n + 1) x := by
    intro n
    induction n with
    | zero =>
      intro l x hn hl _ hlen
      have := nodup_bound w.next l hn fun y hy => (hl y hy).1
      omega
    | succ n ih =>
      intro l x hn hl hx hlen p hp
      have hpl : p < w.next := live_lt h (h.ends _ hp).1
      refine ih (p :: l) p (List.nodup_cons.mpr ⟨?_, hn⟩) ?_ (by simp) (by simp; omega)
      · intro hm
        exact h.acyc x p (hl p hm).2 hp
      · intro y hy
        rcases List.mem_cons.mp hy with rfl | hy
        · exact ⟨hpl, .refl⟩
        · exact ⟨(hl y hy).1, below_cons hp (hl y hy).2⟩
  exact key w.next [x] x (by simp) (by simp [hx]; exact .refl) (by simp) (by simp)

theorem over_iff {w : World} {P : Nat → Prop} {r x : Nat} :
    w.Over P r x ↔ P r ∧ ∃ p, w.up r = some p ∧ (x = p ∨ w.Over P p x) := by
  constructor
  · intro h
    induction h with
    | parent h1 h2 => exact ⟨h1, _, h2, .inl rfl⟩
    | higher _ h2 h3 ih =>
      obtain ⟨i1, p, i2, i3⟩ := ih
      refine ⟨i1, p, i2, .inr ?_⟩
      rcases i3 with rfl | i3
      · exact .parent h2 h3
      · exact .higher i3 h2 h3
  · rintro ⟨h1, p, h2, rfl | h3⟩
    · exact .parent h1 h2
    · induction h3 with
      | parent h3 h4 => exact .higher (.parent h1 h2) h3 h4
      | higher _ h3 h4 ih => exact .higher ih h3 h4

theorem anc_spec {s w type ident m} (h : R s w) : ∀ (fuel r : Nat), w.live r → FitsUp w fuel r →
    ∃ res, searchAnc type ident m fuel s.heap r = some res ∧
      FoundIn w (fun x => w.Over (fun y => m = .no → w.leavable y) r x) type ident m res := by
  intro fuel
  induction fuel with
  | zero => intro r _ hf; exact absurd hf id
  | succ fuel ih =>
    intro r hr hf
    obtain ⟨o, ho⟩ := Option.ne_none_iff_exists'.mp hr
    simp only [searchAnc, h.heap ho]
    by_cases hc : canUp m (nodeOf w r o) = true
    · rw [if_pos hc]
      simp only [show (nodeOf w r o).parent = w.up r from rfl]
      have hc := (canUp_iff ho).mp hc
      cases hu : w.up r with
      | none =>
        refine ⟨none, rfl, by simp, ?_⟩
        intro _ x hx
        obtain ⟨-, p, hp, -⟩ := over_iff.mp hx
        rw [hu] at hp; cases hp
      | some p =>
        obtain ⟨op, hop⟩ := Option.ne_none_iff_exists'.mp (up_live h hu)
        simp only [h.heap hop]
        by_cases hm : resMatch type ident m p (nodeOf w p op) = true
        · rw [if_pos hm]
          refine ⟨_, rfl, ?_, by simp⟩
          rintro _ ⟨⟩
          exact ⟨.parent (fun hn => (hc hn).2) hu, (resMatch_iff hop).mp hm⟩
        · rw [if_neg hm]
          obtain ⟨res, e, f1, f2⟩ := ih p (up_live h hu) (hf p ((up_mem h.uniq p r).mp hu))
          refine ⟨res, e, ?_, ?_⟩
          · intro x hx
            obtain ⟨g1, g2⟩ := f1 x hx
            exact ⟨over_iff.mpr ⟨fun hn => (hc hn).2, p, hu, .inr g1⟩, g2⟩
          · intro hn x hx hmx
            obtain ⟨-, q, hq, hx⟩ := over_iff.mp hx
            rw [hu] at hq; cases hq
            rcases hx with rfl | hx
            · exact hm ((resMatch_iff hop).mpr hmx)
            · exact f2 hn x hx hmx
    · rw [if_neg hc]
      refine ⟨none, rfl, by simp, ?_⟩
      rintro - x hx _
      obtain ⟨hl, p, hp, -⟩ := over_iff.mp hx
      exact hc ((canUp_iff ho).mpr fun hn => ⟨by simp [hp], hl hn⟩)

theorem top_spec {s w type ident m} (h : R s w) : ∀ (fuel r : Nat), w.live r → FitsUp w fuel r →
    ∃ res, searchTop type ident m fuel s.heap r = some res ∧
      FoundIn w (fun x => (x = r ∨ w.Over (fun y => m = .no → w.leavable y) r x) ∧ w.up x = none) type ident m res := by
  intro fuel
  induction fuel with
  | zero => intro r _ hf; exact absurd hf id
  | succ fuel ih =>
    intro r hr hf
    obtain ⟨o, ho⟩ := Option.ne_none_iff_exists'.mp hr
    simp only [searchTop, h.heap ho]
    simp only [show (nodeOf w r o).parent = w.up r from rfl]
    cases hu : w.up r with
    | none =>
      refine ⟨_, rfl, ?_, ?_⟩
      · intro x hx
        split at hx
        · rename_i hm
          cases hx
          exact ⟨⟨.inl rfl, hu⟩, (resMatch_iff ho).mp hm⟩
        · cases hx
      · rintro hn x ⟨rfl | hx, _⟩ hm
        · rw [(resMatch_iff ho).mpr hm] at hn; simp at hn
        · obtain ⟨-, p, hp, -⟩ := over_iff.mp hx
          rw [hu] at hp; cases hp
    | some p =>
      simp only
      by_cases hc : canUp m (nodeOf w r o) = true
      · rw [if_pos hc]
        have hc := (canUp_iff ho).mp hc
        obtain ⟨res, e, f1, f2⟩ := ih p (up_live h hu) (hf p ((up_mem h.uniq p r).mp hu))
        refine ⟨res, e, ?_, ?_⟩
        · intro x hx
          obtain ⟨⟨g1, g2⟩, g3⟩ := f1 x hx
          exact ⟨⟨.inr (over_iff.mpr ⟨fun hn => (hc hn).2, p, hu, g1⟩), g2⟩, g3⟩
        · rintro hn x ⟨rfl | hx, ht⟩ hm
          · rw [hu] at ht; cases ht
          · obtain ⟨-, q, hq, hx⟩ := over_iff.mp hx
            rw [hu] at hq; cases hq
            exact f2 hn x ⟨hx, ht⟩ hm
      · rw [if_neg hc]
        refine ⟨none, rfl, by simp, ?_⟩
        rintro - x ⟨rfl | hx, ht⟩ _
        · rw [hu] at ht; cases ht
        · obtain ⟨hl, q, hq, -⟩ := over_iff.mp hx
          exact hc ((canUp_iff ho).mpr fun hn => ⟨by simp [hu], hl hn⟩)

/-- each resource is covered by at most one top -/
theorem top_unique {w : World} {P : Nat → Prop} {r x y : Nat} (hx : x = r ∨ w.Over P r x) (hxt : w.up x = none)
    (hy : y = r ∨ w.Over P r y) (hyt : w.up y = none) : x = y := by
  have key : ∀ {r x}, w.Over P r x → ∀ y, (y = r ∨ w.Over P r y) → w.up y = none → w.up x = none → x = y := by
    intro r x h
    induction h with
    | @parent p h1 h2 =>
      intro y hy hyt hpt
      rcases hy with rfl | hy
      · rw [h2] at hyt; cases hyt
      · obtain ⟨-, q, hq, h3⟩ := over_iff.mp hy
        rw [h2] at hq; cases hq
        rcases h3 with rfl | h3
        · rfl
        · obtain ⟨-, q, hq, -⟩ := over_iff.mp h3
          rw [hpt] at hq; cases hq
    | @higher q p ho h2 h3 ih =>
      intro y hy hyt hpt
      -- walk from `r` to `q`, then to `p`; `y` is on or beyond
      have walk : ∀ {r q}, w.Over P r q → ∀ y, (y = r ∨ w.Over P r y) → w.up y = none → w.up q = some p →
          (y = q ∨ w.Over P q y) := by
        intro r q ho
        induction ho with
        | parent h1 h2 =>
          intro y hy hyt _
          rcases hy with rfl | hy
          · rw [h2] at hyt; cases hyt
          · obtain ⟨-, z, hz, h3⟩ := over_iff.mp hy
            rw [h2] at hz; cases hz; exact h3
        | @higher q' q'' _ h4 h5 ih =>
          intro y hy hyt hq
          have : y = q' ∨ w.Over P q' y := by
            rename_i hov
            clear ih
            -- repeat the argument one level down
            have aux : ∀ {r q}, w.Over P r q → (w.up q).isSome → ∀ y, (y = r ∨ w.Over P r y) → w.up y = none →
                (y = q ∨ w.Over P q y) := by
              intro r q ho
              induction ho with
              | parent h1 h2 =>
                intro _ y hy hyt
                rcases hy with rfl | hy
                · rw [h2] at hyt; cases hyt
                · obtain ⟨-, z, hz, h3⟩ := over_iff.mp hy
                  rw [h2] at hz; cases hz; exact h3
              | higher _ h2 h3 ih =>
                intro _ y hy hyt
                rcases ih (by simp [h3]) y hy hyt with rfl | h6
                · rw [h3] at hyt; cases hyt
                · obtain ⟨-, z, hz, h7⟩ := over_iff.mp h6
                  rw [h3] at hz; cases hz; exact h7
            exact aux hov (by simp [h5]) y hy hyt
          rcases this with rfl | h6
          · rw [h5] at hyt; cases hyt
          · obtain ⟨-, z, hz, h7⟩ := over_iff.mp h6
            rw [h5] at hz; cases hz; exact h7
      rcases walk ho y hy hyt h3 with rfl | h6
      · rw [h3] at hyt; cases hyt
      · obtain ⟨-, z, hz, h7⟩ := over_iff.mp h6
        rw [h3] at hz; cases hz
        rcases h7 with rfl | h7
        · rfl
        · obtain ⟨-, z, hz, -⟩ := over_iff.mp h7
          rw [hpt] at hz; cases hz
  rcases hx with rfl | hx
  · rcases hy with rfl | hy
    · rfl
    · exact (key hy _ (.inl rfl) hxt hyt).symm
  · exact key hx y hy hyt hxt

/-! ### child iterators -/

theorem succOf_prefix {l₁ l₂ : List Nat} {c : Nat} (h : (l₁ ++ c :: l₂).Nodup) : succOf (l₁ ++ c :: l₂) (some c) = l₂.head? := by
  have hn : ∀ x ∈ l₁, x ≠ c := by
    rintro x hx rfl
    exact (List.nodup_append.mp h).2.2 x hx x (by simp) rfl
  simp only [succOf]
  rw [List.dropWhile_append_of_pos (by intro x hx; simpa using hn x hx)]
  simp

def visible (h : Nat → Option Node) (c : Nat) : Bool := match h c with | none => false | some n => !n.noDown

theorem iterNext_spec {h : Nat → Option Node} : ∀ (l₂ l₁ : List Nat) (fuel : Nat) (it : Iter),
    (l₁ ++ l₂).Nodup → (∀ c ∈ l₁ ++ l₂, h c ≠ none) → it.next = l₂.head? → l₂.length < fuel →
    (l₂.filter (visible h) = [] ∧ ∃ it', iterNext h (l₁ ++ l₂) fuel it = some (it', none)) ∨
    (∃ a c b it', l₂ = a ++ c :: b ∧ l₂.filter (visible h) = c :: b.filter (visible h) ∧
      iterNext h (l₁ ++ l₂) fuel it = some (it', some c) ∧ it'.next = b.head? ∧ it'.prev = it.prev) := by
  intro l₂
  induction l₂ with
  | nil =>
    intro l₁ fuel it _ _ hn hf
    obtain ⟨f, rfl⟩ : ∃ f, fuel = f + 1 := ⟨fuel - 1, by simp at hf; omega⟩
    left
    exact ⟨rfl, it, by simp [iterNext, hn]⟩
  | cons c l₂ ih =>
    intro l₁ fuel it hnd hl hn hf
    obtain ⟨f, rfl⟩ : ∃ f, fuel = f + 1 := ⟨fuel - 1, by simp at hf; omega⟩
    obtain ⟨n, hc⟩ := Option.ne_none_iff_exists'.mp (hl c (by simp))
    simp only [List.head?_cons] at hn
    have hs := succOf_prefix hnd
    simp only [iterNext, hn, hs, hc]
    by_cases hd : n.noDown = true
    · rw [if_pos hd]
      have e : l₁ ++ c :: l₂ = (l₁ ++ [c]) ++ l₂ := by simp
      have hv : visible h c = false := by simp [visible, hc, hd]
      rw [e]
      rcases ih (l₁ ++ [c]) f { it with current := some c, next := l₂.head? } (by rw [← e]; exact hnd)
        (by rw [← e]; exact hl) rfl (by simp at hf; omega) with ⟨h1, it', h2⟩ | ⟨a, d, b, it', h1, h2, h3, h4, h5⟩
      · left; exact ⟨by simp [hv, h1], it', h2⟩
      · right; exact ⟨c :: a, d, b, it', by simp [h1], by simp [hv, h2], h3, h4, h5⟩
    · rw [if_neg hd]
      right
      have hv : visible h c = true := by simp [visible, hc, hd]
      exact ⟨[], c, l₂, _, rfl, by simp [hv], rfl, rfl, rfl⟩

theorem nextAll_spec {h : Nat → Option Node} : ∀ (fuel : Nat) (l₁ l₂ : List Nat) (it : Iter),
    (l₁ ++ l₂).Nodup → (∀ c ∈ l₁ ++ l₂, h c ≠ none) → it.next = l₂.head? → l₂.length < fuel →
    nextAll h (l₁ ++ l₂) fuel it = some (l₂.filter (visible h)) := by
  intro fuel
  induction fuel with
  | zero => intro l₁ l₂ it _ _ _ hf; omega
  | succ fuel ih =>
    intro l₁ l₂ it hnd hl hn hf
    simp only [nextAll]
    rcases iterNext_spec l₂ l₁ ((l₁ ++ l₂).length + 1) it hnd hl hn (by simp; omega) with
      ⟨h1, it', h2⟩ | ⟨a, c, b, it', h1, h2, h3, h4, h5⟩
    · rw [h2, h1]
    · rw [h3, h2]
      simp only
      subst h1
      have e : l₁ ++ (a ++ c :: b) = (l₁ ++ (a ++ [c])) ++ b := by simp
      rw [e] at hnd hl ⊢
      rw [ih (l₁ ++ (a ++ [c])) b it' hnd hl h4 (by simp at hf; omega)]
      rfl

/-- going backwards is going forwards in the reversed list -/
theorem iterPrev_rev {h : Nat → Option Node} {l : List Nat} : ∀ (fuel : Nat) (it : Iter),
    (iterPrev h l fuel it).map (fun r => (({ r.1 with prev := r.1.next, next := r.1.prev } : Iter), r.2)) =
      iterNext h l.reverse fuel { it with prev := it.next, next := it.prev } := by
  intro fuel
  induction fuel with
  | zero => intro it; rfl
  | succ fuel ih =>
    intro it
    obtain ⟨res, prev, cur, next⟩ := it
    simp only [iterPrev, iterNext]
    cases prev with
    | none => rfl
    | some c =>
      simp only [predOf]
      cases h c with
      | none => rfl
      | some n =>
        simp only
        split
        · rw [ih]
        · rfl

theorem prevAll_rev {h : Nat → Option Node} {l : List Nat} : ∀ (fuel : Nat) (it : Iter),
    prevAll h l fuel it = nextAll h l.reverse fuel { it with prev := it.next, next := it.prev } := by
  intro fuel
  induction fuel with
  | zero => intro it; rfl
  | succ fuel ih =>
    intro it
    simp only [prevAll, nextAll, List.length_reverse]
    rw [← iterPrev_rev]
    cases iterPrev h l (l.length + 1) it with
    | none => rfl
    | some r =>
      obtain ⟨it', c⟩ := r
      cases c with
      | none => rfl
      | some c => simp only [Option.map_some]; rw [ih]

end Sid.Res
