import Verif.Spec.SrvLnk
import Verif.Proof.List
/-
Proofs about service links.
-/
namespace Sid.Srv
open Sid.Lst (Heap Seg Ring cells)
open Sid.Spec.SrvLnk

/-- the settings of a link -/
def Link.info (l : Link) : Info := ⟨l.name, l.kind, l.notif, l.flags, l.data⟩

/-- memory represents what the program sees -/
structure Rep (w : World) (s : State) : Prop where
  heap : Lst.Inv w.heap s.groups
  link : ∀ a, (w.links a).map Link.info = s.info a
  group : ∀ a l, w.links a = some l → ∀ g, l.group = some g ↔ ∃ xs, (g, xs) ∈ s.groups ∧ a ∈ xs
  alive : ∀ l ∈ s.groups, w.groups l.1 ≠ none
  head : ∀ l ∈ s.groups, s.info l.1 = none
  mem : ∀ l ∈ s.groups, ∀ a ∈ l.2, s.info a ≠ none

theorem inv_drop {h : Heap} {s1 s2 : Spec.Lists.State} {l} (I : Lst.Inv h (s1 ++ l :: s2)) : Lst.Inv h (s1 ++ s2) := by
  refine ⟨fun m hm => I.ring m ?_, ?_⟩
  · rcases List.mem_append.mp hm with h | h <;> simp [h]
  · have := I.nodup
    rw [Lst.cells_mid] at this
    simp only [cells, List.flatMap_append]
    refine List.Nodup.sublist (List.Sublist.append_left ?_ _) this
    exact List.sublist_append_right _ _

theorem inv_init {h : Heap} {s : Spec.Lists.State} {a : Nat} (I : Lst.Inv h s) (ha : a ∉ cells s) : Lst.Inv (Lst.init h a) s :=
  inv_drop (s1 := []) (Lst.step_inv I (Spec.Lists.Step.init (a := a) (by rw [Lst.used_iff]; exact ha)))

theorem Rep.cells {w : World} {s : State} (R : Rep w s) {a : Nat} (h : ¬ s.Used a) : a ∉ cells s.groups := by
  intro hc
  simp only [Lst.cells, List.mem_flatMap, List.mem_cons] at hc
  exact h (Or.inr hc)

theorem info_none {w : World} {s : State} (R : Rep w s) {a : Nat} : s.info a = none ↔ w.links a = none := by
  rw [← R.link]
  cases w.links a <;> simp

theorem info_some {w : World} {s : State} (R : Rep w s) {a : Nat} (h : s.info a ≠ none) : ∃ l, w.links a = some l ∧ s.info a = some l.info := by
  rw [← R.link] at h ⊢
  cases hl : w.links a with
  | none => rw [hl] at h; simp at h
  | some l => exact ⟨l, rfl, rfl⟩

/-- heads and members of all lists are different -/
theorem unique_list {w : World} {s : State} (R : Rep w s) {l m : Nat × List Nat} (hl : l ∈ s.groups) (hm : m ∈ s.groups) {x : Nat}
    (h1 : x ∈ l.1 :: l.2) (h2 : x ∈ m.1 :: m.2) : l = m := by
  have key : ∀ (s : List (Nat × List Nat)), (Lst.cells s).Nodup → ∀ l ∈ s, ∀ m ∈ s, x ∈ l.1 :: l.2 → x ∈ m.1 :: m.2 → l = m := by
    intro s
    induction s with
    | nil => intro _ l hl; cases hl
    | cons a s ih =>
      intro hd l hl m hm h1 h2
      simp only [Lst.cells, List.flatMap_cons] at hd
      rw [List.nodup_append] at hd
      have hin : ∀ m ∈ s, x ∈ m.1 :: m.2 → x ∈ s.flatMap fun l => l.1 :: l.2 := fun m hm h => List.mem_flatMap.mpr ⟨m, hm, h⟩
      rcases List.mem_cons.mp hl with e | hl' <;> rcases List.mem_cons.mp hm with e' | hm'
      · rw [e, e']
      · subst e; exact absurd rfl (hd.2.2 x h1 x (hin m hm' h2))
      · subst e'; exact absurd rfl (hd.2.2 x h2 x (hin l hl' h1))
      · exact ih hd.2.1 l hl' m hm' h1 h2
  exact key s.groups R.heap.nodup l hl m hm h1 h2

theorem list_nodup {w : World} {s : State} (R : Rep w s) {l : Nat × List Nat} (hl : l ∈ s.groups) : (l.1 :: l.2).Nodup := by
  obtain ⟨s1, s2, e⟩ := List.append_of_mem hl
  have := R.heap.nodup
  rw [e, Lst.cells_mid] at this
  exact (List.nodup_append.1 (List.nodup_append.1 this).2.1).1

theorem ring_of {w : World} {s : State} (R : Rep w s) {g : Nat} {xs : List Nat} (hl : (g, xs) ∈ s.groups) :
    Seg w.heap g xs g ∧ g ∉ xs := ⟨R.heap.ring _ hl, (List.nodup_cons.mp (list_nodup R hl)).1⟩

/-- the cell after another -/
theorem ring_next {w : World} {s : State} (R : Rep w s) {g : Nat} {kept todo : List Nat} {x : Nat}
    (hl : (g, kept ++ x :: todo) ∈ s.groups) : w.heap.n x = (todo ++ [g]).headD g := by
  have := (Lst.seg_append.1 (ring_of R hl).1).2
  rw [Lst.seg_first this]
  cases todo <;> rfl

theorem ring_first {w : World} {s : State} (R : Rep w s) {g : Nat} {xs : List Nat} (hl : (g, xs) ∈ s.groups) :
    w.heap.n g = (xs ++ [g]).headD g := by
  rw [Lst.seg_first (ring_of R hl).1]
  cases xs <;> rfl

/-! ### calls about one link -/

theorem Rep.setting {w : World} {s : State} (R : Rep w s) {a : Nat} {i : Info} (hi : s.info a = some i) (f : Link → Link) (j : Info)
    (hf : ∀ l : Link, l.info = i → (f l).info = j ∧ (f l).group = l.group) :
    ∃ w', w.change a f = some w' ∧ Rep w' (s.set a (some j)) := by
  obtain ⟨l, hl, hli⟩ := info_some R (by rw [hi]; simp : s.info a ≠ none)
  have hli' : l.info = i := by rw [hi] at hli; exact (Option.some.inj hli).symm
  have hlive : ∀ x, s.info x = none → x ≠ a := fun x hx e => by rw [e, hi] at hx; cases hx
  refine ⟨w.putLink a (some (f l)), by simp [World.change, hl], R.heap, ?_, ?_, R.alive, ?_, ?_⟩
  · intro x
    by_cases e : x = a
    · simp [World.putLink, State.set, e, (hf l hli').1]
    · simpa [World.putLink, State.set, e] using R.link x
  · intro x l' hx g
    by_cases e : x = a
    · simp only [World.putLink, e, if_true, Option.some.injEq] at hx
      subst hx
      rw [(hf l hli').2, e]
      exact R.group a l hl g
    · simp only [World.putLink, e, if_false] at hx
      exact R.group x l' hx g
  · intro m hm
    have := R.head m hm
    simpa [State.set, hlive _ this] using this
  · intro m hm x hx
    have := R.mem m hm x hx
    by_cases e : x = a <;> simp [State.set, e]
    exact fun h => this h

theorem Rep.fresh {w : World} {s : State} (R : Rep w s) {a : Nat} (ha : ¬ s.Used a) (l : Link) (hg : l.group = none) :
    Rep { w.putLink a (some l) with heap := Lst.init w.heap a } (s.set a (some l.info)) := by
  have hm : ∀ m ∈ s.groups, m.1 ≠ a ∧ a ∉ m.2 := fun m hm =>
    ⟨fun e => ha (Or.inr ⟨m, hm, Or.inl e.symm⟩), fun h => ha (Or.inr ⟨m, hm, Or.inr h⟩)⟩
  refine ⟨inv_init R.heap (R.cells ha), ?_, ?_, R.alive, ?_, ?_⟩
  · intro x
    by_cases e : x = a
    · simp [World.putLink, State.set, e]
    · simpa [World.putLink, State.set, e] using R.link x
  · intro x l' hx g
    by_cases e : x = a
    · simp only [World.putLink, e, if_true, Option.some.injEq] at hx
      subst hx
      rw [hg, e]
      constructor
      · nofun
      · rintro ⟨xs, h1, h2⟩; exact absurd h2 (hm _ h1).2
    · simp only [World.putLink, e, if_false] at hx
      exact R.group x l' hx g
  · intro m h
    simpa [State.set, (hm m h).1] using R.head m h
  · intro m h x hx
    have := R.mem m h x hx
    by_cases e : x = a <;> simp [State.set, e]
    exact fun h => this h

theorem create_ok {w : World} {s : State} (R : Rep w s) {a : Nat} (ha : ¬ s.Used a) (k : Kind) (n : Str) :
    Rep (create w a k n) (s.set a (some { name := n, kind := k })) := R.fresh ha { name := n, kind := k } rfl

theorem clone_ok {w : World} {s : State} (R : Rep w s) {src a : Nat} {i : Info} (ha : ¬ s.Used a) (hs : s.info src = some i)
    (n : Option Str) : ∃ w', clone w src a n = some w' ∧ Rep w' (s.set a (some { i with name := n.getD i.name })) := by
  obtain ⟨l, hl, hli⟩ := info_some R (by rw [hs]; simp : s.info src ≠ none)
  have hli' : i = l.info := by rw [hs] at hli; exact Option.some.inj hli
  subst hli'
  exact ⟨_, by simp only [clone, hl, Option.map_some]; rfl, R.fresh ha _ rfl⟩

/-! ### groups: made, added to, removed from -/

theorem grpCreate_ok {w : World} {s : State} (R : Rep w s) {g : Nat} (hg : ¬ s.Used g) (n : Str) :
    Rep (grpCreate w g n) { s with groups := (g, []) :: s.groups } := by
  have hc := R.cells hg
  refine ⟨Lst.step_inv R.heap (Spec.Lists.Step.init (a := g) (by rw [Lst.used_iff]; exact hc)), R.link, ?_, ?_, ?_, ?_⟩
  · intro a l hl g'
    rw [R.group a l hl g']
    constructor
    · rintro ⟨xs, h1, h2⟩; exact ⟨xs, by simp [h1], h2⟩
    · rintro ⟨xs, h1, h2⟩
      rcases List.mem_cons.mp h1 with e | h1
      · cases e; cases h2
      · exact ⟨xs, h1, h2⟩
  · intro l hl
    rcases List.mem_cons.mp hl with e | hl
    · subst e; simp [grpCreate, World.putGroup]
    · have := R.alive l hl
      by_cases e : l.1 = g <;> simp [grpCreate, World.putGroup, e]
      exact fun h => this h
  · intro l hl
    rcases List.mem_cons.mp hl with e | hl
    · subst e
      cases h : s.info g with
      | none => rfl
      | some i => exact absurd (Or.inl (by simp [h])) hg
    · exact R.head l hl
  · intro l hl a ha
    rcases List.mem_cons.mp hl with e | hl
    · subst e; cases ha
    · exact R.mem l hl a ha

theorem grpAdd_ok {w : World} {s1 s2 : List (Nat × List Nat)} {info : Nat → Option Info} {g a : Nat} {xs : List Nat}
    (R : Rep w ⟨s1 ++ (g, xs) :: s2, info⟩) (ha : info a ≠ none) (hm : ¬ (State.mk (s1 ++ (g, xs) :: s2) info).Member a) :
    ∃ w', grpAdd w g a = some w' ∧ Rep w' ⟨s1 ++ (g, xs ++ [a]) :: s2, info⟩ := by
  obtain ⟨l, hl, hli⟩ := info_some R ha
  have hmem : ∀ m ∈ s1 ++ (g, xs) :: s2, m.1 ≠ a ∧ a ∉ m.2 := fun m h =>
    ⟨fun e => ha (by have := R.head m h; rw [e] at this; exact this), fun h' => hm ⟨m, h, h'⟩⟩
  have hu : ¬ Spec.Lists.Used (s1 ++ (g, xs) :: s2) a := by
    rintro ⟨m, h, e | e⟩
    · exact (hmem m h).1 e.symm
    · exact (hmem m h).2 e
  have hgr : w.groups g ≠ none := R.alive (g, xs) (by simp)
  cases hgn : w.groups g with
  | none => exact absurd hgn hgr
  | some nm =>
    refine ⟨{ w with heap := Lst.add w.heap g a }.putLink a (some { l with group := some g }), ?_, ?_⟩
    · simp [grpAdd, hgn, World.change, hl]
    · refine ⟨Lst.step_inv R.heap (Spec.Lists.Step.add hu), ?_, ?_, ?_, ?_, ?_⟩
      · intro x
        by_cases e : x = a
        · subst e
          have := R.link x
          rw [hl] at this
          simpa [World.putLink, Link.info] using this
        · simpa [World.putLink, e] using R.link x
      · intro x l' hx g'
        by_cases e : x = a
        · subst e
          simp only [World.putLink, if_true, Option.some.injEq] at hx
          subst hx
          simp only [Option.some.injEq]
          constructor
          · rintro rfl; exact ⟨xs ++ [x], by simp, by simp⟩
          · rintro ⟨ys, h1, h2⟩
            simp only [List.mem_append, List.mem_cons] at h1
            rcases h1 with h1 | h1 | h1
            · exact absurd h2 (hmem (g', ys) (by simp [h1])).2
            · cases h1; rfl
            · exact absurd h2 (hmem (g', ys) (by simp [h1])).2
        · simp only [World.putLink, e, if_false] at hx
          rw [R.group x l' hx g']
          simp only [List.mem_append, List.mem_cons]
          constructor
          · rintro ⟨ys, h1 | h1 | h1, h2⟩
            · exact ⟨ys, Or.inl h1, h2⟩
            · cases h1; exact ⟨xs ++ [a], Or.inr (Or.inl rfl), by simp [h2]⟩
            · exact ⟨ys, Or.inr (Or.inr h1), h2⟩
          · rintro ⟨ys, h1 | h1 | h1, h2⟩
            · exact ⟨ys, Or.inl h1, h2⟩
            · cases h1
              simp only [List.mem_append, List.mem_singleton, e, or_false] at h2
              exact ⟨xs, Or.inr (Or.inl rfl), h2⟩
            · exact ⟨ys, Or.inr (Or.inr h1), h2⟩
      · intro m hm'
        simp only [List.mem_append, List.mem_cons] at hm'
        rcases hm' with h | rfl | h
        · exact R.alive m (by simp [h])
        · exact hgr
        · exact R.alive m (by simp [h])
      · intro m hm'
        simp only [List.mem_append, List.mem_cons] at hm'
        rcases hm' with h | rfl | h
        · exact R.head m (by simp [h])
        · exact R.head (g, xs) (by simp)
        · exact R.head m (by simp [h])
      · intro m hm' x hx
        simp only [List.mem_append, List.mem_cons] at hm'
        rcases hm' with h | rfl | h
        · exact R.mem m (by simp [h]) x hx
        · simp only [List.mem_append, List.mem_singleton] at hx
          rcases hx with hx | rfl
          · exact R.mem (g, xs) (by simp) x hx
          · exact ha
        · exact R.mem m (by simp [h]) x hx

theorem filter_ne {l : List Nat} {a : Nat} (h : a ∉ l) : l.filter (· ≠ a) = l := by
  rw [List.filter_eq_self]
  intro x hx
  simp only [decide_eq_true_eq]
  exact fun e => h (e ▸ hx)

theorem map_out {s : List (Nat × List Nat)} {a : Nat} (h : ∀ m ∈ s, a ∉ m.2) : (s.map fun l => (l.1, l.2.filter (· ≠ a))) = s := by
  conv => rhs; rw [← List.map_id s]
  refine List.map_congr_left fun m hm => ?_
  rw [filter_ne (h m hm)]
  rfl

theorem out_free {s : State} {a : Nat} (h : ¬ s.Member a) : s.out a = s := by
  unfold State.out
  rw [map_out fun m hm ha => h ⟨m, hm, ha⟩]

theorem out_mid {w : World} {s1 s2 : List (Nat × List Nat)} {info : Nat → Option Info} {g a : Nat} {xs ys : List Nat}
    (R : Rep w ⟨s1 ++ (g, xs ++ a :: ys) :: s2, info⟩) :
    (State.mk (s1 ++ (g, xs ++ a :: ys) :: s2) info).out a = ⟨s1 ++ (g, xs ++ ys) :: s2, info⟩ := by
  have hd := R.heap.nodup
  rw [Lst.cells_mid, List.nodup_append, List.nodup_append] at hd
  have h1 : ∀ m ∈ s1, a ∉ m.2 := fun m hm h =>
    hd.2.2 a (Lst.mem_cells_of hm (by simp [h])) a (by simp) rfl
  have h2 : ∀ m ∈ s2, a ∉ m.2 := fun m hm h =>
    hd.2.1.2.2 a (by simp) a (Lst.mem_cells_of hm (by simp [h])) rfl
  have h3 : a ∉ xs ∧ a ∉ ys := by
    have := (List.nodup_cons.mp hd.2.1.1).2
    rw [List.nodup_append] at this
    exact ⟨fun h => this.2.2 a h a (by simp) rfl, (List.nodup_cons.mp this.2.1).1⟩
  simp only [State.out, List.map_append, List.map_cons, map_out h1, map_out h2, List.filter_append, filter_ne h3.1, List.filter_cons,
    filter_ne h3.2, ne_eq, not_true, decide_false, Bool.false_eq_true, if_false]

theorem unlink_core {w : World} {s : State} (R : Rep w s) {g a : Nat} {xs : List Nat} (hg : (g, xs) ∈ s.groups) (ha : a ∈ xs) :
    ∃ w', ({ w with heap := Lst.del w.heap a }.change a fun l => { l with group := none }) = some w' ∧ Rep w' (s.out a) := by
  obtain ⟨s1, s2, e⟩ := List.append_of_mem hg
  obtain ⟨ys, zs, rfl⟩ := List.append_of_mem ha
  have es : s = ⟨s1 ++ (g, ys ++ a :: zs) :: s2, s.info⟩ := by rw [← e]
  have R' := R
  rw [es] at R'
  have hout : s.out a = ⟨s1 ++ (g, ys ++ zs) :: s2, s.info⟩ := by
    conv => lhs; rw [es]
    exact out_mid R'
  have hsub : ∀ g' ws, (g', ws) ∈ (s.out a).groups ↔ ∃ vs, (g', vs) ∈ s.groups ∧ ws = vs.filter (· ≠ a) := by
    intro g' ws
    simp only [State.out, List.mem_map, Prod.mk.injEq]
    constructor
    · rintro ⟨l, h1, h2, h3⟩; exact ⟨l.2, by rw [← h2]; exact h1, h3.symm⟩
    · rintro ⟨vs, h1, h2⟩; exact ⟨(g', vs), h1, rfl, h2.symm⟩
  obtain ⟨l, hl, hli⟩ := info_some R (R.mem _ hg a ha)
  refine ⟨{ w with heap := Lst.del w.heap a }.putLink a (some { l with group := none }), by simp [World.change, hl], ?_, ?_, ?_, ?_,
    ?_, ?_⟩
  · rw [hout]
    have := R.heap
    rw [e] at this
    exact Lst.step_inv this Spec.Lists.Step.del
  · intro x
    by_cases ex : x = a
    · subst ex
      have := R.link x
      rw [hl] at this
      simpa [World.putLink, Link.info, State.out] using this
    · simpa [World.putLink, ex, State.out] using R.link x
  · intro x l' hx g'
    by_cases ex : x = a
    · subst ex
      simp only [World.putLink, if_true, Option.some.injEq] at hx
      subst hx
      constructor
      · nofun
      · rintro ⟨ws, h1, h2⟩
        obtain ⟨vs, -, rfl⟩ := (hsub g' ws).mp h1
        simp at h2
    · simp only [World.putLink, ex, if_false] at hx
      rw [R.group x l' hx g']
      constructor
      · rintro ⟨vs, h1, h2⟩
        exact ⟨_, (hsub g' _).mpr ⟨vs, h1, rfl⟩, by simp [h2, ex]⟩
      · rintro ⟨ws, h1, h2⟩
        obtain ⟨vs, h3, rfl⟩ := (hsub g' ws).mp h1
        exact ⟨vs, h3, (List.mem_filter.mp h2).1⟩
  · intro m hm
    obtain ⟨vs, h3, -⟩ := (hsub m.1 m.2).mp hm
    exact R.alive (m.1, vs) h3
  · intro m hm
    obtain ⟨vs, h3, -⟩ := (hsub m.1 m.2).mp hm
    exact R.head (m.1, vs) h3
  · intro m hm x hx
    obtain ⟨vs, h3, e3⟩ := (hsub m.1 m.2).mp hm
    rw [e3] at hx
    exact R.mem _ h3 x (List.mem_filter.mp hx).1

theorem grpDel_ok {w : World} {s : State} (R : Rep w s) {g a : Nat} {xs : List Nat} (hg : (g, xs) ∈ s.groups) (ha : s.info a ≠ none) :
    ∃ w', grpDel w g a = some (if a ∈ xs then 0 else -22, w') ∧ Rep w' (if a ∈ xs then s.out a else s) := by
  obtain ⟨l, hl, -⟩ := info_some R ha
  have hiff : l.group = some g ↔ a ∈ xs := by
    rw [R.group a l hl g]
    constructor
    · rintro ⟨ys, h1, h2⟩
      have := unique_list R h1 hg (x := g) (by simp) (by simp)
      cases this
      exact h2
    · intro h; exact ⟨xs, hg, h⟩
  unfold grpDel
  rw [hl]
  simp only [Option.bind_some]
  by_cases h : a ∈ xs
  · obtain ⟨w', e, R'⟩ := unlink_core R hg h
    refine ⟨w', ?_, by simpa [h] using R'⟩
    rw [if_pos (hiff.mpr h), e]
    simp [h]
  · rw [if_neg (fun e => h (hiff.mp e))]
    exact ⟨w, by simp [h], by simpa [h] using R⟩

/-- a link that is in no group goes -/
theorem Rep.forget {w : World} {s : State} (R : Rep w s) {a : Nat} (hm : ¬ s.Member a) : Rep (w.putLink a none) (s.set a none) := by
  refine ⟨R.heap, ?_, ?_, R.alive, ?_, ?_⟩
  · intro x
    by_cases e : x = a
    · simp [World.putLink, State.set, e]
    · simpa [World.putLink, State.set, e] using R.link x
  · intro x l' hx g
    by_cases e : x = a
    · simp [World.putLink, e] at hx
    · simp only [World.putLink, e, if_false] at hx
      exact R.group x l' hx g
  · intro m h
    by_cases e : m.1 = a
    · simp [State.set, e]
    · simpa [State.set, e] using R.head m h
  · intro m h x hx
    have hne : x ≠ a := fun e => hm ⟨m, h, e ▸ hx⟩
    simpa [State.set, hne] using R.mem m h x hx

theorem out_not_member {s : State} {a : Nat} : ¬ (s.out a).Member a := by
  rintro ⟨m, h, ha⟩
  simp only [State.out, List.mem_map] at h
  obtain ⟨l, -, rfl⟩ := h
  simp at ha

theorem destroy_ok {w : World} {s : State} (R : Rep w s) {a : Nat} (ha : s.info a ≠ none) :
    ∃ w', destroy w a = some w' ∧ Rep w' ((s.out a).set a none) := by
  obtain ⟨l, hl, -⟩ := info_some R ha
  unfold destroy
  rw [hl]
  simp only [Option.bind_some]
  cases hg : l.group with
  | none =>
    have hm : ¬ s.Member a := by
      rintro ⟨m, h1, h2⟩
      have := (R.group a l hl m.1).mpr ⟨m.2, h1, h2⟩
      rw [hg] at this
      cases this
    rw [out_free hm]
    exact ⟨_, rfl, R.forget hm⟩
  | some g =>
    obtain ⟨xs, h1, h2⟩ := (R.group a l hl g).mp hg
    obtain ⟨w', e, R'⟩ := grpDel_ok R h1 ha
    rw [if_pos h2] at e R'
    exact ⟨w'.putLink a none, by simp [e], R'.forget out_not_member⟩

/-! ### groups destroyed -/

theorem Rep.unlist {w : World} {s1 s2 : List (Nat × List Nat)} {info : Nat → Option Info} {g : Nat}
    (R : Rep w ⟨s1 ++ (g, []) :: s2, info⟩) : Rep (w.putGroup g none) ⟨s1 ++ s2, info⟩ := by
  have hin : ∀ {m}, m ∈ s1 ++ s2 → m ∈ s1 ++ (g, []) :: s2 := by
    intro m hm
    simp only [List.mem_append, List.mem_cons] at hm ⊢
    rcases hm with h | h
    · exact Or.inl h
    · exact Or.inr (Or.inr h)
  refine ⟨inv_drop R.heap, R.link, ?_, ?_, ?_, ?_⟩
  · intro a l hl g'
    rw [R.group a l hl g']
    constructor
    · rintro ⟨xs, h1, h2⟩
      simp only [List.mem_append, List.mem_cons] at h1
      rcases h1 with h1 | h1 | h1
      · exact ⟨xs, by simp [h1], h2⟩
      · cases h1; cases h2
      · exact ⟨xs, by simp [h1], h2⟩
    · rintro ⟨xs, h1, h2⟩; exact ⟨xs, hin h1, h2⟩
  · intro m hm
    have hne : m.1 ≠ g := by
      intro e
      have hd := R.heap.nodup
      rw [Lst.cells_mid, List.nodup_append, List.nodup_append] at hd
      rcases List.mem_append.mp hm with h | h
      · exact hd.2.2 g (Lst.mem_cells_of h (by simp [e])) g (by simp) rfl
      · exact hd.2.1.2.2 g (by simp) g (Lst.mem_cells_of h (by simp [e])) rfl
    simpa [World.putGroup, hne] using R.alive m (hin hm)
  · intro m hm; exact R.head m (hin hm)
  · intro m hm; exact R.mem m (hin hm)

theorem unlinkLoop_ok {g : Nat} {s1 s2 : List (Nat × List Nat)} {info : Nat → Option Info} : ∀ (todo : List Nat) (w : World)
    (fuel : Nat), todo.length ≤ fuel → Rep w ⟨s1 ++ (g, todo) :: s2, info⟩ →
    ∃ w', unlinkLoop g fuel w ((todo ++ [g]).headD g) (w.heap.n ((todo ++ [g]).headD g)) = some w' ∧ w'.groups = w.groups ∧
      Rep w' ⟨s1 ++ (g, []) :: s2, info⟩ := by
  intro todo
  induction todo with
  | nil =>
    intro w fuel _ R
    refine ⟨w, ?_, rfl, R⟩
    cases fuel <;> simp [unlinkLoop]
  | cons x todo ih =>
    intro w fuel hf R
    obtain ⟨fuel, rfl⟩ : ∃ f, fuel = f + 1 := ⟨fuel - 1, by simp at hf; omega⟩
    have hf' : todo.length ≤ fuel := by simpa using hf
    have hin : (g, x :: todo) ∈ s1 ++ (g, x :: todo) :: s2 := by simp
    have hxg : x ≠ g := fun e => (ring_of R hin).2 (by simp [e])
    have hnx : w.heap.n x = (todo ++ [g]).headD g := ring_next R (kept := []) hin
    obtain ⟨w1, e1, R1⟩ := unlink_core R hin (by simp : x ∈ x :: todo)
    have hout := out_mid (xs := []) (ys := todo) (a := x) R
    simp only [List.nil_append] at hout
    rw [hout] at R1
    obtain ⟨w', e2, e3, R2⟩ := ih w1 fuel hf' R1
    have hg1 : w1.groups = w.groups := by
      simp only [World.change, Option.map_eq_some_iff] at e1
      obtain ⟨l, -, rfl⟩ := e1
      rfl
    refine ⟨w', ?_, e3.trans hg1, R2⟩
    simp only [List.cons_append, List.headD_cons]
    rw [unlinkLoop, if_neg hxg, e1, hnx]
    exact e2

theorem grpDestroy_ok {w : World} {g : Nat} {s1 s2 : List (Nat × List Nat)} {info : Nat → Option Info} {xs : List Nat}
    (R : Rep w ⟨s1 ++ (g, xs) :: s2, info⟩) {fuel : Nat} (hf : xs.length ≤ fuel) :
    ∃ w', grpDestroy fuel w g = some w' ∧ Rep w' ⟨s1 ++ s2, info⟩ := by
  have hin : (g, xs) ∈ s1 ++ (g, xs) :: s2 := by simp
  obtain ⟨w1, e1, -, R1⟩ := unlinkLoop_ok xs w fuel hf R
  have hgr := R.alive (g, xs) hin
  cases hgn : w.groups g with
  | none => exact absurd hgn hgr
  | some nm =>
    refine ⟨w1.putGroup g none, ?_, R1.unlist⟩
    unfold grpDestroy
    rw [ring_first R hin, e1, hgn]
    rfl

theorem destroyLoop_ok {g : Nat} {s1 s2 : List (Nat × List Nat)} : ∀ (todo : List Nat) (info : Nat → Option Info) (w : World)
    (fuel : Nat), todo.length ≤ fuel → Rep w ⟨s1 ++ (g, todo) :: s2, info⟩ →
    ∃ w', destroyLoop g fuel w ((todo ++ [g]).headD g) (w.heap.n ((todo ++ [g]).headD g)) = some w' ∧
      Rep w' ⟨s1 ++ (g, []) :: s2, fun x => if x ∈ todo then none else info x⟩ := by
  intro todo
  induction todo with
  | nil =>
    intro info w fuel _ R
    refine ⟨w, ?_, by simpa using R⟩
    cases fuel <;> simp [destroyLoop]
  | cons x todo ih =>
    intro info w fuel hf R
    obtain ⟨fuel, rfl⟩ : ∃ f, fuel = f + 1 := ⟨fuel - 1, by simp at hf; omega⟩
    have hf' : todo.length ≤ fuel := by simpa using hf
    have hin : (g, x :: todo) ∈ s1 ++ (g, x :: todo) :: s2 := by simp
    have hxg : x ≠ g := fun e => (ring_of R hin).2 (by simp [e])
    have hnx : w.heap.n x = (todo ++ [g]).headD g := ring_next R (kept := []) hin
    obtain ⟨w1, e1, R1⟩ := destroy_ok R (R.mem _ hin x (by simp))
    have hout := out_mid (xs := []) (ys := todo) (a := x) R
    simp only [List.nil_append] at hout
    rw [hout] at R1
    obtain ⟨w', e2, R2⟩ := ih _ w1 fuel hf' R1
    refine ⟨w', ?_, ?_⟩
    · simp only [List.cons_append, List.headD_cons]
      rw [destroyLoop, if_neg hxg, e1, hnx]
      exact e2
    · have : (fun y => if y ∈ todo then none else if y = x then none else info y) =
          fun y => if y ∈ x :: todo then none else info y := by
        funext y
        by_cases h1 : y ∈ todo <;> by_cases h2 : y = x <;> simp [h1, h2]
      rw [← this]
      exact R2

theorem grpDestroyAll_ok {w : World} {g : Nat} {s1 s2 : List (Nat × List Nat)} {info : Nat → Option Info} {xs : List Nat}
    (R : Rep w ⟨s1 ++ (g, xs) :: s2, info⟩) {fuel : Nat} (hf : xs.length ≤ fuel) :
    ∃ w', grpDestroyAll fuel w g = some w' ∧ Rep w' ⟨s1 ++ s2, fun x => if x ∈ xs then none else info x⟩ := by
  have hin : (g, xs) ∈ s1 ++ (g, xs) :: s2 := by simp
  obtain ⟨w1, e1, R1⟩ := destroyLoop_ok xs info w fuel hf R
  have hgr := R.alive (g, xs) hin
  cases hgn : w.groups g with
  | none => exact absurd hgn hgr
  | some nm =>
    refine ⟨w1.putGroup g none, ?_, R1.unlist⟩
    unfold grpDestroyAll
    rw [ring_first R hin, e1, hgn]
    rfl

end Sid.Srv
