import Verif.Proof.BpMemStep
/-
Memory of the B+ tree: its destruction.
-/
namespace Sid.Bpt
open Sid.Spec.BpMem

/-- entries given up -/
def rs (L : List DEv) : List (Str × Nat) := L.filterMap fun | .inr x => some x | .inl _ => none

/-- what happens to keys and nodes -/
def evs (L : List DEv) : List Ev := L.filterMap fun | .inl e => some e | .inr _ => none

theorem evs_append (A B : List DEv) : evs (A ++ B) = evs A ++ evs B := by simp [evs]

theorem evs_inl (e : Ev) (L : List DEv) : evs (.inl e :: L) = e :: evs L := rfl

theorem evs_inr (x) (L : List DEv) : evs (.inr x :: L) = evs L := rfl

theorem evs_nil : evs [] = [] := rfl

theorem rs_append (A B : List DEv) : rs (A ++ B) = rs A ++ rs B := by simp [rs]

theorem rs_inl (e : Ev) (L : List DEv) : rs (.inl e :: L) = rs L := rfl

theorem rs_inr (x) (L : List DEv) : rs (.inr x :: L) = x :: rs L := rfl

theorem dtor_leaf (l : Leaf) : dtor (.leaf l) = leafDtor l.keys l.ptrs ++ [.inl .rm] := by rw [dtor]

theorem dtor_node (ks : List K) (cs : List Tree) : dtor (.node ks cs) = weave (cs.map dtor) ks ++ [.inl .rm] := by
  rw [dtor]
  congr 2
  exact List.attach_map_val (f := dtor)

theorem leafDtor_rs : ∀ {ks : List K} {ps : List Nat}, ps.length = ks.length → rs (leafDtor ks ps) = (ks.map K.str).zip ps := by
  intro ks
  induction ks with
  | nil => intro ps h; cases ps <;> simp [leafDtor, rs]
  | cons k ks ih =>
    intro ps h
    cases ps with
    | nil => simp at h
    | cons p ps =>
      simp only [leafDtor, rs_inl, rs_inr, List.map_cons, List.zip_cons_cons]
      rw [ih (by simpa using h)]

theorem leafDtor_evs : ∀ {ks : List K} {ps : List Nat}, ps.length = ks.length → evs (leafDtor ks ps) = ks.map Ev.unref := by
  intro ks
  induction ks with
  | nil => intro ps h; cases ps <;> simp [leafDtor, evs]
  | cons k ks ih =>
    intro ps h
    cases ps with
    | nil => simp at h
    | cons p ps =>
      simp only [leafDtor, List.map_cons, evs_inl, evs_inr, ih (ps := ps) (by simpa using h)]

theorem weave_rs : ∀ {ds : List (List DEv)} {ks : List K}, rs (weave ds ks) = ds.flatMap rs := by
  intro ds
  induction ds with
  | nil => intro ks; rfl
  | cons d ds ih =>
    intro ks
    cases ks with
    | nil => simp only [weave, rs_append, ih, List.flatMap_cons]
    | cons k ks => simp only [weave, rs_append, rs_inl, ih, List.flatMap_cons]

theorem weave_count (e : Ev) : ∀ {ds : List (List DEv)} {ks : List K}, ks.length ≤ ds.length →
    (evs (weave ds ks)).count e = (ds.map fun d => (evs d).count e).sum + (ks.map Ev.unref).count e := by
  intro ds
  induction ds with
  | nil => intro ks h; cases ks with
    | nil => simp [weave, evs]
    | cons k ks => simp at h
  | cons d ds ih =>
    intro ks h
    cases ks with
    | nil => simp only [weave, evs_append, List.count_append, List.map_cons, List.sum_cons, ih (ks := []) (by simp)]; simp
    | cons k ks =>
      simp only [weave, evs_append, evs_inl, List.count_append, List.map_cons, List.sum_cons, List.count_cons, ih (ks := ks) (by simpa using h)]
      omega

theorem unref_map_count (k : K) (ks : List K) : (ks.map Ev.unref).count (.unref k) = ks.count k := by
  induction ks with
  | nil => rfl
  | cons j ks ih => simp only [List.map_cons, List.count_cons, ih]; simp

theorem unref_map_other {e : Ev} (h : ∀ k, e ≠ .unref k) (ks : List K) : (ks.map Ev.unref).count e = 0 := by
  rw [List.count_eq_zero]
  intro hm
  obtain ⟨k, _, rfl⟩ := List.mem_map.mp hm
  exact h k rfl

theorem zip_flat {L : List Leaf} (h : ∀ l ∈ L, l.ptrs.length = l.keys.length) :
    L.flatMap (fun l => (l.keys.map K.str).zip l.ptrs) = ((L.flatMap Leaf.keys).map K.str).zip (L.flatMap Leaf.ptrs) := by
  induction L with
  | nil => rfl
  | cons l L ih =>
    simp only [List.flatMap_cons, List.map_append]
    rw [ih fun x hx => h x (by simp [hx]), List.zip_append (by simp [h l (by simp)])]

theorem dtor_rs {o h t} (w : Wf o h t) : rs (dtor t) = ((tkeys t).map K.str).zip (tptrs t) := by
  have : rs (dtor t) = fl (fun l => (l.keys.map K.str).zip l.ptrs) t := by
    induction w with
    | leaf l h1 h2 => rw [dtor_leaf, rs_append, leafDtor_rs h1, fl_leaf]; simp [rs]
    | node h ks cs _ _ _ _ ih =>
      rw [dtor_node, rs_append, weave_rs, fl_node, List.flatMap_map]
      have : ∀ L : List Tree, (∀ c ∈ L, rs (dtor c) = fl (fun l => (l.keys.map K.str).zip l.ptrs) c) →
          L.flatMap (fun a => rs (dtor a)) = L.flatMap (fl fun l => (l.keys.map K.str).zip l.ptrs) := by
        intro L
        induction L with
        | nil => intro _; rfl
        | cons c L ihL => intro hc; rw [List.flatMap_cons, List.flatMap_cons, hc c (by simp), ihL fun x hx => hc x (by simp [hx])]
      rw [this cs ih]; simp [rs]
  rw [this]
  exact zip_flat w.leaf_len

theorem dtor_count {o h t} (w : Wf o h t) (e : Ev) (g : List K → Nat) (hg : ∀ ks, g ks = (ks.map Ev.unref ++ [Ev.rm]).count e) :
    (evs (dtor t)).count e = weigh g t := by
  induction w with
  | leaf l h1 h2 => rw [dtor_leaf, weigh_leaf, evs_append, leafDtor_evs h1, hg]; rfl
  | node h ks cs sp _ _ _ ih =>
    rw [dtor_node, weigh_node, evs_append, List.count_append, weave_count _ (by rw [List.length_map, sp.length]; omega), List.map_map, hg,
      List.count_append]
    have : cs.map ((fun d => (evs d).count e) ∘ dtor) = cs.map (weigh g) := List.map_congr_left fun c hc => ih c hc
    rw [this, evs_inl, evs_nil]; omega

theorem dtor_unref {o h t} (w : Wf o h t) (k : K) : (evs (dtor t)).count (.unref k) = placesIn k t :=
  dtor_count w _ _ fun ks => by rw [List.count_append, unref_map_count]; simp

theorem dtor_rm {o h t} (w : Wf o h t) : (evs (dtor t)).count .rm = nodesIn t :=
  dtor_count w _ _ fun ks => by rw [List.count_append, unref_map_other (by simp)]; simp

theorem weigh_zero (t : Tree) {o h} (w : Wf o h t) : weigh (fun _ => 0) t = 0 := by
  induction w with
  | leaf l _ _ => rw [weigh_leaf]
  | node h ks cs _ _ _ _ ih =>
    rw [weigh_node]
    have : cs.map (weigh fun _ => 0) = cs.map fun _ => 0 := List.map_congr_left fun c hc => ih c hc
    rw [this]
    have : ∀ L : List Tree, (L.map fun _ => 0).sum = 0 := by
      intro L
      induction L with
      | nil => rfl
      | cons c L ih => simp [ih]
    rw [this]

theorem dtor_other {o h t} (w : Wf o h t) {e : Ev} (h1 : ∀ k, e ≠ .unref k) (h2 : e ≠ .rm) : (evs (dtor t)).count e = 0 := by
  rw [dtor_count w e (fun _ => 0) fun ks => by rw [List.count_append, unref_map_other h1]; simp [Ne.symm h2]]
  exact weigh_zero t w

/-- tree and memory on the way, `L` still to be done -/
structure DInv (z : Sizes) (L : List DEv) (b : Bpt) (m : Mem) : Prop where
  ok : MetaOk z b.order m
  keys : MemKeys m fun k => (evs L).count (.unref k)
  nodes : m.nodes = (evs L).count .rm
  recok : RecOk b ((rs L).map Prod.snd)
  recs : m.recs = b.numEntries
  only : ∀ e, e ∈ evs L → e = .rm ∨ ∃ k, e = .unref k

theorem RecOk.pos {b P} (h : RecOk b P) {r x} (hx : b.recs r = some x) : 1 ≤ b.numEntries := by
  obtain ⟨A, B, e, _⟩ := live_at b.recs b.nextRec r (h.lt hx)
  have : live b = A ++ (b.recs r).toList ++ B := e
  rw [h.count, this, hx]; simp; omega

theorem told_congr {f g : Nat → Option Rec} {es : List (Str × Nat)}
    (h : ∀ r ∈ es.map Prod.snd, (f r).map (fun x => (x.data, x.size)) = (g r).map fun x => (x.data, x.size)) : told f es = told g es := by
  induction es with
  | nil => rfl
  | cons e es ih =>
    obtain ⟨s, r⟩ := e
    simp only [told]
    rw [ih fun q hq => h q (by simp only [List.map_cons, List.mem_cons]; exact .inr hq)]
    have := h r (by simp)
    cases hf : f r with
    | none => rw [hf] at this; cases hg : g r with
      | none => rfl
      | some y => rw [hg] at this; simp at this
    | some x => rw [hf] at this; cases hg : g r with
      | none => rw [hg] at this; simp at this
      | some y => rw [hg] at this; simp at this; simp [this.1, this.2]

theorem execD_spec {z} {L : List DEv} : ∀ {b m}, DInv z L b m →
    ∃ calls b' m', execD z L b m = some (calls, b', m') ∧ DInv z [] b' m' ∧ calls.map (fun c => (c.1, some c.2)) = told b.recs (rs L) := by
  induction L with
  | nil => intro b m h; exact ⟨[], b, m, rfl, h, rfl⟩
  | cons e L ih =>
    intro b m h
    cases e with
    | inl e =>
      have hk := h.keys
      have hn := h.nodes
      have ho := h.only
      simp only [evs_inl] at hk hn ho
      rcases ho e (by simp) with rfl | ⟨k, rfl⟩
      · have h' : DInv z L b (destroyNode z b.order m) := by
          refine ⟨h.ok.destroyNode, fun k => ?_, ?_, h.recok, h.recs, fun e he => ho e (by simp [he])⟩
          · have := hk k
            simpa [destroyNode, freeN] using this
          · simp only [destroyNode, freeN, hn]; simp
        obtain ⟨calls, b', m', e1, e2, e3⟩ := ih h'
        exact ⟨calls, b', m', by simp only [execD, exec]; exact e1, e2, e3⟩
      · obtain ⟨m1, h1, h2, h3, h4, h5⟩ := unref_memKeys (z := z) hk (k := k) (by simp)
        have h' : DInv z L b m1 := by
          refine ⟨h.ok.unrefKey h1, fun j => ?_, ?_, h.recok, by rw [h5]; exact h.recs, fun e he => ho e (by simp [he])⟩
          · rw [h2 j]
            have : down (fun j => (Ev.unref k :: evs L).count (Ev.unref j)) k j = (evs L).count (.unref j) := by
              simp only [down, List.count_cons]
              by_cases ej : j = k
              · subst ej; simp
              · have : ¬ k = j := fun h => ej h.symm
                simp [ej, this]
            rw [this]
          · rw [h4, hn]; simp
        obtain ⟨calls, b', m', e1, e2, e3⟩ := ih h'
        exact ⟨calls, b', m', by simp only [execD, exec, h1]; exact e1, e2, e3⟩
    | inr x =>
      obtain ⟨s, r⟩ := x
      have hro := h.recok
      simp only [rs_inr, List.map_cons] at hro
      obtain ⟨y, hy, hyc⟩ : ∃ y, b.recs r = some y ∧ y.refs = (r :: (rs L).map Prod.snd).count r := by
        rcases hro.recs r with ⟨_, h0⟩ | ⟨y, hy, hc, _⟩
        · simp at h0
        · exact ⟨y, hy, hc⟩
      obtain ⟨b1, u1, u2, u3, u4, u5, u6, u7, u8⟩ := hro.unref (P' := (rs L).map Prod.snd) hy (by
        intro q
        rw [List.count_cons]
        by_cases e : q = r
        · subst e; simp
        · have : ¬ r = q := fun h => e h.symm
          simp [e, this])
      obtain ⟨m1, v1, v2, v3⟩ := unref_recs (z := z) (b := b) (m := m) hy hy (hro.pos hy) h.recs u1
      have h' : DInv z L b1 m1 := by
        rcases v3 with rfl | rfl
        · exact ⟨by rw [u5]; exact h.ok, h.keys, h.nodes, u2, v2, h.only⟩
        · exact ⟨by rw [u5]; exact h.ok.freeRec, h.keys, h.nodes, u2, v2, h.only⟩
      obtain ⟨calls, b', m', e1, e2, e3⟩ := ih h'
      refine ⟨(s, y) :: calls, b', m', by simp only [execD, hy, u1, v1, e1, Option.map_some], e2, ?_⟩
      simp only [List.map_cons, rs_inr, told, hy, Option.map_some]
      congr 1
      · rw [← hyc]
      · rw [e3]
        apply told_congr
        intro q hq
        by_cases eq : q = r
        · subst eq
          rw [u8, if_neg, hy]
          · rfl
          · intro h0; exact List.count_eq_zero.mp h0 hq
        · rw [u7 q eq]

theorem DInv.start {z b m t} (h : MInv z b m) (e : b.root = some t) : DInv z (dtor t) b m := by
  obtain ⟨_, w⟩ := (h.tree.tree t e).wf
  refine ⟨h.ok, ?_, ?_, ?_, h.recs, ?_⟩
  · intro k
    rw [h.keys]
    simp only [dtor_unref w, placesOf, e]
  · rw [h.nodes, dtor_rm w]; simp only [nodesOf, e]
  · rw [dtor_rs w, List.map_snd_zip (by rw [List.length_map, w.len]; exact Nat.le_refl _)]
    have := (binv_iff.mp h.tree).2.2
    simpa only [ptrsOf, e] using this
  · intro ev hev
    apply Classical.byContradiction
    intro hn
    have h1 : ∀ k, ev ≠ .unref k := fun k hk => hn (.inr ⟨k, hk⟩)
    have h2 : ev ≠ .rm := fun hk => hn (.inl hk)
    exact List.count_eq_zero.mp (dtor_other w h1 h2) hev

theorem DInv.done {z b m} (h : DInv z [] b m) : (∀ k, m.keys k = none) ∧ m.nodes = 0 ∧ m.recs = 0 ∧ m.blocks = 1 ∧ m.metaSize = z.tree := by
  have hk : ∀ k, m.keys k = none := fun k => by rw [h.keys]; simp [evs]
  have hn : m.nodes = 0 := by rw [h.nodes]; simp [evs]
  have hr : m.recs = 0 := by
    rw [h.recs, h.recok.count]
    have : live b = [] := by
      simp only [live]
      rw [List.filterMap_eq_nil_iff]
      intro r _
      rcases h.recok.recs r with ⟨h0, _⟩ | ⟨x, _, h1, h2⟩
      · exact h0
      · simp [rs] at h1; omega
    rw [this]; rfl
  obtain ⟨D, _, d2, d3, d4⟩ := h.ok
  have hD : D = [] := by
    rw [List.eq_nil_iff_forall_not_mem]
    intro k hkD
    have := (d2 k).mp hkD
    rw [hk] at this; simp at this
  refine ⟨hk, hn, hr, ?_, ?_⟩
  · rw [d4, hn, hr, hD]; simp
  · rw [d3, hn, hr, hD]; simp

theorem destroyMem_spec {z b m} (h : MInv z b m) : ∃ calls m', destroyMem z b m = some (calls, m') ∧ m'.blocks = 0 ∧ (∀ k, m'.keys k = none) ∧
    calls.map (fun c => (c.1, some c.2)) = told b.recs (entries b) := by
  cases e : b.root with
  | none =>
    refine ⟨[], freeN 1 m, by simp only [destroyMem, e], ?_, ?_, by simp [entries, e, told]⟩
    · have hx := h.exact.blocks
      have hr : (records b).length = 0 := by
        have : records b = [] := by
          simp only [records]
          rw [List.filterMap_eq_nil_iff]
          intro r _
          rcases h.tree.recs r with ⟨h0, _⟩ | ⟨x, _, h1, h2⟩
          · exact h0
          · simp [ptrsOf, e] at h1; omega
        rw [this]; rfl
      simp only [freeN, hx, hr, nodesOf, keyObjs, e]; simp
    · intro k
      show m.keys k = none
      rw [h.keys]; simp only [placesOf, e]; simp
  | some t =>
    obtain ⟨_, w⟩ := (h.tree.tree t e).wf
    obtain ⟨calls, b', m', h1, h2, h3⟩ := execD_spec (DInv.start h e)
    obtain ⟨d1, d2, d3, d4, d5⟩ := h2.done
    refine ⟨calls, freeN 1 m', by simp only [destroyMem, e, h1, Option.map_some], ?_, d1, ?_⟩
    · simp only [freeN, d4]; rfl
    · rw [h3, dtor_rs w]; simp only [entries, e]; rfl

end Sid.Bpt
