import Verif.Proof.SrvLnk
/-
Proofs about service links: copies of groups, merging, notifications.
-/
namespace Sid.Srv
open Sid.Lst (Heap Seg Ring cells)
open Sid.Spec.SrvLnk
open Sid.Ifc (txt)

/-! ### bits -/

theorem hit_bit (n : Notif) (k : Nat) (hk : k < 64) (m : Notif) (hm : m = BitVec.twoPow 64 k) : hit n m = n.getLsbD k := by
  subst hm
  unfold hit
  rw [BitVec.and_twoPow]
  cases n.getLsbD k
  · simp
  · have : BitVec.twoPow 64 k ≠ 0#64 := by
      intro h
      have := congrArg (BitVec.getLsbD · k) h
      simp [BitVec.getLsbD_twoPow, hk] at this
    simpa using this

theorem hit_unset (n : Notif) : hit n nUnset = n.getLsbD 0 := hit_bit n 0 (by decide) _ (by decide)
theorem hit_status (n : Notif) : hit n nStatus = n.getLsbD 1 := hit_bit n 1 (by decide) _ (by decide)
theorem hit_errno (n : Notif) : hit n nErrno = n.getLsbD 2 := hit_bit n 2 (by decide) _ (by decide)
theorem hit_ready (n : Notif) : hit n nReady = n.getLsbD 3 := hit_bit n 3 (by decide) _ (by decide)
theorem hit_reloading (n : Notif) : hit n nReloading = n.getLsbD 4 := hit_bit n 4 (by decide) _ (by decide)
theorem hit_stopping (n : Notif) : hit n nStopping = n.getLsbD 5 := hit_bit n 5 (by decide) _ (by decide)
theorem hit_refresh (n : Notif) : hit n nWdRefresh = n.getLsbD 6 := hit_bit n 6 (by decide) _ (by decide)
theorem hit_trigger (n : Notif) : hit n nWdTrigger = n.getLsbD 7 := hit_bit n 7 (by decide) _ (by decide)
theorem hit_message (n : Notif) : hit n nMessage = n.getLsbD 8 := hit_bit n 8 (by decide) _ (by decide)
theorem hit_cloneable (n : BitVec 64) : hit n flCloneable = n.getLsbD 0 := hit_bit n 0 (by decide) _ (by decide)

theorem hit_takes (l : Link) (n : Notif) : hit l.notif n = takes l.info n := by
  unfold takes hit
  rw [Bool.eq_iff_iff, decide_eq_true_iff, bne_iff_ne]
  constructor
  · intro h
    apply Classical.byContradiction
    intro hn
    apply h
    apply BitVec.eq_of_getLsbD_eq
    intro k hk
    rw [BitVec.getLsbD_and]
    cases h1 : l.notif.getLsbD k <;> cases h2 : n.getLsbD k <;> simp
    exact hn ⟨⟨k, hk⟩, h1, h2⟩
  · rintro ⟨k, h1, h2⟩ h
    have := congrArg (BitVec.getLsbD · k) h
    simp only [BitVec.getLsbD_and, Link.info] at this h1
    rw [h1, h2] at this
    simp at this

/-! ### copies -/

theorem lookup_zip_none {new src : List Nat} {x : Nat} (h : x ∉ new) : (new.zip src).lookup x = none := by
  rw [List.lookup_eq_none_iff]
  intro p hp
  have := (List.of_mem_zip (a := p.1) (b := p.2) hp).1
  simp only [bne_iff_ne, ne_eq]
  exact fun e => h (e ▸ this)

theorem lookup_zip_mem {new src : List Nat} {x y : Nat} (h : (new.zip src).lookup x = some y) : y ∈ src := by
  obtain ⟨l1, l2, e, -⟩ := List.lookup_eq_some_iff.mp h
  exact (List.of_mem_zip (e ▸ (by simp) : (x, y) ∈ new.zip src)).2

theorem cloneLoop_ok {g dest : Nat} {gs : List (Nat × List Nat)} : ∀ (todo kept new ds : List Nat) (info : Nat → Option Info)
    (w : World) (fuel : Nat), todo.length ≤ fuel → Rep w ⟨(dest, ds) :: gs, info⟩ → (g, kept ++ todo) ∈ gs → new.Nodup →
    (∀ a ∈ new, ¬ (State.mk ((dest, ds) :: gs) info).Used a) → new.length = (cloneable ⟨(dest, ds) :: gs, info⟩ todo).length →
    ∃ w', cloneLoop g dest fuel w ((todo ++ [g]).headD g) new = some w' ∧
      Rep w' ⟨(dest, ds ++ new) :: gs,
        fun x => ((new.zip (cloneable ⟨(dest, ds) :: gs, info⟩ todo)).lookup x).elim (info x) info⟩ := by
  intro todo
  induction todo with
  | nil =>
    intro kept new ds info w fuel _ R _ _ _ hlen
    have : new = [] := by simpa [cloneable] using hlen
    subst this
    refine ⟨w, ?_, by simpa [cloneable] using R⟩
    cases fuel <;> simp [cloneLoop]
  | cons v todo ih =>
    intro kept new ds info w fuel hf R hg hnd hfr hlen
    obtain ⟨fuel, rfl⟩ : ∃ f, fuel = f + 1 := ⟨fuel - 1, by simp at hf; omega⟩
    have hf' : todo.length ≤ fuel := by simpa using hf
    have hin : (g, kept ++ v :: todo) ∈ (dest, ds) :: gs := List.mem_cons_of_mem _ hg
    have hvg : v ≠ g := fun e => (ring_of R hin).2 (by simp [e])
    have hiv : info v ≠ none := R.mem _ hin v (by simp)
    obtain ⟨l, hl, hli⟩ := info_some R hiv
    have hg' : (g, (kept ++ [v]) ++ todo) ∈ gs := by simpa using hg
    simp only [List.cons_append, List.headD_cons]
    rw [cloneLoop.eq_def]
    simp only [if_neg hvg, hl, Option.bind_some]
    have hl0 : (info v).any (fun i => i.flags.getLsbD 0) = hit l.flags flCloneable := by
      have : info v = some l.info := hli
      rw [this, hit_cloneable]; rfl
    by_cases hc : hit l.flags flCloneable = true
    · have hcl : ∀ s1 : List (Nat × List Nat), cloneable ⟨s1, info⟩ (v :: todo) = v :: cloneable ⟨s1, info⟩ todo := by
        intro s1
        unfold cloneable
        rw [List.filter_cons_of_pos]
        rw [hl0]; exact hc
      rw [hcl] at hlen ⊢
      cases new with
      | nil => simp at hlen
      | cons a new =>
        rw [if_pos hc]
        simp only
        have hau := hfr a (by simp)
        obtain ⟨info', hinfo'⟩ : ∃ f : Nat → Option Info, f = fun x => if x = a then some l.info else info x := ⟨_, rfl⟩
        have hself : info' a = some l.info := by rw [hinfo']; simp
        have hother : ∀ x, x ≠ a → info' x = info x := fun x hx => by rw [hinfo']; simp [hx]
        obtain ⟨w1, e1, R1'⟩ := clone_ok R hau hli none
        have R1 : Rep w1 ⟨[] ++ (dest, ds) :: gs, info'⟩ := by rw [hinfo']; exact R1'
        have hna : ¬ (State.mk ([] ++ (dest, ds) :: gs) info').Member a := fun ⟨m, h1, h2⟩ => hau (Or.inr ⟨m, h1, Or.inr h2⟩)
        obtain ⟨w2, e2, R2'⟩ := grpAdd_ok (s1 := []) (s2 := gs) (g := dest) (xs := ds) (a := a) R1 (by rw [hself]; simp) hna
        have R2 : Rep w2 ⟨(dest, ds ++ [a]) :: gs, info'⟩ := R2'
        have hcl2 : cloneable ⟨(dest, ds ++ [a]) :: gs, info'⟩ todo = cloneable ⟨(dest, ds) :: gs, info⟩ todo := by
          unfold cloneable
          refine List.filter_congr fun x hx => ?_
          have : x ≠ a := fun e => hau (Or.inr ⟨_, hin, Or.inr (by simp [← e, hx])⟩)
          simp only [hother x this]
        obtain ⟨w3, e3, R3⟩ := ih (kept ++ [v]) new (ds ++ [a]) info' w2 fuel hf' R2 hg' (List.nodup_cons.mp hnd).2 (by
          intro b hb hu
          have hba : b ≠ a := fun e => (List.nodup_cons.mp hnd).1 (e ▸ hb)
          refine hfr b (by simp [hb]) ?_
          rcases hu with hu | ⟨m, h1, h2⟩
          · left; show info b ≠ none; rw [← hother b hba]; exact hu
          · right
            rcases List.mem_cons.mp h1 with e | h1
            · subst e
              refine ⟨(dest, ds), by simp, ?_⟩
              rcases h2 with h2 | h2
              · exact Or.inl h2
              · simp only [List.mem_append, List.mem_singleton, hba, or_false] at h2; exact Or.inr h2
            · exact ⟨m, List.mem_cons_of_mem _ h1, h2⟩) (by
          rw [hcl2]; simpa using hlen)
        refine ⟨w3, ?_, ?_⟩
        · rw [e1]; simp only [Option.bind_some]
          rw [e2]; simp only [Option.bind_some]
          have : w2.heap.n v = (todo ++ [g]).headD g := ring_next R2 (kept := kept) (List.mem_cons_of_mem _ hg)
          rw [this]
          exact e3
        · rw [hcl2] at R3
          rw [List.append_assoc] at R3
          have hfn : (fun x => ((new.zip (cloneable ⟨(dest, ds) :: gs, info⟩ todo)).lookup x).elim (info' x) info') =
            fun x => (((a :: new).zip (v :: cloneable ⟨(dest, ds) :: gs, info⟩ todo)).lookup x).elim (info x) info := by
            funext x
            by_cases hx : x = a
            · subst hx
              rw [lookup_zip_none (List.nodup_cons.mp hnd).1]
              have : info v = some l.info := hli
              simp [hself, this]
            · have hx' : (x == a) = false := by simpa using hx
              simp only [List.zip_cons_cons, List.lookup_cons, hx']
              cases hlk : (new.zip (cloneable ⟨(dest, ds) :: gs, info⟩ todo)).lookup x with
              | none => simp [hother x hx]
              | some y =>
                have hy : y ∈ todo := (List.mem_filter.mp (lookup_zip_mem hlk)).1
                have : y ≠ a := fun e => hau (Or.inr ⟨_, hin, Or.inr (by simp [← e, hy])⟩)
                simp [hother y this]
          rw [← hfn]
          exact R3
    · have hcl : cloneable ⟨(dest, ds) :: gs, info⟩ (v :: todo) = cloneable ⟨(dest, ds) :: gs, info⟩ todo := by
        unfold cloneable
        rw [List.filter_cons_of_neg]
        rw [hl0]; exact hc
      rw [hcl] at hlen ⊢
      rw [if_neg hc, ring_next R hin]
      exact ih (kept ++ [v]) new ds info w fuel hf' R hg' hnd hfr hlen

theorem grpClone_ok {w : World} {s : State} (R : Rep w s) {g dest : Nat} {name : Option Str} {xs new : List Nat}
    (hg : (g, xs) ∈ s.groups) (hnd : (dest :: new).Nodup) (hfr : ∀ a ∈ dest :: new, ¬ s.Used a)
    (hlen : new.length = (cloneable s xs).length) {fuel : Nat} (hf : xs.length ≤ fuel) :
    ∃ w', grpClone fuel w g dest name new = some w' ∧
      Rep w' ⟨(dest, new) :: s.groups, fun x => ((new.zip (cloneable s xs)).lookup x).elim (s.info x) s.info⟩ := by
  have hgr := R.alive (g, xs) hg
  cases hgn : w.groups g with
  | none => exact absurd hgn hgr
  | some own =>
    have R1 := grpCreate_ok R (hfr dest (by simp)) (name.getD own)
    have hin : (g, xs) ∈ (dest, []) :: s.groups := List.mem_cons_of_mem _ hg
    obtain ⟨w', e, R2⟩ := cloneLoop_ok xs [] new [] s.info _ fuel hf R1 (by simpa using hg) (List.nodup_cons.mp hnd).2 (by
      intro a ha hu
      have hne : a ≠ dest := fun e => (List.nodup_cons.mp hnd).1 (e ▸ ha)
      refine hfr a (by simp [ha]) ?_
      rcases hu with hu | ⟨m, h1, h2⟩
      · exact Or.inl hu
      · rcases List.mem_cons.mp h1 with e | h1
        · subst e
          rcases h2 with h2 | h2
          · exact absurd h2 hne
          · cases h2
        · exact Or.inr ⟨m, h1, h2⟩) hlen
    refine ⟨w', ?_, R2⟩
    unfold grpClone
    rw [hgn]
    simp only [Option.bind_some]
    rw [ring_first R1 hin]
    exact e

/-! ### every history of calls -/

theorem exec_ok {w : World} {s s' : State} {op : Op} (R : Rep w s) (hs : Step s op s') :
    ∃ fuel0, ∀ fuel, fuel0 ≤ fuel → ∃ w', exec fuel w op = some w' ∧ Rep w' s' := by
  cases hs with
  | create h => exact ⟨0, fun fuel _ => ⟨_, rfl, create_ok R h _ _⟩⟩
  | clone h h2 => exact ⟨0, fun fuel _ => clone_ok R h h2 _⟩
  | setFlags h => exact ⟨0, fun fuel _ => R.setting h _ _ (fun l e => ⟨by subst e; rfl, rfl⟩)⟩
  | setData h => exact ⟨0, fun fuel _ => R.setting h _ _ (fun l e => ⟨by subst e; rfl, rfl⟩)⟩
  | notifAdd h => exact ⟨0, fun fuel _ => R.setting h _ _ (fun l e => ⟨by subst e; rfl, rfl⟩)⟩
  | notifDel h => exact ⟨0, fun fuel _ => R.setting h _ _ (fun l e => ⟨by subst e; rfl, rfl⟩)⟩
  | destroy h => exact ⟨0, fun fuel _ => destroy_ok R h⟩
  | grpCreate h => exact ⟨0, fun fuel _ => ⟨_, rfl, grpCreate_ok R h _⟩⟩
  | grpAdd h h2 => exact ⟨0, fun fuel _ => grpAdd_ok R h h2⟩
  | grpDel h h2 =>
    refine ⟨0, fun fuel _ => ?_⟩
    obtain ⟨w', e, R'⟩ := grpDel_ok R h h2
    exact ⟨w', by simp [exec, e], R'⟩
  | grpDestroy => exact ⟨_, fun fuel hf => grpDestroy_ok R hf⟩
  | grpDestroyAll => exact ⟨_, fun fuel hf => grpDestroyAll_ok R hf⟩
  | grpClone h1 h2 h3 h4 => exact ⟨_, fun fuel hf => grpClone_ok R h1 h2 h3 h4 hf⟩

theorem bind_mono {f f' : World → Option World} (h : ∀ w w', f w = some w' → f' w = some w') (o : Option World) (w' : World)
    (ho : o.bind f = some w') : o.bind f' = some w' := by
  cases o with
  | none => cases ho
  | some a => exact h a w' ho

theorem unlinkLoop_mono {g : Nat} : ∀ (fuel d : Nat) (w : World) (v t : Nat) (w' : World), unlinkLoop g fuel w v t = some w' →
    unlinkLoop g (fuel + d) w v t = some w' := by
  intro fuel
  induction fuel with
  | zero =>
    intro d w v t w' h
    simp only [unlinkLoop] at h
    split at h
    · cases d <;> simp_all [unlinkLoop]
    · cases h
  | succ fuel ih =>
    intro d w v t w' h
    rw [Nat.succ_add]
    simp only [unlinkLoop] at h ⊢
    split at h
    · rw [if_pos ‹_›]; exact h
    · rw [if_neg ‹_›]; exact bind_mono (fun w1 w2 h => ih d _ _ _ _ h) _ _ h

theorem destroyLoop_mono {g : Nat} : ∀ (fuel d : Nat) (w : World) (v t : Nat) (w' : World), destroyLoop g fuel w v t = some w' →
    destroyLoop g (fuel + d) w v t = some w' := by
  intro fuel
  induction fuel with
  | zero =>
    intro d w v t w' h
    simp only [destroyLoop] at h
    split at h
    · cases d <;> simp_all [destroyLoop]
    · cases h
  | succ fuel ih =>
    intro d w v t w' h
    rw [Nat.succ_add]
    simp only [destroyLoop] at h ⊢
    split at h
    · rw [if_pos ‹_›]; exact h
    · rw [if_neg ‹_›]; exact bind_mono (fun w1 w2 h => ih d _ _ _ _ h) _ _ h

theorem cloneLoop_mono {g dest : Nat} : ∀ (fuel d : Nat) (w : World) (v : Nat) (new : List Nat) (w' : World),
    cloneLoop g dest fuel w v new = some w' → cloneLoop g dest (fuel + d) w v new = some w' := by
  intro fuel
  induction fuel with
  | zero =>
    intro d w v t w' h
    simp only [cloneLoop] at h
    split at h
    · cases d <;> simp_all [cloneLoop]
    · cases h
  | succ fuel ih =>
    intro d w v new w' h
    rw [Nat.succ_add]
    rw [cloneLoop.eq_def] at h ⊢
    simp only at h ⊢
    split at h
    · rw [if_pos ‹_›]; exact h
    · rw [if_neg ‹_›]
      cases hl : w.links v with
      | none => rw [hl] at h; cases h
      | some l =>
        rw [hl] at h
        simp only [Option.bind_some] at h ⊢
        split at h
        · rw [if_pos ‹_›]
          cases new with
          | nil => cases h
          | cons a new =>
            simp only at h ⊢
            exact bind_mono (fun w1 w2 h => bind_mono (fun w3 w4 h => ih d _ _ _ _ h) _ _ h) _ _ h
        · rw [if_neg ‹_›]; exact ih d _ _ _ _ h

theorem exec_mono {fuel d : Nat} {w w' : World} {op : Op} (h : exec fuel w op = some w') : exec (fuel + d) w op = some w' := by
  cases op with
  | grpDestroy g =>
    simp only [exec, grpDestroy, Option.bind_eq_some_iff, Option.map_eq_some_iff] at h ⊢
    obtain ⟨n, h1, w1, h2, h3⟩ := h
    exact ⟨n, h1, w1, unlinkLoop_mono _ _ _ _ _ _ h2, h3⟩
  | grpDestroyAll g =>
    simp only [exec, grpDestroyAll, Option.bind_eq_some_iff, Option.map_eq_some_iff] at h ⊢
    obtain ⟨n, h1, w1, h2, h3⟩ := h
    exact ⟨n, h1, w1, destroyLoop_mono _ _ _ _ _ _ h2, h3⟩
  | grpClone g dest name new =>
    simp only [exec, grpClone, Option.bind_eq_some_iff] at h ⊢
    obtain ⟨n, h1, h2⟩ := h
    exact ⟨n, h1, cloneLoop_mono _ _ _ _ _ _ h2⟩
  | _ => exact h

theorem exec_rep {fuel : Nat} {w w' : World} {s s' : State} {op : Op} (R : Rep w s) (hs : Step s op s') (h : exec fuel w op = some w') :
    Rep w' s' := by
  obtain ⟨f0, hf⟩ := exec_ok R hs
  obtain ⟨w1, e, R1⟩ := hf (fuel + f0) (by omega)
  rw [exec_mono h] at e
  cases e
  exact R1

theorem hist_rep {w0 w : World} {s : State} (h : Hist w0 w s) : Rep w s := by
  induction h with
  | start h1 h2 =>
    exact ⟨⟨nofun, by simp [cells]⟩, fun a => by simp [h1], fun a l hl => (by rw [h1] at hl; cases hl), nofun, nofun, nofun⟩
  | call _ hs he ih => exact exec_rep ih hs he

/-! ### merging -/

theorem inv1_add {h : Heap} {dest v : Nat} {ds : List Nat} (I : Lst.Inv h [(dest, ds)]) (hv : v ∉ dest :: ds) :
    Lst.Inv (Lst.add h dest v) [(dest, ds ++ [v])] := by
  refine Lst.step_inv (s := [] ++ (dest, ds) :: []) I (Spec.Lists.Step.add ?_)
  rw [Lst.used_iff]
  simpa [cells] using hv

theorem add_n {h : Heap} {dest v x : Nat} {ds : List Nat} (I : Lst.Inv h [(dest, ds)]) (hx : x ∉ dest :: ds) (hxv : x ≠ v) :
    (Lst.add h dest v).n x = h.n x := by
  have hp : h.p dest = (dest :: ds).getLast (by simp) := Lst.seg_last (I.ring (dest, ds) (by simp))
  have : x ≠ h.p dest := by
    rw [hp]
    intro e
    exact hx (e ▸ List.getLast_mem _)
  by_cases hd : dest = v
  · subst hd
    simp [Lst.add, Lst.setN, Lst.setP, Lst.put, hxv, this]
  · simp [Lst.add, Lst.setN, Lst.setP, Lst.put, hxv, this, hd]

/-- the links of a chain, read forward -/
def Chain (h : Heap) (last : Nat) : List Nat → Prop
  | [] => True
  | x :: l => h.n x = (l ++ [last]).headD last ∧ Chain h last l

theorem chain_congr {h h' : Heap} {last : Nat} : ∀ {l : List Nat}, (∀ x ∈ l, h'.n x = h.n x) → Chain h last l → Chain h' last l
  | [], _, _ => trivial
  | x :: l, hn, hc => ⟨by rw [hn x (by simp)]; exact hc.1, chain_congr (fun y hy => hn y (by simp [hy])) hc.2⟩

theorem mergeLoop_shape {dest src : Nat} : ∀ (todo ds : List Nat) (w w' : World) (fuel : Nat),
    mergeLoop dest src fuel w ((todo ++ [src]).headD src) (w.heap.n ((todo ++ [src]).headD src)) = some w' →
    Lst.Inv w.heap [(dest, ds)] → Chain w.heap src todo → (todo ++ src :: dest :: ds).Nodup → w.links dest = none →
    Lst.Inv w'.heap [(dest, ds ++ todo)] ∧ w'.heap.n src = w.heap.n src ∧ w'.links dest = none := by
  intro todo
  induction todo with
  | nil =>
    intro ds w w' fuel h I _ _ hd
    have : some w = some w' := by cases fuel <;> simpa [mergeLoop] using h
    cases this
    exact ⟨by simpa using I, rfl, hd⟩
  | cons x todo ih =>
    intro ds w w' fuel h I hc hnd hd
    have hnd' : x ∉ todo ++ src :: dest :: ds ∧ (todo ++ src :: dest :: ds).Nodup := List.nodup_cons.mp hnd
    have hxs : x ≠ src := fun e => hnd'.1 (by simp [e])
    simp only [List.cons_append, List.headD_cons] at h
    cases fuel with
    | zero => simp [mergeLoop, hxs] at h
    | succ fuel =>
      rw [mergeLoop, if_neg hxs] at h
      simp only [Option.bind_eq_some_iff] at h
      obtain ⟨w1, h1, h2⟩ := h
      have hxd : x ∉ dest :: ds := fun e => hnd'.1 (by
        simp only [List.mem_append, List.mem_cons] at e ⊢; exact Or.inr (Or.inr e))
      have e1 : w1.heap = Lst.add w.heap dest x ∧ w1.links dest = none := by
        simp only [grpAdd, Option.bind_eq_some_iff, World.change, Option.map_eq_some_iff] at h1
        obtain ⟨_, -, l, hl, rfl⟩ := h1
        refine ⟨rfl, ?_⟩
        have : dest ≠ x := fun e => hxd (by simp [e])
        simpa [World.putLink, this] using hd
      have hdis : ∀ y ∈ todo ++ [src], y ∉ dest :: ds ∧ y ≠ x := by
        intro y hy
        constructor
        · intro hy'
          have : (todo ++ [src] ++ (dest :: ds)).Nodup := by simpa using hnd'.2
          exact (List.nodup_append.mp this).2.2 y hy y hy' rfl
        · intro e
          subst e
          refine hnd'.1 ?_
          simp only [List.mem_append, List.mem_cons, List.not_mem_nil, or_false] at hy ⊢
          rcases hy with hy | hy
          · exact Or.inl hy
          · exact Or.inr (Or.inl hy)
      have hn : ∀ y ∈ todo ++ [src], w1.heap.n y = w.heap.n y := by
        intro y hy
        rw [e1.1]
        exact add_n I (hdis y hy).1 (hdis y hy).2
      have I1 : Lst.Inv w1.heap [(dest, ds ++ [x])] := by rw [e1.1]; exact inv1_add I hxd
      rw [hc.1] at h2
      have := ih (ds ++ [x]) w1 w' fuel h2 I1 (chain_congr (fun y hy => hn y (by simp [hy])) hc.2) (by
        refine (List.Perm.nodup_iff ?_).mp hnd
        rw [List.perm_iff_count]
        intro a
        simp only [List.count_append, List.count_cons, List.count_nil, List.cons_append]
        omega) e1.2
      rw [List.append_assoc] at this
      exact ⟨this.1, this.2.1.trans (hn src (by simp)), this.2.2⟩

/-- unlinking from a head the members are not linked to -/
theorem unlinkLoop_astray {dest src : Nat} : ∀ (todo ds : List Nat) (w : World) (fuel : Nat), Lst.Inv w.heap [(dest, ds ++ todo)] →
    src ∉ dest :: (ds ++ todo) → w.links dest = none →
    unlinkLoop src fuel w ((todo ++ [dest]).headD dest) (w.heap.n ((todo ++ [dest]).headD dest)) = none := by
  intro todo
  induction todo with
  | nil =>
    intro ds w fuel I hs hd
    have : dest ≠ src := fun e => hs (by simp [e])
    cases fuel with
    | zero => simp [unlinkLoop, this]
    | succ fuel => simp [unlinkLoop, this, World.change, hd]
  | cons x todo ih =>
    intro ds w fuel I hs hd
    have hxs : x ≠ src := fun e => hs (by simp [e])
    simp only [List.cons_append, List.headD_cons]
    cases fuel with
    | zero => simp [unlinkLoop, hxs]
    | succ fuel =>
      rw [unlinkLoop, if_neg hxs]
      cases hch : ({ w with heap := Lst.del w.heap x }.change x fun l => { l with group := none }) with
      | none => rfl
      | some w1 =>
        simp only [Option.bind_some]
        have hdx : dest ≠ x := by
          intro e
          have := I.nodup
          simp [cells, e] at this
        have e1 : w1.heap = Lst.del w.heap x ∧ w1.links dest = none := by
          simp only [World.change, Option.map_eq_some_iff] at hch
          obtain ⟨l, -, rfl⟩ := hch
          exact ⟨rfl, by simpa [World.putLink, hdx] using hd⟩
        have hnx : w.heap.n x = (todo ++ [dest]).headD dest := by
          have := (Lst.seg_append.1 (I.ring (dest, ds ++ x :: todo) (by simp))).2
          rw [Lst.seg_first this]
          cases todo <;> rfl
        rw [hnx]
        refine ih ds w1 fuel ?_ ?_ e1.2
        · rw [e1.1]
          exact Lst.step_inv (s := [] ++ (dest, ds ++ x :: todo) :: []) I Spec.Lists.Step.del
        · intro h; refine hs ?_
          simp only [List.mem_cons, List.mem_append] at h ⊢
          rcases h with h | h | h
          · exact Or.inl h
          · exact Or.inr (Or.inl h)
          · exact Or.inr (Or.inr (Or.inr h))

theorem chain_of_seg {h : Heap} {a last : Nat} : ∀ {l : List Nat}, Seg h a l last → Chain h last l
  | [], _ => trivial
  | x :: l, H => by
    have H' := (Lst.seg_append (l := []) (x := x) (m := l)).1 H
    refine ⟨?_, chain_of_seg H'.2⟩
    rw [Lst.seg_first H'.2]
    cases l <;> rfl

theorem grpMerge_ub {w : World} {s : State} (R : Rep w s) {dest src : Nat} {ds xs : List Nat} (hd : (dest, ds) ∈ s.groups)
    (hs : (src, xs) ∈ s.groups) (hne : dest ≠ src) (hx : xs ≠ []) (fuel : Nat) : grpMerge fuel w dest src = none := by
  cases hr : grpMerge fuel w dest src with
  | none => rfl
  | some w' =>
    exfalso
    have hdis : ∀ y ∈ src :: xs, y ∉ dest :: ds := by
      intro y h1 h2
      have := unique_list R hs hd (x := y) h1 h2
      exact hne (congrArg Prod.fst this).symm
    simp only [grpMerge, grpDestroy, Option.bind_eq_some_iff, Option.map_eq_some_iff] at hr
    obtain ⟨_, -, w1, h1, _, -, w2, h2, -⟩ := hr
    rw [ring_first R hs] at h1
    have hI : Lst.Inv w.heap [(dest, ds)] := by
      refine ⟨?_, ?_⟩
      · intro l hl
        simp only [List.mem_singleton] at hl
        subst hl
        exact R.heap.ring _ hd
      · simpa [cells] using list_nodup R hd
    have hnd : (xs ++ src :: dest :: ds).Nodup := by
      have h3 : (src :: xs ++ dest :: ds).Nodup := by
        rw [List.nodup_append]
        exact ⟨list_nodup R hs, list_nodup R hd, fun a ha b hb e => hdis a ha (e ▸ hb)⟩
      refine (List.Perm.nodup_iff ?_).mp h3
      exact (List.perm_middle (l₁ := xs) (a := src) (l₂ := dest :: ds)).symm
    have hld : w.links dest = none := (info_none R).mp (R.head _ hd)
    obtain ⟨I1, hsn, hld1⟩ := mergeLoop_shape xs ds w w1 fuel h1 hI (chain_of_seg (ring_of R hs).1) hnd hld
    rw [hsn, ring_first R hs] at h2
    have hsrc : src ∉ dest :: (ds ++ xs) := by
      intro h
      have h4 := (List.nodup_append.mp hnd)
      simp only [List.mem_cons, List.mem_append] at h
      rcases h with h | h | h
      · exact hne h.symm
      · exact hdis src (by simp) (by simp [h])
      · exact h4.2.2 src h src (by simp) rfl
    have := unlinkLoop_astray xs ds w1 fuel I1 hsrc hld1
    cases xs with
    | nil => exact hx rfl
    | cons x xs =>
      simp only [List.cons_append, List.headD_cons] at this h2
      rw [this] at h2
      cases h2

theorem grpMerge_empty {w : World} {dest src : Nat} {s1 s2 : List (Nat × List Nat)} {info : Nat → Option Info}
    (R : Rep w ⟨s1 ++ (src, []) :: s2, info⟩) (fuel : Nat) :
    ∃ w', grpMerge fuel w dest src = some w' ∧ Rep w' ⟨s1 ++ s2, info⟩ := by
  have hin : (src, []) ∈ s1 ++ (src, []) :: s2 := by simp
  have hgr := R.alive (src, []) hin
  obtain ⟨w', e, R'⟩ := grpDestroy_ok R (fuel := fuel) (by simp)
  cases hgn : w.groups src with
  | none => exact absurd hgn hgr
  | some nm =>
    refine ⟨w', ?_, R'⟩
    unfold grpMerge
    have hn : w.heap.n src = src := ring_first R hin
    have : mergeLoop dest src fuel w src (w.heap.n src) = some w := by cases fuel <;> simp [mergeLoop]
    rw [hgn, hn, this]
    exact e

end Sid.Srv
