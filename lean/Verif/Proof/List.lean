import Verif.Spec.List
namespace Sid.Lst
open Sid.Spec.Lists

/-- links lead from `a` through `l` to `b` and back -/
def Seg (h : Heap) : Nat → List Nat → Nat → Prop
  | a, [], b => h.n a = b ∧ h.p b = a
  | a, x :: l, b => h.n a = x ∧ h.p x = a ∧ Seg h x l b

theorem seg_append {h a l x m b} : Seg h a (l ++ x :: m) b ↔ Seg h a l x ∧ Seg h x m b := by
  induction l generalizing a with
  | nil => simp [Seg, and_assoc]
  | cons y l ih => simp [Seg, ih, and_assoc]

theorem seg_frame {h h' a l b} (hn : ∀ x, x = a ∨ x ∈ l → h'.n x = h.n x) (hp : ∀ x, x = b ∨ x ∈ l → h'.p x = h.p x)
    (H : Seg h a l b) : Seg h' a l b := by
  induction l generalizing a with
  | nil => exact ⟨(hn a (Or.inl rfl)).trans H.1, (hp b (Or.inl rfl)).trans H.2⟩
  | cons x l ih =>
    refine ⟨(hn a (Or.inl rfl)).trans H.1, (hp x (Or.inr (by simp))).trans H.2.1, ih ?_ ?_ H.2.2⟩
    · intro y hy
      exact hn y (Or.inr (by rcases hy with rfl | hy <;> simp [*]))
    · intro y hy
      rcases hy with rfl | hy
      · exact hp y (Or.inl rfl)
      · exact hp y (Or.inr (by simp [hy]))

/-- the ring through a head -/
def Ring (h : Heap) (l : Nat × List Nat) : Prop := Seg h l.1 l.2 l.1

/-- all cells of a state -/
def cells (s : State) : List Nat := s.flatMap fun l => l.1 :: l.2

structure Inv (h : Heap) (s : State) : Prop where
  ring : ∀ l ∈ s, Ring h l
  nodup : (cells s).Nodup

theorem used_iff {s a} : Used s a ↔ a ∈ cells s := by
  simp [Used, cells]

theorem ring_frame {h h' : Heap} {l} (hn : ∀ x, x ∈ l.1 :: l.2 → h'.n x = h.n x) (hp : ∀ x, x ∈ l.1 :: l.2 → h'.p x = h.p x)
    (H : Ring h l) : Ring h' l :=
  seg_frame (fun x hx => hn x (by simpa using hx)) (fun x hx => hp x (by simpa using hx)) H

theorem add_ring {h a xs e} (H : Ring h (a, xs)) (hd : (a :: xs).Nodup) (he : e ∉ a :: xs) :
    Ring (add h a e) (a, xs ++ [e]) ∧
      (∀ x, x ∉ a :: xs → x ≠ e → (add h a e).n x = h.n x ∧ (add h a e).p x = h.p x) := by
  simp only [List.mem_cons, not_or] at he
  rcases List.eq_nil_or_concat xs with rfl | ⟨l, z, rfl⟩
  · have hp : h.p a = a := H.2
    have e1 : a ≠ e := fun x => he.1 x.symm
    refine ⟨?_, ?_⟩
    · simp [Ring, Seg, add, setN, setP, put, hp, e1, he.1]
    · intro x hx hxe
      simp only [List.mem_cons, List.not_mem_nil, or_false] at hx
      simp [add, setN, setP, put, hp, hx, hxe, e1]
  · rw [List.concat_eq_append] at *
    have H' : Seg h a l z ∧ Seg h z [] a := seg_append.1 H
    have hp : h.p a = z := H'.2.2
    have e1 : a ≠ e := fun x => he.1 x.symm
    have hz : z ∉ a :: l ∧ a ∉ l ++ [z] := by
      simp only [List.nodup_cons, List.nodup_append] at hd
      simp at hd ⊢
      refine ⟨⟨fun hh => hd.1.2 hh.symm, fun hh => hd.2.2 z hh rfl⟩, hd.1⟩
    have ez : e ≠ z := fun x => he.2 (by simp [x])
    have el : e ∉ l := fun x => he.2 (by simp [x])
    have az : a ≠ z := fun x => hz.2 (by simp [x])
    refine ⟨?_, ?_⟩
    · show Seg _ a ((l ++ [z]) ++ [e]) a
      rw [List.append_assoc]
      refine seg_append.2 ⟨seg_frame ?_ ?_ H'.1, ?_⟩
      · intro x hx
        have x1 : x ≠ z := by rintro rfl; exact hz.1 (by simpa using hx)
        have x2 : x ≠ e := by rintro rfl; rcases hx with rfl | hx; exact he.1 rfl; exact el hx
        simp [add, setN, setP, put, hp, x1, x2, e1]
      · intro x hx
        have x1 : x ≠ a := by
          rintro rfl; rcases hx with hx | hx
          · exact az hx
          · exact hz.2 (by simp [hx])
        have x2 : x ≠ e := by
          rintro rfl; rcases hx with hx | hx
          · exact ez hx
          · exact el hx
        simp [add, setN, setP, put, x1, x2]
      · simp [Seg, add, setN, setP, put, hp, e1, ez, he.1]
    · intro x hx hxe
      simp only [List.mem_cons, List.mem_append, List.not_mem_nil, or_false, not_or] at hx
      simp [add, setN, setP, put, hp, hx, hxe, e1]

theorem seg_last {h a l b} (H : Seg h a l b) : h.p b = (a :: l).getLast (by simp) := by
  induction l generalizing a with
  | nil => simpa using H.2
  | cons x l ih => simpa using ih H.2.2

theorem seg_first {h a l b} (H : Seg h a l b) : h.n a = (l ++ [b]).head (by simp) := by
  cases l with
  | nil => simpa using H.1
  | cons x l => simpa using H.1

theorem seg_join {h a l x m b} (H1 : Seg h a l x) (H2 : Seg h x m b) (hd : (a :: (l ++ x :: m)).Nodup)
    (hb : b = a ∨ b ∉ a :: (l ++ x :: m)) :
    Seg (del h x) a (l ++ m) b := by
  have hp : (del h x).p = put h.p (h.n x) (h.p x) := by simp [del, setN, setP]
  have hxn : h.n x ≠ x := by
    have := seg_first H2
    intro hh
    rw [hh] at this
    have hm : x ∈ m ++ [b] := by rw [this]; exact List.head_mem _
    simp only [List.mem_append, List.mem_singleton] at hm
    have hd2 : x ∉ m := by
      have := (List.nodup_append.1 (List.nodup_cons.1 hd).2).2.1
      exact (List.nodup_cons.1 this).1
    rcases hm with hm | rfl
    · exact hd2 hm
    · rcases hb with rfl | hb
      · exact (List.nodup_cons.1 hd).1 (by simp)
      · exact hb (by simp)
  have hn : (del h x).n = put h.n (h.p x) (h.n x) := by
    simp only [del, setN, setP]
    rw [show put h.p (h.n x) (h.p x) x = h.p x by simp [put]]
  have h2 : ∀ y, y ∈ m → y ≠ x ∧ y ∉ a :: l := by
    intro y hy
    simp only [List.nodup_cons, List.nodup_append, List.mem_append, List.mem_cons] at hd
    refine ⟨?_, ?_⟩
    · rintro rfl; exact hd.2.2.1.1 hy
    · rintro hh
      rcases List.mem_cons.1 hh with rfl | hh
      · exact hd.1 (Or.inr (Or.inr hy))
      · exact hd.2.2.2 y hh y (Or.inr hy) rfl
  have hmd : m.Nodup := by
    have := (List.nodup_append.1 (List.nodup_cons.1 hd).2).2.1
    exact (List.nodup_cons.1 this).2
  have hald : (a :: l).Nodup := by
    rw [List.nodup_cons] at hd ⊢
    exact ⟨fun hh => hd.1 (by simp [hh]), (List.nodup_append.1 hd.2).1⟩
  have hxal : x ∉ a :: l := by
    rw [List.nodup_cons] at hd
    intro hh
    rcases List.mem_cons.1 hh with rfl | hh
    · exact hd.1 (by simp)
    · exact (List.nodup_append.1 hd.2).2.2 x hh x (by simp) rfl
  -- last node before x
  have hlast := seg_last H1
  -- the part before x, ending now at the successor
  have key : ∀ (b' : Nat) (hb' : b' = h.n x) (hbl : b' ∉ l), Seg (del h x) a l b' := by
    intro b' hb' hbl
    rcases List.eq_nil_or_concat l with rfl | ⟨k, z, rfl⟩
    · refine ⟨?_, ?_⟩
      · rw [hn, show h.p x = a from H1.2]; simp [put, hb']
      · rw [hp, ← hb', show h.p x = a from H1.2]; simp [put]
    · rw [List.concat_eq_append] at *
      have H1' := seg_append.1 H1
      refine seg_append.2 ⟨seg_frame ?_ ?_ H1'.1, ?_⟩
      · intro y hy
        have : y ≠ z := by
          rintro rfl
          rw [← List.cons_append, List.nodup_append] at hald
          exact hald.2.2 y (by simpa using hy) y (by simp) rfl
        rw [hn, show h.p x = z from H1'.2.2]; simp [put, this]
      · intro y hy
        have : y ≠ h.n x := by
          rw [← hb']; rintro rfl
          rcases hy with rfl | hy
          · exact hbl (by simp)
          · exact hbl (List.mem_append_left _ hy)
        rw [hp]; simp [put, this]
      · refine ⟨?_, ?_⟩
        · rw [hn, show h.p x = z from H1'.2.2]; simp [put, hb']
        · rw [hp, ← hb', show h.p x = z from H1'.2.2]; simp [put]
  cases m with
  | nil =>
    rw [List.append_nil]
    refine key b H2.1.symm ?_
    intro hh
    rcases hb with rfl | hb
    · exact (List.nodup_cons.1 hald).1 hh
    · exact hb (by simp [hh])
  | cons y m =>
    have hy := h2 y (by simp)
    refine seg_append.2 ⟨key y H2.1.symm (fun hh => hy.2 (by simp [hh])), seg_frame ?_ ?_ H2.2.2⟩
    · intro u hu
      have hum : u ∈ y :: m := by simpa using hu
      have : u ≠ h.p x := by
        rw [hlast]; intro e
        exact (h2 u hum).2 (by rw [e]; exact List.getLast_mem _)
      rw [hn]; simp [put, this]
    · intro u hu
      have hnx : h.n x = y := H2.1
      have : u ≠ y := by
        rcases hu with rfl | hu
        · rintro rfl
          rcases hb with rfl | hb
          · exact hy.2 (by simp)
          · exact hb (by simp)
        · rintro rfl; exact (List.nodup_cons.1 hmd).1 hu
      rw [hp, hnx]; simp [put, this]

theorem del_frame {h : Heap} {x y : Nat} (h1 : y ≠ h.n x) (h2 : y ≠ h.p x) (hx : h.n x ≠ x) :
    (del h x).n y = h.n y ∧ (del h x).p y = h.p y := by
  have hx' : ¬ x = h.n x := fun e => hx e.symm
  simp [del, setN, setP, put, h1, h2]

theorem cells_mid (s1 s2 : State) (l) : cells (s1 ++ l :: s2) = cells s1 ++ ((l.1 :: l.2) ++ cells s2) := by
  simp [cells]

theorem mem_cells_of {s : State} {l x} (hl : l ∈ s) (hx : x ∈ l.1 :: l.2) : x ∈ cells s := by
  simp only [cells, List.mem_flatMap]; exact ⟨l, hl, hx⟩

/-- replacing one list, keeping all others intact -/
theorem inv_replace {h h' : Heap} {s1 s2 : State} {l l'} (I : Inv h (s1 ++ l :: s2)) (hr : Ring h' l')
    (hframe : ∀ x, x ∈ cells s1 ∨ x ∈ cells s2 → h'.n x = h.n x ∧ h'.p x = h.p x)
    (hd : (cells (s1 ++ l' :: s2)).Nodup) : Inv h' (s1 ++ l' :: s2) := by
  refine ⟨?_, hd⟩
  intro m hm
  simp only [List.mem_append, List.mem_cons] at hm
  have other : (m ∈ s1 ∨ m ∈ s2) → Ring h' m := by
    intro ho
    have hc : ∀ x, x ∈ m.1 :: m.2 → x ∈ cells s1 ∨ x ∈ cells s2 := by
      intro x hx
      rcases ho with ho | ho
      · exact Or.inl (mem_cells_of ho hx)
      · exact Or.inr (mem_cells_of ho hx)
    refine ring_frame (fun x hx => (hframe x (hc x hx)).1) (fun x hx => (hframe x (hc x hx)).2) (I.ring m ?_)
    rcases ho with ho | ho <;> simp [ho]
  rcases hm with hm | rfl | hm
  · exact other (Or.inl hm)
  · exact hr
  · exact other (Or.inr hm)

theorem step_inv {h s op s'} (I : Inv h s) (hs : Step s op s') : Inv (step h op) s' := by
  cases hs with
  | @init _ a hu =>
    rw [used_iff] at hu
    refine ⟨?_, ?_⟩
    · intro l hl
      rcases List.mem_cons.1 hl with rfl | hl'
      · simp [step, Ring, Seg, init, setN, setP, put]
      · refine ring_frame ?_ ?_ (I.ring l hl')
        · intro x hx
          have : x ≠ a := by rintro rfl; exact hu (mem_cells_of hl' hx)
          simp [step, init, setN, setP, put, this]
        · intro x hx
          have : x ≠ a := by rintro rfl; exact hu (mem_cells_of hl' hx)
          simp [step, init, setN, setP, put, this]
    · simp only [cells, List.flatMap_cons]
      exact List.nodup_cons.2 ⟨by simpa [cells] using hu, by simpa [cells] using I.nodup⟩
  | @add s1 s2 a xs e hu =>
    rw [used_iff, cells_mid] at hu
    have hd := I.nodup
    rw [cells_mid] at hd
    have hd1 := List.nodup_append.1 hd
    have hd2 := List.nodup_append.1 hd1.2.1
    simp only [List.mem_append, not_or] at hu
    obtain ⟨hr, hf⟩ := add_ring (I.ring (a, xs) (by simp)) hd2.1 hu.2.1
    refine inv_replace I hr ?_ ?_
    · intro x hx
      refine hf x ?_ ?_
      · intro hh
        rcases hx with hx | hx
        · exact hd1.2.2 x hx x (by simp only [List.mem_append]; exact Or.inl hh) rfl
        · exact hd2.2.2 x hh x hx rfl
      · rintro rfl
        rcases hx with hx | hx
        · exact hu.1 hx
        · exact hu.2.2 hx
    · rw [cells_mid]
      have : (cells s1 ++ ((a :: (xs ++ [e])) ++ cells s2)).Perm (e :: (cells s1 ++ ((a :: xs) ++ cells s2))) := by
        have h1 : cells s1 ++ ((a :: (xs ++ [e])) ++ cells s2) = (cells s1 ++ (a :: xs)) ++ e :: cells s2 := by simp
        have h2 : e :: (cells s1 ++ ((a :: xs) ++ cells s2)) = e :: ((cells s1 ++ (a :: xs)) ++ cells s2) := by simp
        rw [h1, h2]; exact List.perm_middle
      refine this.nodup_iff.2 (List.nodup_cons.2 ⟨?_, hd⟩)
      simp only [List.mem_append, not_or]; exact hu
  | @del s1 s2 a xs ys e =>
    have hd := I.nodup
    rw [cells_mid] at hd
    have hd1 := List.nodup_append.1 hd
    have hd2 := List.nodup_append.1 hd1.2.1
    have hr := I.ring (a, xs ++ e :: ys) (by simp)
    have hr' : Seg h a xs e ∧ Seg h e ys a := seg_append.1 hr
    have hdl : (a :: (xs ++ e :: ys)).Nodup := hd2.1
    refine inv_replace I (seg_join hr'.1 hr'.2 hdl (Or.inl rfl)) ?_ ?_
    · intro x hx
      have hout : x ∉ a :: (xs ++ e :: ys) := by
        intro hh
        rcases hx with hx | hx
        · exact hd1.2.2 x hx x (by simp only [List.mem_append]; exact Or.inl hh) rfl
        · exact hd2.2.2 x hh x hx rfl
      have hn : h.n e ∈ ys ++ [a] := by rw [seg_first hr'.2]; exact List.head_mem _
      have hp : h.p e ∈ a :: xs := by rw [seg_last hr'.1]; exact List.getLast_mem _
      have hne : h.n e ≠ e := by
        intro hh; rw [hh] at hn
        rw [List.nodup_cons] at hdl
        simp only [List.mem_append, List.mem_singleton] at hn
        rcases hn with hn | rfl
        · exact (List.nodup_cons.1 (List.nodup_append.1 hdl.2).2.1).1 hn
        · exact hdl.1 (by simp)
      refine del_frame ?_ ?_ hne
      · rintro rfl; apply hout
        simp only [List.mem_append, List.mem_singleton] at hn
        rcases hn with hn | hn <;> simp [hn]
      · rintro rfl; apply hout
        rcases List.mem_cons.1 hp with hp | hp <;> simp [hp]
    · rw [cells_mid]
      refine List.Nodup.sublist ?_ hd
      refine List.Sublist.append_left ?_ _
      refine List.Sublist.append_right ?_ _
      refine List.Sublist.cons_cons _ ?_
      exact List.Sublist.append_left (List.sublist_cons_self _ _) _

theorem reach_inv {h0 h s} (r : Reach h0 h s) : Inv h s := by
  induction r with
  | start => exact ⟨by simp, by simp [cells]⟩
  | call _ hs ih => exact step_inv ih hs

/-! ### walking -/

theorem walk_seg {h a l b} (H : Seg h a l b) (hb : b ∉ l) (fuel : Nat) (hf : l.length ≤ fuel) :
    walk h b fuel (h.n a) = some l := by
  induction l generalizing a fuel with
  | nil => rw [H.1]; cases fuel <;> simp [walk]
  | cons x l ih =>
    simp only [List.mem_cons, not_or] at hb
    cases fuel with
    | zero => simp at hf
    | succ fuel =>
      rw [H.1, walk, if_neg (fun e => hb.1 e.symm), ih H.2.2 hb.2 fuel (by simpa using hf)]; rfl

theorem walkBack_seg {h a l b} (H : Seg h a l b) (ha : a ∉ l) (fuel : Nat) (hf : l.length ≤ fuel) :
    walkBack h a fuel (h.p b) = some l.reverse := by
  induction fuel generalizing l b with
  | zero =>
    have : l = [] := List.length_eq_zero_iff.1 (by omega)
    subst this
    rw [H.2]; simp [walkBack]
  | succ fuel ih =>
    rcases List.eq_nil_or_concat l with rfl | ⟨k, z, rfl⟩
    · rw [H.2]; simp [walkBack]
    · rw [List.concat_eq_append] at *
      obtain ⟨H1, H2⟩ := seg_append.1 H
      simp only [List.mem_append, List.mem_singleton, not_or] at ha
      rw [show h.p b = z from H2.2, walkBack, if_neg (fun e => ha.2 e.symm), ih H1 ha.1 (by simpa using hf)]
      simp

end Sid.Lst
