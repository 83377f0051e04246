import Verif.Proof.List
/-
C14: the linked list.
-/
namespace Sid.Props
open Sid.Lst Sid.Spec.Lists

theorem inv_list {h s} (I : Inv h s) {a xs} (hm : (a, xs) ∈ s) : Seg h a xs a ∧ a ∉ xs := by
  refine ⟨I.ring _ hm, ?_⟩
  obtain ⟨s1, s2, rfl⟩ := List.append_of_mem hm
  have hd := I.nodup
  rw [cells_mid] at hd
  have := (List.nodup_append.1 (List.nodup_append.1 hd).2.1).1
  exact (List.nodup_cons.1 this).1

/-- C14.  After any history of correct calls on any number of lists, from any initial memory contents: walking each list
    forward ends and yields its elements in order, walking backward yields the reverse, the size is the number of
    elements, and the emptiness test tells whether there are none. -/
theorem C14_lists_hold_their_sequences (h0 h : Heap) (s : State) (r : Reach h0 h s) (a : Nat) (xs : List Nat)
    (hm : (a, xs) ∈ s) (fuel : Nat) (hf : xs.length ≤ fuel) :
    walk h a fuel (h.n a) = some xs ∧ walkBack h a fuel (h.p a) = some xs.reverse ∧
      getSize h a fuel = some xs.length ∧ (isEmpty h a = true ↔ xs = []) := by
  obtain ⟨H, ha⟩ := inv_list (reach_inv r) hm
  have hw := walk_seg H ha fuel hf
  refine ⟨hw, walkBack_seg H ha fuel hf, by simp [getSize, hw], ?_⟩
  cases xs with
  | nil => simpa [isEmpty] using H.1
  | cons x l =>
    have : x ≠ a := fun e => ha (by simp [e])
    simp [isEmpty, H.1, this]

/-- C14.  Correct calls never touch memory outside the cells in use. -/
theorem C14_no_stray_writes (h0 h : Heap) (s : State) (r : Reach h0 h s) (op : Op) (s' : State) (hs : Step s op s')
    (x : Nat) (hx : ¬ Used s x) (hx' : ¬ Used s' x) : (step h op).n x = h.n x ∧ (step h op).p x = h.p x := by
  have I := reach_inv r
  rw [used_iff] at hx hx'
  cases hs with
  | @init _ a hu =>
    have : x ≠ a := by rintro rfl; exact hx' (by simp [cells])
    simp [step, init, setN, setP, put, this]
  | @add s1 s2 a xs e hu =>
    rw [used_iff] at hu
    rw [cells_mid] at hx hx' hu
    have hd := I.nodup
    rw [cells_mid] at hd
    have hd2 := List.nodup_append.1 (List.nodup_append.1 hd).2.1
    simp only [List.mem_append, not_or] at hx hx' hu
    refine (add_ring (I.ring (a, xs) (by simp)) hd2.1 hu.2.1).2 x hx.2.1 ?_
    rintro rfl
    exact hx'.2.1 (by simp)
  | @del s1 s2 a xs ys e =>
    rw [cells_mid] at hx
    have hd := I.nodup
    rw [cells_mid] at hd
    have hd2 := List.nodup_append.1 (List.nodup_append.1 hd).2.1
    have hr' : Seg h a xs e ∧ Seg h e ys a := seg_append.1 (I.ring (a, xs ++ e :: ys) (by simp))
    have hdl : (a :: (xs ++ e :: ys)).Nodup := hd2.1
    simp only [List.mem_append, not_or] at hx
    have hout : x ∉ a :: (xs ++ e :: ys) := hx.2.1
    have hn : h.n e ∈ ys ++ [a] := by rw [seg_first hr'.2]; exact List.head_mem _
    have hp : h.p e ∈ a :: xs := by rw [seg_last hr'.1]; exact List.getLast_mem _
    have hne : h.n e ≠ e := by
      intro hh; rw [hh] at hn
      rw [List.nodup_cons] at hdl
      simp only [List.mem_append, List.mem_singleton] at hn
      rcases hn with hn | rfl
      · exact (List.nodup_cons.1 (List.nodup_append.1 hdl.2).2.1).1 hn
      · exact hdl.1 (by simp)
    refine del_frame ?_ ?_ hne
    · rintro rfl; apply hout
      simp only [List.mem_append, List.mem_singleton] at hn
      rcases hn with hn | hn <;> simp [hn]
    · rintro rfl; apply hout
      rcases List.mem_cons.1 hp with hp | hp <;> simp [hp]

/-- the loop that may unlink the current element, started in the middle of a list -/
theorem walkSafe_seg (pick : Nat → Bool) (a : Nat) (s1 s2 : State) :
    ∀ (todo : List Nat) (h : Heap) (kept : List Nat) (fuel : Nat), todo.length ≤ fuel →
      Inv h (s1 ++ (a, kept ++ todo) :: s2) →
      ∃ h', walkSafe pick a fuel h ((todo ++ [a]).headD a) (h.n ((todo ++ [a]).headD a)) = some (todo, h') ∧
        Inv h' (s1 ++ (a, kept ++ todo.filter fun x => !pick x) :: s2) := by
  intro todo
  induction todo with
  | nil =>
    intro h kept fuel _ I
    refine ⟨h, ?_, by simpa using I⟩
    cases fuel <;> simp [walkSafe]
  | cons x todo ih =>
    intro h kept fuel hf I
    obtain ⟨fuel, rfl⟩ : ∃ f, fuel = f + 1 := ⟨fuel - 1, by simp at hf; omega⟩
    have hf' : todo.length ≤ fuel := by simpa using hf
    obtain ⟨H, ha⟩ := inv_list I (a := a) (xs := kept ++ x :: todo) (by simp)
    have hxa : x ≠ a := fun e => ha (by simp [e])
    have H2 := (seg_append.1 H).2
    have hnx : h.n x = (todo ++ [a]).headD a := by
      rw [seg_first H2]
      cases todo <;> rfl
    simp only [List.cons_append, List.headD_cons]
    rw [walkSafe, if_neg hxa, hnx]
    by_cases hp : pick x = true
    · have I' : Inv (del h x) (s1 ++ (a, kept ++ todo) :: s2) := step_inv I Step.del
      obtain ⟨h', h1, h2⟩ := ih (del h x) kept fuel hf' I'
      refine ⟨h', ?_, by simpa [hp] using h2⟩
      simp only [hp, if_true, h1, Option.map_some]
    · obtain ⟨h', h1, h2⟩ := ih h (kept ++ [x]) fuel hf' (by simpa using I)
      refine ⟨h', ?_, by simpa [hp] using h2⟩
      simp only [hp]
      simp only [Bool.false_eq_true, if_false, h1, Option.map_some]

/-- C14.  The deletion-safe loop: whatever elements its body unlinks, it visits every element of the list once, in order,
    and leaves exactly the others in the list; all other lists are as before. -/
theorem C14_safe_iteration (h0 h : Heap) (s1 s2 : State) (a : Nat) (xs : List Nat) (r : Reach h0 h (s1 ++ (a, xs) :: s2))
    (pick : Nat → Bool) (fuel : Nat) (hf : xs.length ≤ fuel) :
    ∃ h', walkSafe pick a fuel h (h.n a) (h.n (h.n a)) = some (xs, h') ∧
      ∀ l ∈ s1 ++ (a, xs.filter fun x => !pick x) :: s2, ∀ fuel', l.2.length ≤ fuel' →
        walk h' l.1 fuel' (h'.n l.1) = some l.2 := by
  have I := reach_inv r
  obtain ⟨h', h1, h2⟩ := walkSafe_seg pick a s1 s2 xs h [] fuel hf (by simpa using I)
  obtain ⟨H, ha⟩ := inv_list I (a := a) (xs := xs) (by simp)
  have hn : h.n a = (xs ++ [a]).headD a := by
    rw [seg_first H]; cases xs <;> rfl
  refine ⟨h', by rw [hn]; exact h1, ?_⟩
  rintro ⟨b, ys⟩ hl fuel' hf'
  obtain ⟨H', hb⟩ := inv_list h2 hl
  exact walk_seg H' hb fuel' hf'

/-- Two lists; elements come and go -/
example : ∃ h, Reach ⟨fun _ => 0, fun _ => 0⟩ h [(20, [21]), (10, [12, 13])] := by
  have r0 : Reach ⟨fun _ => 0, fun _ => 0⟩ _ [] := .start
  have r1 := Reach.call r0 (.init (a := 10) (by simp [Used]))
  have r2 := Reach.call r1 (.init (a := 20) (by simp [Used]))
  have r3 := Reach.call r2 (.add (s1 := [(20, [])]) (s2 := []) (a := 10) (xs := []) (e := 11) (by simp [Used]))
  have r4 := Reach.call r3 (.add (s1 := [(20, [])]) (s2 := []) (a := 10) (xs := [11]) (e := 12) (by simp [Used]))
  have r5 := Reach.call r4 (.add (s1 := []) (s2 := [(10, [11, 12])]) (a := 20) (xs := []) (e := 21) (by simp [Used]))
  have r6 := Reach.call r5 (.del (s1 := [(20, [21])]) (s2 := []) (a := 10) (xs := []) (ys := [12]) (e := 11))
  have r7 := Reach.call r6 (.add (s1 := [(20, [21])]) (s2 := []) (a := 10) (xs := [12]) (e := 13) (by simp [Used]))
  exact ⟨_, r7⟩

end Sid.Props
