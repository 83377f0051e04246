/-
Stable sorting by an integer key: the result is determined by being sorted and by the order of the elements of each key.
-/
namespace Sid.StableSort
open scoped List

variable (f : Nat → Int)

def sortBy (l : List Nat) : List Nat := l.mergeSort fun a b => f a ≤ f b

theorem sorted (l : List Nat) : (sortBy f l).Pairwise fun a b => f a ≤ f b := by
  have := List.pairwise_mergeSort (le := fun a b => decide (f a ≤ f b)) (by simp; omega) (by simp; omega) l
  simpa [sortBy] using this

theorem perm (l : List Nat) : (sortBy f l).Perm l := List.mergeSort_perm _ _

theorem filter_key (l : List Nat) (k : Int) : (sortBy f l).filter (fun a => f a = k) = l.filter fun a => f a = k := by
  have h1 : l.filter (fun a => f a = k) <+ sortBy f l := by
    refine List.sublist_mergeSort (by simp; omega) (by simp; omega) ?_ List.filter_sublist
    rw [List.pairwise_iff_forall_sublist]
    intro a b h
    have ha : a ∈ l.filter (fun a => f a = k) := h.subset (by simp)
    have hb : b ∈ l.filter (fun a => f a = k) := h.subset (by simp)
    simp at ha hb ⊢
    omega
  have h2 := h1.filter (fun a => decide (f a = k))
  rw [List.filter_filter] at h2
  simp only [Bool.and_self] at h2
  exact (h2.eq_of_length (((perm f l).filter _).length_eq.symm)).symm

theorem unique : ∀ (l₁ l₂ : List Nat), l₁.Pairwise (fun a b => f a ≤ f b) → l₂.Pairwise (fun a b => f a ≤ f b) →
    (∀ k, l₁.filter (fun a => f a = k) = l₂.filter fun a => f a = k) → l₁ = l₂ := by
  intro l₁
  induction l₁ with
  | nil =>
    intro l₂ _ _ h
    cases l₂ with
    | nil => rfl
    | cons b l₂ => have := h (f b); simp at this
  | cons a l₁ ih =>
    intro l₂ h1 h2 h
    cases l₂ with
    | nil => have := h (f a); simp at this
    | cons b l₂ =>
      have hab : f a = f b := by
        have ha : a ∈ (b :: l₂) := by
          have : a ∈ (b :: l₂).filter fun x => f x = f a := by rw [← h]; simp
          exact (List.mem_filter.mp this).1
        have hb : b ∈ (a :: l₁) := by
          have : b ∈ (a :: l₁).filter fun x => f x = f b := by rw [h]; simp
          exact (List.mem_filter.mp this).1
        have hle : f b ≤ f a := by
          rcases List.mem_cons.mp ha with rfl | hm
          · exact Int.le_refl _
          · exact (List.pairwise_cons.mp h2).1 a hm
        have hge : f a ≤ f b := by
          rcases List.mem_cons.mp hb with rfl | hm
          · exact Int.le_refl _
          · exact (List.pairwise_cons.mp h1).1 b hm
        omega
      have he := h (f a)
      simp only [List.filter_cons, hab, decide_true, if_true, List.cons.injEq] at he
      obtain ⟨rfl, he⟩ := he
      congr 1
      refine ih l₂ (List.pairwise_cons.mp h1).2 (List.pairwise_cons.mp h2).2 fun k => ?_
      have := h k
      simp only [List.filter_cons] at this
      split at this
      · exact (List.cons.inj this).2
      · exact this

theorem eq_sortBy {l L : List Nat} (h1 : L.Pairwise fun a b => f a ≤ f b)
    (h2 : ∀ k, L.filter (fun a => f a = k) = l.filter fun a => f a = k) : L = sortBy f l :=
  unique f _ _ h1 (sorted f l) fun k => by rw [h2, filter_key]

theorem sortBy_filter (l : List Nat) (q : Nat → Bool) : sortBy f (l.filter q) = (sortBy f l).filter q := by
  symm
  apply eq_sortBy
  · exact (sorted f l).sublist List.filter_sublist
  · intro k
    rw [List.filter_filter, List.filter_filter]
    simp only [Bool.and_comm _ (q _)]
    rw [← List.filter_filter, filter_key, List.filter_filter]

/-- put `c` behind all elements of at most its key -/
def ins (c : Nat) : List Nat → List Nat
  | [] => [c]
  | d :: l => if f c < f d then c :: d :: l else d :: ins c l

theorem ins_mem (c : Nat) (l : List Nat) (x : Nat) : x ∈ ins f c l ↔ x = c ∨ x ∈ l := by
  induction l with
  | nil => simp [ins]
  | cons d l ih =>
    simp only [ins]
    split
    · simp
    · simp only [List.mem_cons, ih]
      constructor
      · rintro (h | h | h) <;> simp [h]
      · rintro (h | h | h) <;> simp [h]

theorem sortBy_append (l : List Nat) (c : Nat) : sortBy f (l ++ [c]) = ins f c (sortBy f l) := by
  have key : ∀ (L : List Nat), L.Pairwise (fun a b => f a ≤ f b) →
      (ins f c L).Pairwise (fun a b => f a ≤ f b) ∧
      ∀ k, (ins f c L).filter (fun a => f a = k) = L.filter (fun a => f a = k) ++ [c].filter (fun a => f a = k) := by
    intro L
    induction L with
    | nil => intro _; simp [ins]
    | cons d L ih =>
      intro h
      obtain ⟨h1, h2⟩ := List.pairwise_cons.mp h
      simp only [ins]
      split
      · rename_i hlt
        refine ⟨List.pairwise_cons.mpr ⟨?_, h⟩, ?_⟩
        · intro x hx
          rcases List.mem_cons.mp hx with rfl | hx
          · omega
          · have := h1 x hx; omega
        · intro k
          by_cases hk : f c = k
          · have hnil : (d :: L).filter (fun a => f a = k) = [] := by
              rw [List.filter_eq_nil_iff]
              intro x hx
              rcases List.mem_cons.mp hx with rfl | hx
              · simp; omega
              · have := h1 x hx; simp; omega
            rw [List.filter_cons, if_pos (by simp [hk]), hnil, List.filter_cons, if_pos (by simp [hk])]
            rfl
          · rw [List.filter_cons, if_neg (by simp [hk])]
            simp [hk]
      · rename_i hge
        obtain ⟨i1, i2⟩ := ih h2
        refine ⟨List.pairwise_cons.mpr ⟨?_, i1⟩, ?_⟩
        · intro x hx
          rcases (ins_mem f c L x).mp hx with rfl | hx
          · omega
          · exact h1 x hx
        · intro k
          rw [List.filter_cons, List.filter_cons (x := d)]
          split
          · rw [i2 k]; rfl
          · exact i2 k
  obtain ⟨h1, h2⟩ := key _ (sorted f l)
  symm
  apply eq_sortBy _ h1
  intro k
  rw [h2, filter_key, List.filter_append]

theorem sortBy_congr {f g : Nat → Int} {l : List Nat} (h : ∀ x ∈ l, f x = g x) : sortBy f l = sortBy g l := by
  have hp := (perm f l)
  refine unique g _ _ ?_ (sorted g l) ?_
  · have := sorted f l
    rw [List.pairwise_iff_forall_sublist] at this ⊢
    intro a b hs
    have ha : a ∈ l := hp.mem_iff.mp (hs.subset (by simp))
    have hb : b ∈ l := hp.mem_iff.mp (hs.subset (by simp))
    rw [← h a ha, ← h b hb]
    exact this hs
  · intro k
    rw [filter_key]
    have e1 : (sortBy f l).filter (fun a => g a = k) = (sortBy f l).filter (fun a => f a = k) :=
      List.filter_congr fun x hx => by rw [h x (hp.mem_iff.mp hx)]
    have e2 : l.filter (fun a => g a = k) = l.filter (fun a => f a = k) := List.filter_congr fun x hx => by rw [h x hx]
    rw [e1, e2, filter_key]

end Sid.StableSort
