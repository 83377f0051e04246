import Verif.Model.BpTree
/-
The loops that split a full leaf or node move the same elements as inserting first and cutting afterwards.
-/
namespace Sid.Bpt

theorem getElem?_insertIdx' {α} (l : List α) (i : Nat) (x : α) (j : Nat) (hi : i ≤ l.length) :
    (l.insertIdx i x)[j]? = if j < i then l[j]? else if j = i then some x else l[j - 1]? := by
  rw [List.getElem?_insertIdx]
  split
  · rfl
  · split
    · rw [if_pos (by omega)]
    · rfl

theorem length_insertIdx' {α} (l : List α) (i : Nat) (x : α) (hi : i ≤ l.length) :
    (l.insertIdx i x).length = l.length + 1 := by
  rw [List.length_insertIdx, if_pos hi]

theorem drop_take_succ {α} (l : List α) (p n : Nat) (a : α) (h : l[p]? = some a) :
    (l.drop p).take (n + 1) = a :: (l.drop (p + 1)).take n := by
  obtain ⟨hp, rfl⟩ := List.getElem?_eq_some_iff.mp h
  rw [List.drop_eq_getElem_cons hp, List.take_succ_cons]

theorem copyLeaf_eq {α} (old : List α) (x : α) (split ins : Nat) (hins : ins ≤ old.length) :
    ∀ (n j i : Nat), i = (if split + j ≤ ins then split + j else split + j - 1) → split + j + n ≤ old.length + 1 →
      copyLeaf old x split ins n j i = some (((old.insertIdx ins x).drop (split + j)).take n) := by
  intro n
  induction n with
  | zero => intro j i _ _; simp [copyLeaf]
  | succ n ih =>
    intro j i hi hl
    simp only [copyLeaf]
    split
    · rename_i h
      rw [ih (j + 1) i (by rw [if_neg (by omega)]; rw [if_pos (by omega)] at hi; omega) (by omega)]
      rw [drop_take_succ _ _ n x (by rw [getElem?_insertIdx' _ _ _ _ hins, if_neg (by omega), if_pos h])]
      rfl
    · rename_i h
      have hlt : i < old.length := by split at hi <;> omega
      have hget : old[i]? = some old[i] := List.getElem?_eq_getElem hlt
      rw [hget]
      simp only
      rw [ih (j + 1) (i + 1) (by split at hi <;> split <;> omega) (by omega)]
      rw [drop_take_succ _ _ n old[i] ?_]
      · rfl
      · rw [getElem?_insertIdx' _ _ _ _ hins]
        split at hi
        · rw [if_pos (by omega), ← hi]; exact hget
        · rw [if_neg (by omega), if_neg h, ← hi]; exact hget

theorem length_shiftUp {α} (ins n : Nat) (a : List α) : (shiftUp ins n a).length = a.length := by
  induction n generalizing a with
  | zero => rfl
  | succ n ih =>
    simp only [shiftUp]
    split
    · cases a[n]? <;> simp [ih]
    · rfl

theorem getElem?_shiftUp {α} (ins n : Nat) (a : List α) (hn : n < a.length) (j : Nat) :
    (shiftUp ins n a)[j]? = if ins < j ∧ j ≤ n then a[j - 1]? else a[j]? := by
  induction n generalizing a with
  | zero => simp only [shiftUp]; rw [if_neg (by omega)]
  | succ n ih =>
    simp only [shiftUp]
    split
    · rename_i hgt
      rw [List.getElem?_eq_getElem (show n < a.length by omega)]
      simp only
      rw [ih _ (by simp; omega)]
      by_cases hj : ins < j ∧ j ≤ n
      · rw [if_pos hj, if_pos (by omega), List.getElem?_set_ne (by omega)]
      · rw [if_neg hj]
        by_cases hjn : j = n + 1
        · subst hjn
          rw [if_pos (by omega), List.getElem?_set_self (by omega)]
          rw [Nat.add_sub_cancel, List.getElem?_eq_getElem (by omega)]
        · rw [if_neg (by omega), List.getElem?_set_ne (by omega)]
    · rw [if_neg (by omega)]

theorem shiftUp_set_take {α} (ins split : Nat) (old : List α) (x : α) (h1 : ins < split) (h2 : split ≤ old.length) :
    ((shiftUp ins (split - 1) old).set ins x).take split = (old.insertIdx ins x).take split := by
  apply List.ext_getElem?
  intro j
  rw [List.getElem?_take, List.getElem?_take]
  split
  · rw [getElem?_insertIdx' _ _ _ _ (by omega)]
    by_cases e : j = ins
    · subst e
      rw [List.getElem?_set_self (by rw [length_shiftUp]; omega), if_neg (by omega), if_pos rfl]
    · rw [List.getElem?_set_ne (by omega), getElem?_shiftUp _ _ _ (by omega)]
      split
      · rw [if_neg (by omega)]
      · rw [if_pos (by omega)]
  · rfl

theorem take_insertIdx_ge {α} (l : List α) (i n : Nat) (x : α) (h : n ≤ i) : (l.insertIdx i x).take n = l.take n := by
  apply List.ext_getElem?
  intro j
  rw [List.getElem?_take, List.getElem?_take]
  split
  · rw [List.getElem?_insertIdx, if_pos (by omega)]
  · rfl

/-- splitting a full leaf array is insertion followed by a cut -/
theorem splitArray_eq {α} (o : Nat) (old : List α) (x : α) (ins : Nat) (ho : 4 ≤ o) (hl : old.length = o - 1)
    (hins : ins ≤ old.length) :
    splitArray o old x ins = some ((old.insertIdx ins x).take (cut (o - 1)), (old.insertIdx ins x).drop (cut (o - 1))) := by
  have hc : cut (o - 1) ≤ o - 1 := by simp only [cut]; omega
  simp only [splitArray]
  rw [copyLeaf_eq old x _ ins hins _ 0 _ (by split <;> split <;> omega) (by omega)]
  simp only [Nat.add_zero, Option.some.injEq, Prod.mk.injEq]
  constructor
  · split
    · rename_i h; exact shiftUp_set_take _ _ _ _ h (by omega)
    · exact (take_insertIdx_ge _ _ _ _ (by omega)).symm
  · exact List.take_of_length_le (by rw [List.length_drop, length_insertIdx' _ _ _ hins]; omega)

theorem copyNode_eq (ks : List K) (kids : List Tree) (bk : K) (right : Tree) (split li : Nat) (hlen : kids.length = ks.length + 1)
    (hli : li ≤ ks.length) :
    ∀ (n i j k : Nat), j = (if split + i ≤ li + 1 then split + i else split + i - 1) →
      k = (if split + i ≤ li then split + i else split + i - 1) → split + i + n = ks.length + 1 →
      copyNode ks kids bk right split li n i j k =
        some (((ks.insertIdx li bk).drop (split + i)).take n, ((kids.insertIdx (li + 1) right).drop (split + i)).take (n + 1)) := by
  have hK : ∀ p, (ks.insertIdx li bk)[p]? = if p < li then ks[p]? else if p = li then some bk else ks[p - 1]? :=
    fun p => getElem?_insertIdx' _ _ _ _ hli
  have hC : ∀ p, (kids.insertIdx (li + 1) right)[p]? =
      if p < li + 1 then kids[p]? else if p = li + 1 then some right else kids[p - 1]? :=
    fun p => getElem?_insertIdx' _ _ _ _ (by omega)
  intro n
  induction n with
  | zero =>
    intro i j k hj hk hl
    simp only [copyNode, List.take_zero]
    split
    · rename_i h
      rw [drop_take_succ (kids.insertIdx (li + 1) right) (split + i) 0 right
        (by rw [hC, if_neg (by omega), if_pos h])]
      rfl
    · rename_i h
      have hlt : j < kids.length := by split at hj <;> omega
      rw [List.getElem?_eq_getElem hlt, drop_take_succ (kids.insertIdx (li + 1) right) (split + i) 0 kids[j] ?_]
      · rfl
      · rw [hC]
        split at hj
        · rw [if_pos (by omega), ← hj]; exact List.getElem?_eq_getElem hlt
        · rw [if_neg (by omega), if_neg h, ← hj]; exact List.getElem?_eq_getElem hlt
  | succ n ih =>
    intro i j k hj hk hl
    simp only [copyNode]
    split
    · rename_i h
      have hlt : j < kids.length := by split at hj <;> omega
      rw [List.getElem?_eq_getElem hlt]
      simp only
      rw [ih (i + 1) (j + 1) k (by split at hj <;> split <;> omega) (by split at hk <;> split <;> omega) (by omega)]
      rw [drop_take_succ (ks.insertIdx li bk) (split + i) n bk (by rw [hK, if_neg (by omega), if_pos h])]
      rw [drop_take_succ (kids.insertIdx (li + 1) right) (split + i) (n + 1) kids[j]
        (by rw [hC, if_pos (by omega), show split + i = j by split at hj <;> omega]; exact List.getElem?_eq_getElem hlt)]
      rfl
    · rename_i h
      have hlk : k < ks.length := by split at hk <;> omega
      have hKp : (ks.insertIdx li bk)[split + i]? = some ks[k] := by
        rw [hK]
        split at hk
        · rw [if_pos (by omega), ← hk]; exact List.getElem?_eq_getElem hlk
        · rw [if_neg (by omega), if_neg h, ← hk]; exact List.getElem?_eq_getElem hlk
      split
      · rename_i h2
        rw [List.getElem?_eq_getElem hlk]
        simp only
        rw [ih (i + 1) j (k + 1) (by split at hj <;> split <;> omega) (by split at hk <;> split <;> omega) (by omega)]
        rw [drop_take_succ (ks.insertIdx li bk) (split + i) n ks[k] hKp]
        rw [drop_take_succ (kids.insertIdx (li + 1) right) (split + i) (n + 1) right
          (by rw [hC, if_neg (by omega), if_pos h2])]
        rfl
      · rename_i h2
        have hlt : j < kids.length := by split at hj <;> omega
        rw [List.getElem?_eq_getElem hlk, List.getElem?_eq_getElem hlt]
        simp only
        rw [ih (i + 1) (j + 1) (k + 1) (by split at hj <;> split <;> omega) (by split at hk <;> split <;> omega) (by omega)]
        rw [drop_take_succ (ks.insertIdx li bk) (split + i) n ks[k] hKp]
        rw [drop_take_succ (kids.insertIdx (li + 1) right) (split + i) (n + 1) kids[j] ?_]
        · rfl
        · rw [hC]
          split at hj
          · rw [if_pos (by omega), ← hj]; exact List.getElem?_eq_getElem hlt
          · rw [if_neg (by omega), if_neg h2, ← hj]; exact List.getElem?_eq_getElem hlt

theorem length_shiftKids (li : Nat) (right : Tree) (n : Nat) (a : List Tree) : (shiftKids li right n a).length = a.length := by
  induction n generalizing a with
  | zero => rfl
  | succ n ih =>
    simp only [shiftKids]
    split
    · split
      · cases a[n]? <;> simp [ih]
      · simp [ih]
    · rfl

theorem getElem?_shiftKids (li : Nat) (right : Tree) (n : Nat) (a : List Tree) (hn : n < a.length) (j : Nat) :
    (shiftKids li right n a)[j]? =
      if li + 1 < j ∧ j ≤ n then a[j - 1]? else if j = li + 1 ∧ j ≤ n then some right else a[j]? := by
  induction n generalizing a with
  | zero => simp only [shiftKids]; rw [if_neg (by omega), if_neg (by omega)]
  | succ n ih =>
    simp only [shiftKids]
    split
    · split
      · rename_i hgt
        rw [List.getElem?_eq_getElem (show n < a.length by omega)]
        simp only
        rw [ih _ (by simp; omega)]
        by_cases hjn : j = n + 1
        · subst hjn
          rw [if_neg (by omega), if_neg (by omega), if_pos (by omega), List.getElem?_set_self (by omega),
            Nat.add_sub_cancel, List.getElem?_eq_getElem (by omega)]
        · by_cases hj : li + 1 < j ∧ j ≤ n
          · rw [if_pos hj, if_pos (by omega), List.getElem?_set_ne (by omega)]
          · rw [if_neg hj, if_neg (show ¬(li + 1 < j ∧ j ≤ n + 1) by omega)]
            by_cases h1 : j = li + 1 ∧ j ≤ n
            · rw [if_pos h1, if_pos (by omega)]
            · rw [if_neg h1, if_neg (by omega), List.getElem?_set_ne (by omega)]
      · rename_i h1 h2
        rw [ih _ (by simp; omega), if_neg (by omega), if_neg (by omega), if_neg (by omega)]
        by_cases e : j = n + 1
        · subst e
          rw [List.getElem?_set_self (by omega), if_pos (by omega)]
        · rw [List.getElem?_set_ne (by omega), if_neg (by omega)]
    · rw [if_neg (by omega), if_neg (by omega)]

/-- splitting a full internal node is insertion followed by a cut -/
theorem splitNode_eq (o : Nat) (ks : List K) (kids : List Tree) (li : Nat) (bk : K) (right : Tree) (ho : 4 ≤ o)
    (hl : ks.length = o - 1) (hlen : kids.length = ks.length + 1) (hli : li ≤ ks.length) :
    splitNode o ks kids li bk right =
      ((ks.insertIdx li bk)[cut o - 1]?).map fun up =>
        (.node ((ks.insertIdx li bk).take (cut o - 1)) ((kids.insertIdx (li + 1) right).take (cut o)), up,
         .node ((ks.insertIdx li bk).drop (cut o)) ((kids.insertIdx (li + 1) right).drop (cut o))) := by
  have hc : 2 ≤ cut o ∧ cut o + 1 ≤ o := by simp only [cut]; omega
  simp only [splitNode]
  rw [copyNode_eq ks kids bk right _ li hlen hli _ 0 _ _ (by split <;> split <;> omega) (by split <;> split <;> omega) (by omega)]
  simp only [Nat.add_zero]
  have hk : (if li < cut o then (shiftUp li (cut o - 1) ks).set li bk else ks).take (cut o) =
      (ks.insertIdx li bk).take (cut o) := by
    split
    · rename_i h; exact shiftUp_set_take _ _ _ _ h (by omega)
    · exact (take_insertIdx_ge _ _ _ _ (by omega)).symm
  have hk1 : (if li < cut o then (shiftUp li (cut o - 1) ks).set li bk else ks)[cut o - 1]? =
      (ks.insertIdx li bk)[cut o - 1]? := by
    have := congrArg (fun l => l[cut o - 1]?) hk
    simpa [List.getElem?_take, show cut o - 1 < cut o by omega] using this
  have hk2 : (if li < cut o then (shiftUp li (cut o - 1) ks).set li bk else ks).take (cut o - 1) =
      (ks.insertIdx li bk).take (cut o - 1) := by
    have := congrArg (fun l => l.take (cut o - 1)) hk
    simpa [List.take_take, show min (cut o - 1) (cut o) = cut o - 1 by omega] using this
  have hp : (if li < cut o then shiftKids li right (cut o - 1) kids else kids).take (cut o) =
      (kids.insertIdx (li + 1) right).take (cut o) := by
    split
    · apply List.ext_getElem?
      intro j
      rw [List.getElem?_take, List.getElem?_take]
      split
      · rw [getElem?_shiftKids _ _ _ _ (by omega), getElem?_insertIdx' _ _ _ _ (by omega)]
        by_cases h1 : li + 1 < j
        · rw [if_pos (by omega), if_neg (by omega), if_neg (by omega)]
        · rw [if_neg (by omega)]
          by_cases h2 : j = li + 1
          · rw [if_pos (by omega), if_neg (by omega), if_pos h2]
          · rw [if_neg (by omega), if_pos (by omega)]
      · rfl
    · exact (take_insertIdx_ge _ _ _ _ (by omega)).symm
  rw [hk1, hk2, hp]
  rw [List.take_of_length_le (l := (ks.insertIdx li bk).drop (cut o))
      (by rw [List.length_drop, length_insertIdx' _ _ _ hli]; omega),
    List.take_of_length_le (l := (kids.insertIdx (li + 1) right).drop (cut o))
      (by rw [List.length_drop, length_insertIdx' _ _ _ (by omega)]; omega)]
  cases (ks.insertIdx li bk)[cut o - 1]? <;> rfl

end Sid.Bpt
