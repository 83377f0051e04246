import Verif.Proof.BpInsert
/-
Deletion along a path.
-/
namespace Sid.Bpt

/-- how the chain of leaves changes when leaves are merged -/
inductive Merged : List (Nat × Option Nat) → List (Nat × Option Nat) → Prop where
  | refl (L) : Merged L L
  | step (L X Y : List (Nat × Option Nat)) (i j : Nat) (n1 n2 : Option Nat) :
      Merged L (X ++ (i, n1) :: (j, n2) :: Y) → Merged L (X ++ (i, n2) :: Y)

theorem Merged.context {L L'} (P Q) (h : Merged L L') : Merged (P ++ L ++ Q) (P ++ L' ++ Q) := by
  induction h with
  | refl => exact .refl _
  | step X Y i j n1 n2 _ ih =>
    have := Merged.step (P ++ L ++ Q) (P ++ X) (Y ++ Q) i j n1 n2 (by simpa using ih)
    simpa using this

theorem Merged.trans {L L' L''} (h : Merged L L') (h' : Merged L' L'') : Merged L L'' := by
  induction h' with
  | refl => exact h
  | step X Y i j n1 n2 _ ih => exact .step _ X Y i j n1 n2 ih

theorem idxOf?_mid {α} [DecidableEq α] {A B : List α} {x : α} (h : x ∉ A) : (A ++ x :: B).idxOf? x = some A.length := by
  induction A with
  | nil => simp [List.idxOf?_cons]
  | cons a A ih =>
    simp at h
    simp [List.idxOf?_cons, Ne.symm h.1, ih h.2]

theorem eraseIdx_mid {α} (A B : List α) (x : α) : (A ++ x :: B).eraseIdx A.length = A ++ B := by
  simp [List.eraseIdx_append_of_length_le]

theorem idxOf?_split {α} [DecidableEq α] {l : List α} {x : α} {i : Nat} (h : l.idxOf? x = some i) :
    ∃ A B, l = A ++ x :: B ∧ x ∉ A ∧ i = A.length := by
  induction l generalizing i with
  | nil => simp at h
  | cons a l ih =>
    rw [List.idxOf?_cons] at h
    split at h
    · rename_i e
      have e : a = x := by simpa using e
      simp at h; subst e; subst h
      exact ⟨[], l, rfl, by simp, rfl⟩
    · rename_i e
      have e : ¬ a = x := by simpa using e
      cases hi : l.idxOf? x with
      | none => rw [hi] at h; simp at h
      | some j =>
        rw [hi] at h; simp at h
        obtain ⟨A, B, rfl, hA, rfl⟩ := ih hi
        refine ⟨a :: A, B, rfl, ?_, by simp; omega⟩
        simp [hA]; exact fun e' => e e'.symm

/-- a merge of two neighbours -/
theorem mergeNodes_spec {o h : Nat} (ho : 4 ≤ o) {l r : Tree} {k : K} (wl : Wf o h l) (wr : Wf o h r) (hk : lastKey l = some k)
    (hl0 : h = 0 → 1 ≤ numKeys l) (hr0 : h = 0 → 1 ≤ numKeys r) (hsum : numKeys l + numKeys r < capacity o l)
    (hmin : minK o h ≤ numKeys l ∨ minK o h ≤ numKeys r) :
    ∃ m, mergeNodes l k r = some m ∧ Wf o h m ∧ minK o h ≤ numKeys m ∧ tkeys m = tkeys l ++ tkeys r ∧ tptrs m = tptrs l ++ tptrs r ∧
      Merged (links l ++ links r) (links m) := by
  cases wl with
  | leaf a ha1 ha2 =>
    cases wr with
    | leaf b hb1 hb2 =>
      simp only [numKeys, capacity] at hsum hmin hl0 hr0
      refine ⟨_, rfl, .leaf _ (by simp; omega) (by simp; omega), ?_, by simp [fl_leaf], by simp [fl_leaf], ?_⟩
      · simp only [numKeys, List.length_append]; omega
      · simp only [fl_leaf, lnk]
        exact .step _ [] [] a.id b.id a.next b.next (.refl _)
  | node h ka ca sa la wa ma =>
    cases wr with
    | node _ kb cb sb lb wb mb =>
      simp only [numKeys, capacity] at hsum hmin hl0 hr0
      refine ⟨_, rfl, .node h _ _ ?_ (by simp; omega) ?_ ?_, ?_, by simp [fl_node], by simp [fl_node], ?_⟩
      · rcases List.eq_nil_or_concat ca with rfl | ⟨A, c, rfl⟩
        · exact absurd rfl sa.1
        · rw [List.concat_eq_append] at *
          rw [lastKey_node ((wa c (by simp)).child_ne ho (ma c (by simp)))] at hk
          have := seps_full sa hk
          rw [show ka ++ k :: kb = (ka ++ [k]) ++ kb by simp, seps_append (by simpa using congrArg List.length this) sb.1]
          exact ⟨this, sb⟩
      · intro c hc
        rcases List.mem_append.mp hc with hc | hc
        · exact wa c hc
        · exact wb c hc
      · intro c hc
        rcases List.mem_append.mp hc with hc | hc
        · exact ma c hc
        · exact mb c hc
      · simp only [numKeys, List.length_append, List.length_cons]; omega
      · simp only [fl_node, List.flatMap_append]; exact .refl _

/-- what a move of an entry between neighbours leaves behind -/
structure Moved (o h : Nat) (l r l' : Tree) (k' : K) (r' : Tree) : Prop where
  wl : Wf o h l'
  wr : Wf o h r'
  nl : minK o h ≤ numKeys l'
  nr : minK o h ≤ numKeys r'
  key : lastKey l' = some k'
  keys : tkeys l' ++ tkeys r' = tkeys l ++ tkeys r
  ptrs : tptrs l' ++ tptrs r' = tptrs l ++ tptrs r
  lnks : links l' ++ links r' = links l ++ links r

theorem moveRight_spec {o h : Nat} (ho : 4 ≤ o) {l r : Tree} {k : K} (wl : Wf o h l) (wr : Wf o h r) (hk : lastKey l = some k)
    (hsum : capacity o l ≤ numKeys l + numKeys r) (hr : numKeys r + 1 = minK o h) :
    ∃ l' k' r', moveRight l k r = some (l', k', r') ∧ Moved o h l r l' k' r' := by
  cases wl with
  | leaf a ha1 ha2 =>
    cases wr with
    | leaf b hb1 hb2 =>
      simp only [numKeys, capacity, minK, cut] at hsum hr
      obtain ⟨a1, y, x, e⟩ : ∃ a1 y x, a.keys = a1 ++ [y, x] := by
        rcases List.eq_nil_or_concat a.keys with e | ⟨L, x, e⟩
        · rw [e] at hsum ha2 ha1; simp at hsum; omega
        · rcases List.eq_nil_or_concat L with e' | ⟨a1, y, e'⟩
          · subst e'; rw [e] at hsum; simp at hsum; omega
          · exact ⟨a1, y, x, by rw [e, e']; simp⟩
      obtain ⟨p1, p, ep⟩ : ∃ p1 p, a.ptrs = p1 ++ [p] := by
        rcases List.eq_nil_or_concat a.ptrs with e' | ⟨L, x, e'⟩
        · rw [e', e] at ha1; simp at ha1
        · exact ⟨L, x, by simpa using e'⟩
      have hpl : p1.length = a1.length + 1 := by rw [e, ep] at ha1; simpa using ha1
      have hal : a.keys.length = a1.length + 2 := by rw [e]; simp
      refine ⟨.leaf { a with keys := a1 ++ [y], ptrs := p1 }, y, .leaf { b with keys := x :: b.keys, ptrs := p :: b.ptrs }, ?_, ?_⟩
      · simp only [moveRight]
        have hl2 : (a1 ++ [y, x]).length = a1.length + 2 := by simp
        have h1 : (a1 ++ [y, x])[a1.length + 2 - 1]? = some x := by
          rw [List.getElem?_append_right (by omega), show a1.length + 2 - 1 - a1.length = 1 by omega]; rfl
        have h2 : (p1 ++ [p])[a1.length + 2 - 1]? = some p := by
          rw [List.getElem?_append_right (by omega), show a1.length + 2 - 1 - p1.length = 0 by omega]; rfl
        have h3 : (a1 ++ [y, x])[a1.length + 2 - 2]? = some y := by
          rw [List.getElem?_append_right (by omega), show a1.length + 2 - 2 - a1.length = 0 by omega]; rfl
        have h4 : (a1 ++ [y, x]).take (a1.length + 2 - 1) = a1 ++ [y] := by
          rw [show a1 ++ [y, x] = (a1 ++ [y]) ++ [x] by simp, show a1.length + 2 - 1 = (a1 ++ [y]).length by simp]
          exact List.take_left
        have h5 : (p1 ++ [p]).take (a1.length + 2 - 1) = p1 := by
          rw [show a1.length + 2 - 1 = p1.length by omega]; simp
        rw [e, ep, hl2, h1, h2, h3, h4, h5]
        simp only
        rw [if_neg (by omega)]
      · constructor
        · exact .leaf _ (by simp; omega) (by simp; omega)
        · exact .leaf _ (by simp; omega) (by simp; omega)
        · simp only [numKeys, minK, cut, List.length_append, List.length_cons, List.length_nil]; omega
        · simp only [numKeys, minK, cut, List.length_cons]; omega
        · simp [lastKey, fl_leaf]
        · simp [fl_leaf, e]
        · simp [fl_leaf, ep]
        · simp [fl_leaf, lnk]
  | node h ka ca sa la wa ma =>
    cases wr with
    | node _ kb cb sb lb wb mb =>
      simp only [numKeys, capacity, minK, cut] at hsum hr
      obtain ⟨k1, y, rfl⟩ : ∃ k1 y, ka = k1 ++ [y] := by
        rcases List.eq_nil_or_concat ka with e | ⟨L, x, e⟩
        · rw [e] at hsum; simp at hsum; omega
        · exact ⟨L, x, by simpa using e⟩
      rcases List.eq_nil_or_concat ca with e | ⟨c1, c, e⟩
      · exact absurd e sa.1
      · rw [List.concat_eq_append] at e
        subst e
        have hlen := sa.length
        simp at hlen
        have hcw := wa c (by simp)
        have hcm := ma c (by simp)
        rw [lastKey_node (hcw.child_ne ho hcm)] at hk
        have hfull := sa.2
        simp only [List.dropLast_concat] at hfull
        refine ⟨.node k1 c1, y, .node (k :: kb) (c :: cb), ?_, ?_⟩
        · simp only [moveRight]
          have h1 : (k1 ++ [y])[(k1 ++ [y]).length - 1]? = some y := by simp
          have h2 : (c1 ++ [c])[(k1 ++ [y]).length]? = some c := by simp [← hlen]
          have h3 : (k1 ++ [y]).take ((k1 ++ [y]).length - 1) = k1 := by simp
          have h4 : (c1 ++ [c]).take (k1 ++ [y]).length = c1 := by simp [← hlen]
          rw [h1, h2, h3, h4]
        · simp only [List.length_append, List.length_cons, List.length_nil] at *
          have hne : c1 ≠ [] := by intro e; subst e; simp at hlen
          have s1 := full_seps hfull
          constructor
          · exact .node h _ _ s1 (by omega) (fun x hx => wa x (by simp [hx])) (fun x hx => ma x (by simp [hx]))
          · refine .node h _ _ ?_ (by simp; omega) ?_ ?_
            · obtain ⟨d, cb', rfl⟩ := List.exists_cons_of_ne_nil sb.1
              exact seps_cons.mpr ⟨hk, sb⟩
            · intro x hx
              rcases List.mem_cons.mp hx with rfl | hx
              · exact hcw
              · exact wb x hx
            · intro x hx
              rcases List.mem_cons.mp hx with rfl | hx
              · exact hcm
              · exact mb x hx
          · simp only [numKeys, minK, cut]; omega
          · simp only [numKeys, minK, cut, List.length_cons]; omega
          · rcases List.eq_nil_or_concat c1 with e | ⟨c2, d, e⟩
            · exact absurd e hne
            · rw [List.concat_eq_append] at e
              subst e
              rw [lastKey_node ((wa d (by simp)).child_ne ho (ma d (by simp)))]
              simp only [List.map_append, List.map_cons, List.map_nil] at hfull
              simpa using (List.append_inj' hfull rfl).2
          · simp [fl_node]
          · simp [fl_node]
          · simp [fl_node]

theorem moveLeft_spec {o h : Nat} (ho : 4 ≤ o) {l r : Tree} {k : K} (wl : Wf o h l) (wr : Wf o h r) (hk : lastKey l = some k)
    (hsum : capacity o l ≤ numKeys l + numKeys r) (hl : numKeys l + 1 = minK o h) :
    ∃ l' k' r', moveLeft l k r = some (l', k', r') ∧ Moved o h l r l' k' r' := by
  cases wl with
  | leaf b hb1 hb2 =>
    cases wr with
    | leaf a ha1 ha2 =>
      simp only [numKeys, capacity, minK, cut] at hsum hl
      cases e : a.keys with
      | nil => rw [e] at hsum; simp at hsum; omega
      | cons x ks =>
        cases ep : a.ptrs with
        | nil => rw [e, ep] at ha1; simp at ha1
        | cons p ps =>
          rw [e, ep] at ha1
          rw [e] at ha2 hsum
          simp at ha1 ha2 hsum
          refine ⟨.leaf { b with keys := b.keys ++ [x], ptrs := b.ptrs ++ [p] }, x, .leaf { a with keys := ks, ptrs := ps }, ?_, ?_⟩
          · simp only [moveLeft, e, ep]
          · constructor
            · exact .leaf _ (by simp; omega) (by simp; omega)
            · exact .leaf _ (by simp; omega) (by simp; omega)
            · simp only [numKeys, minK, cut, List.length_append, List.length_cons, List.length_nil]; omega
            · simp only [numKeys, minK, cut]; omega
            · simp [lastKey, fl_leaf]
            · simp [fl_leaf, e]
            · simp [fl_leaf, ep]
            · simp [fl_leaf, lnk]
  | node h kb cb sb lb wb mb =>
    cases wr with
    | node _ ka ca sa la wa ma =>
      simp only [numKeys, capacity, minK, cut] at hsum hl
      have hla := sa.length
      cases ka with
      | nil => simp at hsum; omega
      | cons y ks =>
        cases ca with
        | nil => exact absurd rfl sa.1
        | cons c cs =>
          cases cs with
          | nil => simp at hla
          | cons d cs =>
            rw [seps_cons] at sa
            have hcw := wa c (by simp)
            have hcm := ma c (by simp)
            rcases List.eq_nil_or_concat cb with e | ⟨c1, e', e⟩
            · exact absurd e sb.1
            · rw [List.concat_eq_append] at e
              subst e
              rw [lastKey_node ((wb e' (by simp)).child_ne ho (mb e' (by simp)))] at hk
              have hfull := seps_full sb hk
              simp only [List.length_cons] at *
              refine ⟨.node (kb ++ [k]) (c1 ++ [e'] ++ [c]), y, .node ks (d :: cs), by simp only [moveLeft], ?_⟩
              constructor
              · refine .node h _ _ ?_ (by simp; omega) ?_ ?_
                · rw [show kb ++ [k] = (kb ++ [k]) ++ [] by simp, seps_append (by simpa using congrArg List.length hfull) (by simp)]
                  exact ⟨hfull, by rw [seps_one]⟩
                · intro x hx
                  rcases List.mem_append.mp hx with hx | hx
                  · exact wb x hx
                  · rw [List.mem_singleton.mp hx]; exact hcw
                · intro x hx
                  rcases List.mem_append.mp hx with hx | hx
                  · exact mb x hx
                  · rw [List.mem_singleton.mp hx]; exact hcm
              · exact .node h _ _ sa.2 (by omega) (fun x hx => wa x (List.mem_cons_of_mem _ hx)) (fun x hx => ma x (List.mem_cons_of_mem _ hx))
              · simp only [numKeys, minK, cut, List.length_append, List.length_cons, List.length_nil]; omega
              · simp only [numKeys, minK, cut]; omega
              · rw [lastKey_node (hcw.child_ne ho hcm)]; exact sa.1
              · simp [fl_node]
              · simp [fl_node]
              · simp [fl_node]

/-- a child that has become too small is repaired -/
theorem rebalance_spec {o h : Nat} (ho : 4 ≤ o) {KA KB : List K} {k : K} {A B : List Tree} {l r : Tree} {i : Nat}
    (hA : A.length = KA.length) (sp : Seps (KA ++ k :: KB) (A ++ l :: r :: B)) (hlen : (KA ++ k :: KB).length ≤ o - 1)
    (hother : ∀ c, c ∈ A ∨ c ∈ B → Wf o h c ∧ minK o h ≤ numKeys c) (wl : Wf o h l) (wr : Wf o h r)
    (hnd : ((A ++ l :: r :: B).flatMap tkeys).Nodup)
    (hdef : (i = 0 ∧ A = [] ∧ numKeys l + 1 = minK o h ∧ minK o h ≤ numKeys r) ∨
      (i = A.length + 1 ∧ minK o h ≤ numKeys l ∧ numKeys r + 1 = minK o h)) :
    ∃ t sh, rebalance o (KA ++ k :: KB) (A ++ l :: r :: B) i = some (t, sh) ∧ Wf o (h + 1) t ∧
      numKeys t + (if sh then 1 else 0) = (KA ++ k :: KB).length ∧
      tkeys t = (A ++ l :: r :: B).flatMap tkeys ∧ tptrs t = (A ++ l :: r :: B).flatMap tptrs ∧
      Merged ((A ++ l :: r :: B).flatMap links) (links t) := by
  have hli : (if i = 0 then 0 else i - 1) = A.length := by
    rcases hdef with ⟨rfl, rfl, _⟩ | ⟨rfl, _⟩
    · rfl
    · simp
  have hksn : (KA ++ k :: KB).Nodup := (seps_sublist sp).nodup hnd
  have hkA : k ∉ KA := by
    have := (List.nodup_append.mp hksn).2.2
    intro hk
    exact this k hk k (by simp) rfl
  have hsp := (seps_append hA (by simp)).mp sp
  obtain ⟨spA, spB⟩ := hsp
  rw [seps_cons] at spB
  obtain ⟨hlk, spB⟩ := spB
  have hm0 : h = 0 → 2 ≤ minK o h := by rintro rfl; simp only [minK, cut]; omega
  have hl0 : h = 0 → 1 ≤ numKeys l := by intro e; have := hm0 e; omega
  have hr0 : h = 0 → 1 ≤ numKeys r := by intro e; have := hm0 e; omega
  have hrne : tkeys r ≠ [] := wr.tkeys_ne ho hr0
  have e1 : (A ++ l :: r :: B)[A.length]? = some l := getElem?_mid _ _ _
  have e2 : (KA ++ k :: KB)[A.length]? = some k := by rw [hA]; exact getElem?_mid _ _ _
  have e3 : (A ++ l :: r :: B)[A.length + 1]? = some r := by
    have := getElem?_mid (A ++ [l]) B r
    simpa using this
  simp only [rebalance]
  rw [hli, e1, e2, e3]
  simp only
  split
  · rename_i hsum
    obtain ⟨m, h1, h2, h3, h4, h5, h6⟩ := mergeNodes_spec ho wl wr hlk hl0 hr0 hsum (by omega)
    rw [h1, idxOf?_mid hkA]
    simp only
    have hset : ((A ++ l :: r :: B).set A.length m).eraseIdx (A.length + 1) = A ++ m :: B := by
      rw [set_mid]
      have := eraseIdx_mid (A ++ [m]) B r
      simpa using this
    rw [hset, eraseIdx_mid]
    have hkm : lastKey m = lastKey r := by
      simp only [lastKey, h4]; exact getLast?_append_ne _ _ hrne
    refine ⟨_, _, rfl, .node h _ _ ?_ ?_ ?_ ?_, ?_, ?_, ?_, ?_⟩
    · rw [seps_append hA (by simp)]
      exact ⟨spA, seps_head (fun _ => hkm) spB⟩
    · simp at hlen ⊢; omega
    · intro c hc
      rcases List.mem_append.mp hc with hc | hc
      · exact (hother c (.inl hc)).1
      · rcases List.mem_cons.mp hc with rfl | hc
        · exact h2
        · exact (hother c (.inr hc)).1
    · intro c hc
      rcases List.mem_append.mp hc with hc | hc
      · exact (hother c (.inl hc)).2
      · rcases List.mem_cons.mp hc with rfl | hc
        · exact h3
        · exact (hother c (.inr hc)).2
    · simp [numKeys]; omega
    · rw [fl_node]; simp [h4]
    · rw [fl_node]; simp [h5]
    · rw [fl_node]
      have := h6.context (A.flatMap links) (B.flatMap links)
      simpa using this
  · rename_i hsum
    have hmv : ∃ l' k' r', (if i = 0 then moveLeft l k r else moveRight l k r) = some (l', k', r') ∧ Moved o h l r l' k' r' := by
      rcases hdef with ⟨rfl, _, hd, _⟩ | ⟨rfl, _, hd⟩
      · exact moveLeft_spec ho wl wr hlk (by omega) hd
      · rw [if_neg (by omega)]; exact moveRight_spec ho wl wr hlk (by omega) hd
    obtain ⟨l', k', r', h1, mv⟩ := hmv
    rw [h1]
    simp only
    have hset : ((A ++ l :: r :: B).set A.length l').set (A.length + 1) r' = A ++ l' :: r' :: B := by
      rw [set_mid]
      have := set_mid (A ++ [l']) B r r'
      simpa using this
    have hset2 : (KA ++ k :: KB).set A.length k' = KA ++ k' :: KB := by rw [hA]; exact set_mid _ _ _ _
    have hrne' : tkeys r' ≠ [] := mv.wr.child_ne ho mv.nr
    have hkr : lastKey r' = lastKey r := by
      have := congrArg List.getLast? mv.keys
      rw [getLast?_append_ne _ _ hrne', getLast?_append_ne _ _ hrne] at this
      exact this
    rw [hset, hset2]
    refine ⟨_, _, rfl, .node h _ _ ?_ ?_ ?_ ?_, ?_, ?_, ?_, ?_⟩
    · rw [seps_append hA (by simp)]
      refine ⟨spA, ?_⟩
      rw [seps_cons]
      exact ⟨mv.key, seps_head (fun _ => hkr) spB⟩
    · simpa using hlen
    · intro c hc
      rcases List.mem_append.mp hc with hc | hc
      · exact (hother c (.inl hc)).1
      · rcases List.mem_cons.mp hc with rfl | hc
        · exact mv.wl
        · rcases List.mem_cons.mp hc with rfl | hc
          · exact mv.wr
          · exact (hother c (.inr hc)).1
    · intro c hc
      rcases List.mem_append.mp hc with hc | hc
      · exact (hother c (.inl hc)).2
      · rcases List.mem_cons.mp hc with rfl | hc
        · exact mv.nl
        · rcases List.mem_cons.mp hc with rfl | hc
          · exact mv.nr
          · exact (hother c (.inr hc)).2
    · simp [numKeys]
    · rw [fl_node]; simp only [List.flatMap_append, List.flatMap_cons]; rw [← List.append_assoc (tkeys l'), mv.keys]; simp
    · rw [fl_node]; simp only [List.flatMap_append, List.flatMap_cons]; rw [← List.append_assoc (tptrs l'), mv.ptrs]; simp
    · rw [fl_node]; simp only [List.flatMap_append, List.flatMap_cons]; rw [← List.append_assoc (links l'), mv.lnks]; simp
      exact .refl _

theorem Goes.keys_mem {s t path l LA LB} (g : Goes s t path l LA LB) {k : K} (hk : k ∈ l.keys) : k ∈ tkeys t := by
  rw [g.fl_eq]; simp [hk]

theorem last_erase {KA lk KB : List K} {bk m : K} {i : Nat} (hi : lk.idxOf? bk = some i)
    (hm : (KA ++ lk ++ KB).getLast? = some m) (hne : m ≠ bk) :
    (KA ++ lk.eraseIdx i ++ KB).getLast? = some m := by
  obtain ⟨A, B, rfl, hA, rfl⟩ := idxOf?_split hi
  rw [eraseIdx_mid]
  by_cases hB : B ++ KB = []
  · obtain ⟨rfl, rfl⟩ := List.append_eq_nil_iff.mp hB
    simp at hm
    exact absurd hm.symm hne
  · rw [show KA ++ (A ++ bk :: B) ++ KB = (KA ++ A ++ [bk]) ++ (B ++ KB) by simp, getLast?_append_ne _ _ hB] at hm
    rw [show KA ++ (A ++ B) ++ KB = (KA ++ A) ++ (B ++ KB) by simp, getLast?_append_ne _ _ hB]
    exact hm

theorem erase_sublist {KA lk KB : List K} (i : Nat) : (KA ++ lk.eraseIdx i ++ KB).Sublist (KA ++ lk ++ KB) :=
  List.Sublist.append (List.Sublist.append (List.Sublist.refl _) (List.eraseIdx_sublist _ _)) (List.Sublist.refl _)

theorem minKeys_eq {o h t} (w : Wf o h t) : minKeys o t = minK o h := by
  cases w <;> rfl

theorem deleteAt_spec {o : Nat} {bk : K} {r i j : Nat} {s : Str} (ho : 4 ≤ o) {t path l LA LB} (g : Goes s t path l LA LB)
    (hbk : l.keys.idxOf? bk = some i) (hr : l.ptrs.idxOf? r = some j) :
    ∀ {h : Nat} {hp : Bool}, Wf o h t → 1 ≤ numKeys t → (hp = true → h = 0 → 2 ≤ numKeys t) → (tkeys t).Nodup →
    ∃ t' sw sh, deleteAt o bk r hp path t = some (t', sw, sh) ∧ Wf o h t' ∧ numKeys t' + (if sh then 1 else 0) = numKeys t ∧
      tkeys t' = LA.flatMap Leaf.keys ++ l.keys.eraseIdx i ++ LB.flatMap Leaf.keys ∧
      tptrs t' = LA.flatMap Leaf.ptrs ++ l.ptrs.eraseIdx j ++ LB.flatMap Leaf.ptrs ∧
      Merged (links t) (links t') ∧
      ((hp = true ∨ h ≠ 0) → sw = if lastKey t = some bk then lastKey t' else none) := by
  induction g with
  | leaf l =>
    intro h hp w h1 h2 hnd
    obtain ⟨rfl, hpl, hl⟩ := w.inv_leaf
    obtain ⟨A, B, hk, hA, hi⟩ := idxOf?_split hbk
    obtain ⟨PA, PB, hpp, hPA, hj⟩ := idxOf?_split hr
    have ek : l.keys.eraseIdx i = A ++ B := by rw [hk, hi, eraseIdx_mid]
    have ep : l.ptrs.eraseIdx j = PA ++ PB := by rw [hpp, hj, eraseIdx_mid]
    have hlk : l.keys.length = A.length + 1 + B.length := by rw [hk]; simp; omega
    have hlp : l.ptrs.length = PA.length + 1 + PB.length := by rw [hpp]; simp; omega
    simp only [numKeys] at h1 h2
    have hwf : Wf o 0 (.leaf { l with keys := l.keys.eraseIdx i, ptrs := l.ptrs.eraseIdx j }) :=
      .leaf _ (by simp only [ek, ep, List.length_append]; omega) (by simp only [ek, List.length_append]; omega)
    have hlast : lastKey (.leaf l) = some bk ↔ i = l.keys.length - 1 := by
      simp only [lastKey, fl_leaf]
      constructor
      · intro hh
        by_cases hB : B = []
        · subst hB; simp at hlk; omega
        · exfalso
          rw [fl_leaf, hk] at hnd
          rw [hk, show A ++ bk :: B = (A ++ [bk]) ++ B by simp, getLast?_append_ne _ _ hB] at hh
          have hm := List.mem_of_getLast? hh
          have := (List.nodup_append.mp hnd).2.1
          exact (List.nodup_cons.mp this).1 hm
      · intro hh
        have : B.length = 0 := by omega
        rw [List.eq_nil_of_length_eq_zero this] at hk
        rw [hk]; simp
    simp only [deleteAt, removeFromLeaf, hbk, hr]
    split
    · rename_i hc
      obtain ⟨hpt, hlasti⟩ := hc
      have h2' : 2 ≤ l.keys.length := by simpa using h2 hpt
      have hB : B = [] := List.eq_nil_of_length_eq_zero (by omega)
      subst hB
      rcases List.eq_nil_or_concat A with e | ⟨A', y, e⟩
      · subst e; simp at hlk; omega
      · rw [List.concat_eq_append] at e
        subst e
        have hi' : i = A'.length + 1 := by simpa using hi
        subst hi'
        have hy : l.keys[A'.length]? = some y := by rw [hk]; simp
        simp only
        rw [hy]
        refine ⟨_, _, _, rfl, hwf, ?_, ?_, ?_, ?_, ?_⟩
        · simp only [numKeys, ek, if_true, List.length_append, List.length_cons, List.length_nil] at hlk ⊢; omega
        · simp [fl_leaf]
        · simp [fl_leaf]
        · simp only [fl_leaf, lnk]; exact .refl _
        · intro _
          rw [if_pos (hlast.mpr hlasti)]
          simp only [lastKey, fl_leaf, ek]
          simp
    · rename_i hc
      refine ⟨_, _, _, rfl, hwf, ?_, ?_, ?_, ?_, ?_⟩
      · simp only [numKeys, ek, if_true, List.length_append]; omega
      · simp [fl_leaf]
      · simp [fl_leaf]
      · simp only [fl_leaf, lnk]; exact .refl _
      · intro hh
        rcases hh with hh | hh
        · rw [if_neg]
          rw [hlast]; intro e; exact hc ⟨hh, e⟩
        · exact absurd rfl hh
  | node ks A c B path l LA LB hidx g ih =>
    intro h hp w h1 h2 hnd
    obtain ⟨h, rfl, sp, hkl, hc⟩ := w.inv_node
    have hcw := hc c (by simp)
    have hnd' := hnd
    rw [fl_node] at hnd'
    simp only [List.flatMap_append, List.flatMap_cons] at hnd'
    have hndA := (List.nodup_append.mp hnd').1
    have hndCB := (List.nodup_append.mp hnd').2.1
    have hndC : (tkeys c).Nodup := (List.nodup_append.mp hndCB).1
    have hmin2 : h = 0 → 2 ≤ numKeys c := by
      rintro rfl
      have := hcw.2
      simp only [minK, cut] at this; omega
    obtain ⟨c', sw, sh, hdel, wc', hn', hk', hp', hm', hsw⟩ := ih hbk hr (hp := true) hcw.1
      (Nat.le_trans (minK_pos ho h) hcw.2) (fun _ => hmin2) hndC
    have hsw := hsw (.inl rfl)
    have hkc := g.fl_eq Leaf.keys
    have hbkc : bk ∈ tkeys c := g.keys_mem (by
      obtain ⟨X, Y, e, _⟩ := idxOf?_split hbk
      rw [e]; simp)
    have hc'ne : tkeys c' ≠ [] := wc'.tkeys_ne ho (fun e => by have := hmin2 e; split at hn' <;> omega)
    have hcne : tkeys c ≠ [] := hcw.1.child_ne ho hcw.2
    have hlen := sp.length
    have hile := childIdx_le ks s
    have hlA : A.length = (ks.take A.length).length := by simp; omega
    have hsp := sp
    rw [← List.take_append_drop A.length ks, seps_append hlA (by simp)] at hsp
    obtain ⟨spA, spB⟩ := hsp
    -- keys of this node after the removed key has been replaced
    have hswap : Seps (swapKey ks bk sw).1 (A ++ c' :: B) ∧ (swapKey ks bk sw).1.length = ks.length ∧
        (swapKey ks bk sw).2 = if lastKey (.node ks (A ++ c :: B)) = some bk then
          lastKey (.node (swapKey ks bk sw).1 (A ++ c' :: B)) else none := by
      by_cases hB : B = []
      · subst hB
        have hksA : ∀ k ∈ ks, k ∈ A.flatMap tkeys := by
          have hd : ks.drop A.length = [] := by simp at hlen; simp; omega
          have hta : ks.take A.length = ks := by
            have := List.take_append_drop A.length ks
            rw [hd, List.append_nil] at this; exact this
          rw [hta] at spA
          intro k hk
          have : some k ∈ A.map lastKey := by rw [spA]; exact List.mem_map_of_mem hk
          obtain ⟨a, ha, hka⟩ := List.mem_map.mp this
          exact List.mem_flatMap.mpr ⟨a, ha, List.mem_of_getLast? hka⟩
        have hbkks : bk ∉ ks := by
          intro hh
          exact (List.nodup_append.mp hnd').2.2 bk (hksA bk hh) bk (by simp [hbkc]) rfl
        have hs : swapKey ks bk sw = (ks, sw) := by
          cases sw with
          | none => rfl
          | some nk =>
            simp only [swapKey]
            rw [List.idxOf?_eq_none_iff.mpr hbkks]
        rw [hs]
        refine ⟨?_, rfl, ?_⟩
        · rw [← List.take_append_drop A.length ks, seps_append hlA (by simp)]
          exact ⟨spA, seps_head (fun e => absurd rfl e) spB⟩
        · rw [lastKey_node hcne, lastKey_node hc'ne]; exact hsw
      · obtain ⟨b, B, rfl⟩ := List.exists_cons_of_ne_nil hB
        cases hm : ks.drop A.length with
        | nil => rw [hm] at spB; have := spB.length; simp at this
        | cons m KB =>
          rw [hm, seps_cons] at spB
          have hks : ks = ks.take A.length ++ m :: KB := by rw [← hm, List.take_append_drop]
          have hnlast : lastKey (.node ks (A ++ c :: b :: B)) ≠ some bk := by
            intro e
            have hB' : (b :: B).flatMap tkeys ≠ [] := by
              rw [List.flatMap_cons]
              intro e
              exact (hc b (by simp)).1.child_ne ho (hc b (by simp)).2 (List.append_eq_nil_iff.mp e).1
            simp only [lastKey] at e
            rw [fl_node, List.flatMap_append, List.flatMap_cons, getLast?_append_ne _ _ (by simp only [ne_eq, List.append_eq_nil_iff, not_and]; exact fun _ => hB'),
              getLast?_append_ne _ _ hB'] at e
            exact (List.nodup_append.mp hndCB).2.2 bk hbkc bk (List.mem_of_getLast? e) rfl
          by_cases hmb : m = bk
          · subst hmb
            rw [if_pos spB.1] at hsw
            obtain ⟨nk, hnk⟩ : ∃ nk, lastKey c' = some nk := by
              cases e : lastKey c' with
              | none => exact absurd (List.getLast?_eq_none_iff.mp e) hc'ne
              | some x => exact ⟨x, rfl⟩
            rw [hnk] at hsw
            subst hsw
            have hnotin : m ∉ ks.take A.length := by
              have := (seps_sublist sp).nodup (by rw [← fl_node Leaf.keys ks]; exact hnd)
              rw [hks] at this
              have := (List.nodup_append.mp this).2.2
              intro hh
              exact this m hh m (by simp) rfl
            have hs : swapKey ks m (some nk) = (ks.take A.length ++ nk :: KB, none) := by
              simp only [swapKey]
              have : ks.idxOf? m = some (ks.take A.length).length := by
                conv => lhs; rw [hks]
                exact idxOf?_mid hnotin
              rw [this]
              simp only
              have hset := set_mid (ks.take A.length) KB m nk
              rw [← hks] at hset
              rw [hset]
            rw [hs]
            refine ⟨?_, ?_, ?_⟩
            · simp only []
              rw [seps_append hlA (by simp)]
              exact ⟨spA, seps_cons.mpr ⟨hnk, spB.2⟩⟩
            · simp only []
              conv => rhs; rw [hks]
              simp
            · rw [if_neg hnlast]
          · rw [if_neg (by rw [spB.1]; simpa using hmb)] at hsw
            subst hsw
            refine ⟨?_, rfl, by simp only [swapKey]; rw [if_neg hnlast]⟩
            simp only [swapKey]
            have hl' : lastKey c' = some m := by
              simp only [lastKey]
              rw [hk']
              refine last_erase hbk ?_ hmb
              have := spB.1
              simp only [lastKey] at this
              rw [hkc] at this
              exact this
            conv => arg 1; rw [hks]
            rw [seps_append hlA (by simp)]
            exact ⟨spA, seps_cons.mpr ⟨hl', spB.2⟩⟩
    obtain ⟨hs1, hs2, hs3⟩ := hswap
    generalize hS : swapKey ks bk sw = S at hs1 hs2 hs3
    -- projections of the node with the changed child
    have fK : (A ++ c' :: B).flatMap tkeys = (A.flatMap leaves ++ LA).flatMap Leaf.keys ++ l.keys.eraseIdx i ++ (LB ++ B.flatMap leaves).flatMap Leaf.keys := by
      simp only [List.flatMap_append, List.flatMap_cons, hk', flatMap_leaves, List.append_assoc]
    have fP : (A ++ c' :: B).flatMap tptrs = (A.flatMap leaves ++ LA).flatMap Leaf.ptrs ++ l.ptrs.eraseIdx j ++ (LB ++ B.flatMap leaves).flatMap Leaf.ptrs := by
      simp only [List.flatMap_append, List.flatMap_cons, hp', flatMap_leaves, List.append_assoc]
    have fL : Merged ((A ++ c :: B).flatMap links) ((A ++ c' :: B).flatMap links) := by
      have := hm'.context (A.flatMap links) (B.flatMap links)
      simpa using this
    have hndc' : ((A ++ c' :: B).flatMap tkeys).Nodup := by
      rw [fK]
      refine (erase_sublist i).nodup ?_
      have e : tkeys (.node ks (A ++ c :: B)) = (A.flatMap leaves ++ LA).flatMap Leaf.keys ++ l.keys ++ (LB ++ B.flatMap leaves).flatMap Leaf.keys := by
        rw [fl_node]
        simp only [List.flatMap_append, List.flatMap_cons, hkc, flatMap_leaves, List.append_assoc]
      rw [← e]; exact hnd
    have hothers : ∀ x, x ∈ A ∨ x ∈ B → Wf o h x ∧ minK o h ≤ numKeys x := by
      rintro x (hx | hx)
      · exact hc x (by simp [hx])
      · exact hc x (by simp [hx])
    simp only [numKeys] at h1
    simp only [deleteAt, getElem?_mid, hdel, hS, set_mid]
    split
    · rename_i hcond
      obtain ⟨hsh, hlow⟩ := hcond
      rw [minKeys_eq wc'] at hlow
      subst hsh
      simp only [if_true] at hn'
      have hdefn : numKeys c' + 1 = minK o h := by have := hcw.2; omega
      have hreb : ∃ t sh, rebalance o S.1 (A ++ c' :: B) A.length = some (t, sh) ∧ Wf o (h + 1) t ∧
          numKeys t + (if sh then 1 else 0) = S.1.length ∧
          tkeys t = (A ++ c' :: B).flatMap tkeys ∧ tptrs t = (A ++ c' :: B).flatMap tptrs ∧
          Merged ((A ++ c' :: B).flatMap links) (links t) := by
        have hl' := hs1.length
        rcases List.eq_nil_or_concat A with e | ⟨A', x, e⟩
        · subst e
          cases B with
          | nil =>
            have : ([] ++ [c'] : List Tree).length = 1 := rfl
            omega
          | cons b B =>
            cases hS1 : S.1 with
            | nil => rw [hS1] at hl'; simp at hl'
            | cons k KB =>
              rw [hS1] at hs1 hs2
              exact rebalance_spec (KA := []) (A := []) ho rfl hs1 (by rw [List.nil_append, hs2]; exact hkl)
                (fun y hy => hothers y (by simp at hy; simp [hy])) wc' (hothers b (by simp)).1 hndc'
                (.inl ⟨rfl, rfl, hdefn, (hothers b (by simp)).2⟩)
        · rw [List.concat_eq_append] at e
          subst e
          have hlS : A'.length < S.1.length := by simp at hl'; omega
          have hSd : S.1 = S.1.take A'.length ++ S.1[A'.length] :: S.1.drop (A'.length + 1) := by simp
          rw [show A' ++ [x] ++ c' :: B = A' ++ x :: c' :: B by simp] at hs1 hndc' ⊢
          rw [hSd] at hs1 hs2 ⊢
          exact rebalance_spec ho (by simp; omega) hs1 (by rw [hs2]; exact hkl)
            (fun y hy => hothers y (by simp at hy ⊢; rcases hy with h | h <;> simp [h])) (hothers x (by simp)).1 wc' hndc'
            (.inr ⟨by simp, (hothers x (by simp)).2, hdefn⟩)
      obtain ⟨t', sh', e1, e2, e3, e4, e5, e6⟩ := hreb
      rw [e1]
      refine ⟨t', S.2, sh', rfl, e2, by show numKeys t' + _ = ks.length; omega, by rw [e4, fK], by rw [e5, fP], ?_, ?_⟩
      · rw [fl_node]; exact fL.trans e6
      · intro _
        rw [hs3]
        have : lastKey t' = lastKey (.node S.1 (A ++ c' :: B)) := by simp only [lastKey]; rw [fl_node, e4]
        rw [this]
    · rename_i hcond
      refine ⟨_, S.2, false, rfl, .node h _ _ hs1 (by omega) ?_ ?_, by simp [numKeys, hs2], by rw [fl_node, fK], by rw [fl_node, fP], by rw [fl_node, fl_node]; exact fL, ?_⟩
      · intro x hx
        rcases List.mem_append.mp hx with hx | hx
        · exact (hothers x (.inl hx)).1
        · rcases List.mem_cons.mp hx with rfl | hx
          · exact wc'
          · exact (hothers x (.inr hx)).1
      · intro x hx
        rcases List.mem_append.mp hx with hx | hx
        · exact (hothers x (.inl hx)).2
        · rcases List.mem_cons.mp hx with rfl | hx
          · have := hcw.2
            by_cases hsh : sh = true
            · rw [minKeys_eq wc'] at hcond
              have : ¬ numKeys x < minK o h := fun hlt => hcond ⟨hsh, hlt⟩
              omega
            · rw [if_neg hsh] at hn'; omega
          · exact (hothers x (.inr hx)).2
      · intro _; exact hs3

end Sid.Bpt
