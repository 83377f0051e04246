import Verif.Spec.UbrDelta
import Verif.Proof.UbrKey
import Verif.Proof.UbrPerm
import Verif.Proof.Str
namespace Sid.Ubr
open Sid.Spec.Delta
open scoped List

theorem _root_.Sid.Spec.Delta.Asc.nil : Asc [] := List.Pairwise.nil

theorem _root_.Sid.Spec.Delta.Asc.tail {a : Str} {l : List Str} (h : Asc (a :: l)) : Asc l := (List.pairwise_cons.mp h).2

theorem _root_.Sid.Spec.Delta.Asc.head {a : Str} {l : List Str} (h : Asc (a :: l)) : ∀ x ∈ l, strLt a x = true := (List.pairwise_cons.mp h).1

theorem _root_.Sid.Spec.Delta.Asc.cons {a : Str} {l : List Str} (h : Asc l) (hl : ∀ x ∈ l, strLt a x = true) : Asc (a :: l) :=
  List.pairwise_cons.mpr ⟨hl, h⟩

theorem not_mem_of_lt {a b : Str} {l : List Str} (h : Asc (b :: l)) (hab : strLt a b = true) : a ∉ b :: l := by
  intro hm
  rcases List.mem_cons.mp hm with e | e
  · rw [e, strLt_irrefl] at hab; cases hab
  · have := strLt_trans hab (h.head a e)
    rw [strLt_irrefl] at this; cases this

theorem _root_.Sid.Spec.Delta.Asc.not_mem {a : Str} {l : List Str} (h : Asc (a :: l)) : a ∉ l := by
  intro hm
  have := h.head a hm
  rw [strLt_irrefl] at this; cases this

theorem _root_.Sid.Spec.Delta.Asc.ext {l₁ : List Str} : ∀ {l₂ : List Str}, Asc l₁ → Asc l₂ → (∀ x, x ∈ l₁ ↔ x ∈ l₂) → l₁ = l₂ := by
  induction l₁ with
  | nil =>
    intro l₂ _ _ h
    cases l₂ with
    | nil => rfl
    | cons b l => exact absurd ((h b).mpr (by simp)) (by simp)
  | cons a l₁ ih =>
    intro l₂ h1 h2 h
    cases l₂ with
    | nil => exact absurd ((h a).mp (by simp)) (by simp)
    | cons b l₂ =>
      have hab : a = b := by
        apply strLt_total
        · cases hlt : strLt a b with
          | false => rfl
          | true => exact absurd ((h a).mp (by simp)) (not_mem_of_lt h2 hlt)
        · cases hlt : strLt b a with
          | false => rfl
          | true => exact absurd ((h b).mpr (by simp)) (not_mem_of_lt h1 hlt)
      subst hab
      congr 1
      refine ih h1.tail h2.tail ?_
      intro x
      have := h x
      have n1 := h1.not_mem
      have n2 := h2.not_mem
      constructor
      · intro hx
        rcases List.mem_cons.mp (this.mp (List.mem_cons_of_mem _ hx)) with e | e
        · subst e; exact absurd hx n1
        · exact e
      · intro hx
        rcases List.mem_cons.mp (this.mpr (List.mem_cons_of_mem _ hx)) with e | e
        · subst e; exact absurd hx n2
        · exact e

/-! ### step -/

theorem stepCalc_mem (op : KvOp) (old new : List Str) (ho : Asc old) (hn : Asc new) (x : Str) :
    (x ∈ (stepCalc op old new).final ↔ Result op old new x) ∧
    (x ∈ (stepCalc op old new).plus ↔ Result op old new x ∧ x ∉ old) ∧
    (x ∈ (stepCalc op old new).minus ↔ x ∈ old ∧ ¬ Result op old new x) := by
  fun_induction stepCalc op old new with
  | case1 => cases op <;> simp [Result]
  | case2 n ns ih =>
    have := ih ho hn.tail
    cases op <;> simp only [newOnly, Result, List.mem_cons] at this ⊢ <;> grind
  | case3 o os ih =>
    have := ih ho.tail hn
    have := ho.not_mem
    cases op <;> simp only [oldOnly, Result, List.mem_cons] at * <;> grind
  | case4 o os n ns h ih =>
    have := ih ho.tail hn
    have := not_mem_of_lt hn h
    have := ho.not_mem
    cases op <;> simp only [oldOnly, Result, List.mem_cons] at * <;> grind
  | case5 o os n ns h h2 ih =>
    have := ih ho hn.tail
    have := not_mem_of_lt ho h2
    have := hn.not_mem
    cases op <;> simp only [newOnly, Result, List.mem_cons] at * <;> grind
  | case6 o os n ns h h2 ih =>
    have := ih ho.tail hn.tail
    have e : o = n := strLt_total (by simpa using h) (by simpa using h2)
    subst e
    have := hn.not_mem
    have := ho.not_mem
    cases op <;> simp only [inBoth, Result, List.mem_cons] at * <;> grind

theorem Result_sub {op : KvOp} {old new : List Str} {x : Str} (h : Result op old new x) : x ∈ old ∨ x ∈ new := by
  cases op with
  | set => exact Or.inr h
  | plus => exact h
  | minus => exact Or.inl h.1

theorem stepCalc_asc (op : KvOp) (old new : List Str) (ho : Asc old) (hn : Asc new) :
    Asc (stepCalc op old new).final ∧ Asc (stepCalc op old new).plus ∧ Asc (stepCalc op old new).minus := by
  fun_induction stepCalc op old new with
  | case1 => exact ⟨Asc.nil, Asc.nil, Asc.nil⟩
  | case2 n ns ih =>
    have h := ih ho hn.tail
    have hm := stepCalc_mem op [] ns ho hn.tail
    have b : ∀ x, x ∈ (stepCalc op [] ns).final ∨ x ∈ (stepCalc op [] ns).plus ∨ x ∈ (stepCalc op [] ns).minus →
        strLt n x = true := by
      intro x hx
      obtain ⟨m1, m2, m3⟩ := hm x
      rw [m1, m2, m3] at hx
      have : x ∈ ns := by
        rcases hx with hx | hx | hx
        · simpa using Result_sub hx
        · simpa using Result_sub hx.1
        · simp at hx
      exact hn.head x this
    cases op <;> simp only [newOnly]
    · exact ⟨h.1.cons fun x hx => b x (Or.inl hx), h.2.1.cons fun x hx => b x (Or.inr (Or.inl hx)), h.2.2⟩
    · exact ⟨h.1.cons fun x hx => b x (Or.inl hx), h.2.1.cons fun x hx => b x (Or.inr (Or.inl hx)), h.2.2⟩
    · exact h
  | case3 o os ih =>
    have h := ih ho.tail hn
    have hm := stepCalc_mem op os [] ho.tail hn
    have b : ∀ x, x ∈ (stepCalc op os []).final ∨ x ∈ (stepCalc op os []).plus ∨ x ∈ (stepCalc op os []).minus →
        strLt o x = true := by
      intro x hx
      obtain ⟨m1, m2, m3⟩ := hm x
      rw [m1, m2, m3] at hx
      have : x ∈ os := by
        rcases hx with hx | hx | hx
        · simpa using Result_sub hx
        · simpa using Result_sub hx.1
        · exact hx.1
      exact ho.head x this
    cases op <;> simp only [oldOnly]
    · exact ⟨h.1, h.2.1, h.2.2.cons fun x hx => b x (Or.inr (Or.inr hx))⟩
    · exact ⟨h.1.cons fun x hx => b x (Or.inl hx), h.2.1, h.2.2⟩
    · exact ⟨h.1.cons fun x hx => b x (Or.inl hx), h.2.1, h.2.2⟩
  | case4 o os n ns hlt ih =>
    have h := ih ho.tail hn
    have hm := stepCalc_mem op os (n :: ns) ho.tail hn
    have b : ∀ x, x ∈ (stepCalc op os (n :: ns)).final ∨ x ∈ (stepCalc op os (n :: ns)).plus ∨
        x ∈ (stepCalc op os (n :: ns)).minus → strLt o x = true := by
      intro x hx
      obtain ⟨m1, m2, m3⟩ := hm x
      rw [m1, m2, m3] at hx
      have : x ∈ os ∨ x ∈ n :: ns := by
        rcases hx with hx | hx | hx
        · exact Result_sub hx
        · exact Result_sub hx.1
        · exact Or.inl hx.1
      rcases this with hx | hx
      · exact ho.head x hx
      · rcases List.mem_cons.mp hx with e | e
        · rw [e]; exact hlt
        · exact strLt_trans hlt (hn.head x e)
    cases op <;> simp only [oldOnly]
    · exact ⟨h.1, h.2.1, h.2.2.cons fun x hx => b x (Or.inr (Or.inr hx))⟩
    · exact ⟨h.1.cons fun x hx => b x (Or.inl hx), h.2.1, h.2.2⟩
    · exact ⟨h.1.cons fun x hx => b x (Or.inl hx), h.2.1, h.2.2⟩
  | case5 o os n ns hlt hlt2 ih =>
    have h := ih ho hn.tail
    have hm := stepCalc_mem op (o :: os) ns ho hn.tail
    have b : ∀ x, x ∈ (stepCalc op (o :: os) ns).final ∨ x ∈ (stepCalc op (o :: os) ns).plus ∨
        x ∈ (stepCalc op (o :: os) ns).minus → strLt n x = true := by
      intro x hx
      obtain ⟨m1, m2, m3⟩ := hm x
      rw [m1, m2, m3] at hx
      have : x ∈ o :: os ∨ x ∈ ns := by
        rcases hx with hx | hx | hx
        · exact Result_sub hx
        · exact Result_sub hx.1
        · exact Or.inl hx.1
      rcases this with hx | hx
      · rcases List.mem_cons.mp hx with e | e
        · rw [e]; exact hlt2
        · exact strLt_trans hlt2 (ho.head x e)
      · exact hn.head x hx
    cases op <;> simp only [newOnly]
    · exact ⟨h.1.cons fun x hx => b x (Or.inl hx), h.2.1.cons fun x hx => b x (Or.inr (Or.inl hx)), h.2.2⟩
    · exact ⟨h.1.cons fun x hx => b x (Or.inl hx), h.2.1.cons fun x hx => b x (Or.inr (Or.inl hx)), h.2.2⟩
    · exact h
  | case6 o os n ns hlt hlt2 ih =>
    have h := ih ho.tail hn.tail
    have hm := stepCalc_mem op os ns ho.tail hn.tail
    have e : o = n := strLt_total (by simpa using hlt) (by simpa using hlt2)
    subst e
    have b : ∀ x, x ∈ (stepCalc op os ns).final ∨ x ∈ (stepCalc op os ns).plus ∨
        x ∈ (stepCalc op os ns).minus → strLt o x = true := by
      intro x hx
      obtain ⟨m1, m2, m3⟩ := hm x
      rw [m1, m2, m3] at hx
      have : x ∈ os ∨ x ∈ ns := by
        rcases hx with hx | hx | hx
        · exact Result_sub hx
        · exact Result_sub hx.1
        · exact Or.inl hx.1
      rcases this with hx | hx
      · exact ho.head x hx
      · exact hn.head x hx
    cases op <;> simp only [inBoth]
    · exact ⟨h.1.cons fun x hx => b x (Or.inl hx), h.2.1, h.2.2⟩
    · exact ⟨h.1.cons fun x hx => b x (Or.inl hx), h.2.1, h.2.2⟩
    · exact ⟨h.1, h.2.1, h.2.2.cons fun x hx => b x (Or.inr (Or.inr hx))⟩

/-! ### accumulated difference -/

theorem crossCalc_mem (old new : List Str) (ho : Asc old) (hn : Asc new) (x : Str) :
    (x ∈ (crossCalc old new).1 ↔ x ∈ old ∧ x ∉ new) ∧ (x ∈ (crossCalc old new).2 ↔ x ∈ new ∧ x ∉ old) := by
  fun_induction crossCalc old new with
  | case1 ns => simp
  | case2 os _ => simp
  | case3 o os n ns h r ih =>
    have := ih ho.tail hn
    have := not_mem_of_lt hn h
    have := ho.not_mem
    grind
  | case4 o os n ns h h2 r ih =>
    have := ih ho hn.tail
    have := not_mem_of_lt ho h2
    have := hn.not_mem
    grind
  | case5 o os n ns h h2 ih =>
    have := ih ho.tail hn.tail
    have e : o = n := strLt_total (by simpa using h) (by simpa using h2)
    have := hn.not_mem
    have := ho.not_mem
    grind

theorem crossCalc_sub (old new : List Str) : (crossCalc old new).1 <+ old ∧ (crossCalc old new).2 <+ new := by
  fun_induction crossCalc old new with
  | case1 ns => simp
  | case2 os _ => simp
  | case3 o os n ns h r ih => exact ⟨ih.1.cons_cons _, ih.2⟩
  | case4 o os n ns h h2 r ih => exact ⟨ih.1, ih.2.cons_cons _⟩
  | case5 o os n ns h h2 ih => exact ⟨ih.1.cons _, ih.2.cons _⟩

theorem insertStr_perm (x : Str) (l : List Str) : insertStr x l ~ x :: l := by
  induction l with
  | nil => exact List.Perm.refl _
  | cons y l ih =>
    simp only [insertStr]
    split
    · exact (ih.cons y).trans (List.Perm.swap x y l)
    · exact List.Perm.refl _

theorem sortStr_perm (l : List Str) : sortStr l ~ l := by
  induction l with
  | nil => exact List.Perm.refl _
  | cons x l ih => exact (insertStr_perm x _).trans (ih.cons x)

theorem insertStr_asc {x : Str} {l : List Str} (h : Asc l) (hx : x ∉ l) : Asc (insertStr x l) := by
  induction l with
  | nil => exact List.pairwise_singleton _ _
  | cons y l ih =>
    simp only [insertStr]
    split
    · rename_i hlt
      refine Asc.cons (ih h.tail (fun e => hx (List.mem_cons_of_mem _ e))) ?_
      intro z hz
      rcases List.mem_cons.mp ((insertStr_perm x l).mem_iff.mp hz) with e | e
      · rw [e]; exact hlt
      · exact h.head z e
    · rename_i hlt
      have hxy : strLt x y = true := by
        cases e : strLt x y with
        | true => rfl
        | false => exact absurd (strLt_total (by simpa using hlt) e) (fun e => hx (by simp [e]))
      refine h.cons ?_
      intro z hz
      rcases List.mem_cons.mp hz with e | e
      · rw [e]; exact hxy
      · exact strLt_trans hxy (h.head z e)

theorem sortStr_asc {l : List Str} (h : l.Nodup) : Asc (sortStr l) := by
  induction l with
  | nil => exact Asc.nil
  | cons x l ih =>
    have := List.nodup_cons.mp h
    exact insertStr_asc (ih this.2) (fun e => this.1 ((sortStr_perm l).mem_iff.mp e))

theorem _root_.Sid.Spec.Delta.Asc.nodup {l : List Str} (h : Asc l) : l.Nodup :=
  List.Pairwise.imp (fun {a b} (hab : strLt a b = true) => strLt_ne hab) h

/-- the accumulated differences of `old` against `base` -/
structure AbsOk (base cur : List Str) (p m : Option (List Str)) : Prop where
  pAsc : Asc (p.getD [])
  mAsc : Asc (m.getD [])
  pMem : ∀ x, x ∈ p.getD [] ↔ x ∈ cur ∧ x ∉ base
  mMem : ∀ x, x ∈ m.getD [] ↔ x ∈ base ∧ x ∉ cur

theorem absCalc_ok {base cur fin plus minus : List Str} {p m : Option (List Str)} (h : AbsOk base cur p m)
    (hp : Asc plus) (hm : Asc minus) (mp : ∀ x, x ∈ plus ↔ x ∈ fin ∧ x ∉ cur) (mm : ∀ x, x ∈ minus ↔ x ∈ cur ∧ x ∉ fin) :
    AbsOk base fin ((absCalc p m plus minus).1.or p) ((absCalc p m plus minus).2.or m) := by
  obtain ⟨pa, ma, pm, mmm⟩ := h
  unfold absCalc
  split
  · rename_i he
    obtain ⟨e1, e2⟩ := he
    subst e1 e2
    have hc : ∀ x, x ∈ fin ↔ x ∈ cur := by
      intro x
      have := mp x
      have := mm x
      grind
    refine ⟨by simpa using pa, by simpa using ma, ?_, ?_⟩
    · intro x; simp only [Option.none_or]; rw [pm, hc]
    · intro x; simp only [Option.none_or]; rw [mmm, hc]
  · have x1 := fun x => crossCalc_mem (p.getD []) minus pa hm x
    have x2 := fun x => crossCalc_mem (m.getD []) plus ma hp x
    have s1 := crossCalc_sub (p.getD []) minus
    have s2 := crossCalc_sub (m.getD []) plus
    have q1 : Asc (sortStr ((crossCalc (p.getD []) minus).1 ++ (crossCalc (m.getD []) plus).2)) := by
      apply sortStr_asc
      rw [List.nodup_append]
      refine ⟨s1.1.nodup pa.nodup, s2.2.nodup hp.nodup, ?_⟩
      intro a ha b hb e
      subst e
      have h1 := (pm a).mp (s1.1.subset ha)
      have h2 := (mp a).mp (s2.2.subset hb)
      exact h2.2 h1.1
    have q2 : Asc (sortStr ((crossCalc (p.getD []) minus).2 ++ (crossCalc (m.getD []) plus).1)) := by
      apply sortStr_asc
      rw [List.nodup_append]
      refine ⟨s1.2.nodup hm.nodup, s2.1.nodup ma.nodup, ?_⟩
      intro a ha b hb e
      subst e
      have h1 := (mm a).mp (s1.2.subset ha)
      have h2 := (mmm a).mp (s2.1.subset hb)
      exact h2.2 h1.1
    have r1 : ∀ x, x ∈ sortStr ((crossCalc (p.getD []) minus).1 ++ (crossCalc (m.getD []) plus).2) ↔ x ∈ fin ∧ x ∉ base := by
      intro x
      rw [(sortStr_perm _).mem_iff, List.mem_append, (x1 x).1, (x2 x).2, pm, mp, mmm, mm]
      grind
    have r2 : ∀ x, x ∈ sortStr ((crossCalc (p.getD []) minus).2 ++ (crossCalc (m.getD []) plus).1) ↔ x ∈ base ∧ x ∉ fin := by
      intro x
      rw [(sortStr_perm _).mem_iff, List.mem_append, (x1 x).2, (x2 x).1, pm, mp, mmm, mm]
      grind
    dsimp only
    refine ⟨?_, ?_, ?_, ?_⟩
    · split
      · exact q1
      · simpa using pa
    · split
      · exact q2
      · simpa using ma
    · intro x
      split
      · exact r1 x
      · rename_i hn
        simp only [not_or, Bool.not_eq_true, Option.isSome_eq_false_iff, Option.isNone_iff_eq_none, ne_eq,
          Decidable.not_not] at hn
        have z : ∀ l : List Str, crossCalc l [] = (l, []) := by
          intro l
          cases l <;> simp [crossCalc]
        have z' : ∀ l : List Str, crossCalc [] l = ([], l) := by
          intro l
          simp [crossCalc]
        rw [← r1 x, hn.1, hn.2]
        simp [z, z', sortStr]
    · intro x
      split
      · exact r2 x
      · rename_i hn
        simp only [not_or, Bool.not_eq_true, Option.isSome_eq_false_iff, Option.isNone_iff_eq_none, ne_eq,
          Decidable.not_not] at hn
        have z : ∀ l : List Str, crossCalc l [] = (l, []) := by
          intro l
          cases l <;> simp [crossCalc]
        have z' : ∀ l : List Str, crossCalc [] l = ([], l) := by
          intro l
          simp [crossCalc]
        rw [← r2 x, hn.1, hn.2]
        simp [z, z', sortStr]

/-! ### keys -/

theorem opKey_plus (s : KeySpec) (hs : s.extraOp = none) : opKey s .plus = 43 :: opKey s .set := by
  unfold opKey
  rw [canon_compose { s with op := .plus } (Or.inl hs), canon_compose { s with op := .set } (Or.inl hs)]
  simp [glue, storedMark, hs, Spec.UbrKey.opLetter]

theorem opKey_minus (s : KeySpec) (hs : s.extraOp = none) : opKey s .minus = 45 :: opKey s .set := by
  unfold opKey
  rw [canon_compose { s with op := .minus } (Or.inl hs), canon_compose { s with op := .set } (Or.inl hs)]
  simp [glue, storedMark, hs, Spec.UbrKey.opLetter]

theorem opKey_head (s : KeySpec) (hs : s.extraOp = none) : (opKey s .set).head? = some 58 := by
  unfold opKey
  rw [canon_compose { s with op := .set } (Or.inl hs)]
  simp [glue, storedMark, hs, Spec.UbrKey.opLetter, join]

/-! ### the store inside a transaction -/

/-- the keys an update of the record `K` writes -/
def keysOf (K : Str) : List Str := [K, 43 :: K, 45 :: K]

def Fresh (t : Tx) (k : Str) : Prop := k ∉ t.unsetRecs ∧ k ∉ t.unsetIdx

theorem Fresh.recs {t : Tx} {k : Str} (h : Fresh t k) : t.done.recs k = t.db.recs k := by
  simp [Tx.done, h.1]

theorem Fresh.idx {t : Tx} {k : Str} (h : Fresh t k) : t.done.idx k = t.db.idx k := by
  simp [Tx.done, h.2]

/-- nothing changes at `k` -/
def SameAt (t t' : Tx) (k : Str) : Prop :=
  t'.done.recs k = t.done.recs k ∧ t'.done.idx k = t.done.idx k ∧ (Fresh t k → Fresh t' k)

theorem SameAt.refl (t : Tx) (k : Str) : SameAt t t k := ⟨rfl, rfl, id⟩

theorem SameAt.trans {t1 t2 t3 : Tx} {k : Str} (h : SameAt t1 t2 k) (h' : SameAt t2 t3 k) : SameAt t1 t3 k :=
  ⟨h'.1.trans h.1, h'.2.1.trans h.2.1, fun f => h'.2.2 (h.2.2 f)⟩

theorem wrAllowed_core (r : Option Rec) : ¬ wrAllowed r core < 0 := by
  cases r with
  | none => simp [wrAllowed]
  | some r =>
    simp only [wrAllowed]
    rw [modMatch_core.mpr rfl]
    exact (by decide : ¬ (1 : Int) < 0)

/-- the record of an accumulated difference afterwards -/
def newAbs (h : Hdr) (old : Option Rec) : Option (List Str) → Option Rec
  | none => old
  | some [] => none
  | some (x :: l) => some (h.sync.vec (x :: l))

def isSync (r : Option Rec) : Bool := r.any fun r => has r.flags flSync

/-- its entry in the index afterwards -/
def newIdx (old : Option Rec) (i : Bool) : Option (List Str) → Bool
  | none => i
  | some [] => if isSync old then false else i
  | some (_ :: _) => if isSync old then i else true

theorem has_sync (f : Flags) : has f flSync = true ↔ f.getLsbD 1 = true := has_bit f 1 (by decide) _ (by decide)

theorem sync_has (h : Hdr) (l : List Str) : isSync (some (h.sync.vec l)) = true := by
  simp only [isSync, Option.any_some, Hdr.sync, Hdr.vec]
  rw [has_sync, BitVec.getLsbD_or]
  have : flSync.getLsbD 1 = true := by decide
  simp [this]

theorem storeAbs_at (t : Tx) (key : Str) (h : Hdr) (ho : h.owner = core) (hf : Fresh t key) (a : Option (List Str)) :
    (storeAbs t key h a).done.recs key = newAbs h (t.done.recs key) a ∧
    (storeAbs t key h a).done.idx key = newIdx (t.done.recs key) (t.done.idx key) a ∧
    ∀ k, k ≠ key → SameAt t (storeAbs t key h a) k := by
  rw [hf.recs, hf.idx]
  cases a with
  | none => exact ⟨hf.recs, hf.idx, fun k _ => SameAt.refl t k⟩
  | some items =>
    have hw : ¬ wrAllowed (t.db.recs key) h.owner < 0 := by rw [ho]; exact wrAllowed_core _
    cases items with
    | nil =>
      simp only [storeAbs, if_neg hw, ne_eq, not_true_eq_false, ↓reduceIte, newAbs, newIdx]
      refine ⟨by simp [Tx.done], ?_, ?_⟩
      · have h2 := hf.2
        cases hi : isSync (t.db.recs key) <;>
          have hi' : (t.db.recs key).any (fun r => has r.flags flSync) = _ := hi
        · simp [Tx.done, hi', h2]
        · simp [Tx.done, hi']
      · intro k hk
        refine ⟨by simp [Tx.done, hk], ?_, ?_⟩
        · simp only [Tx.done]
          split
          · simp [hk]
          · rfl
        · intro hF
          refine ⟨by simp [hk, hF.1], ?_⟩
          dsimp only
          split
          · simp [hk, hF.2]
          · exact hF.2
    | cons x l =>
      have hne : (x :: l) ≠ [] := by simp
      simp only [storeAbs, if_neg hw, if_pos hne, newAbs, newIdx]
      refine ⟨?_, ?_, ?_⟩
      · simp only [Tx.done, manageIndex_recs]
        rw [if_neg hf.1]
        simp [Db.put]
      · simp only [Tx.done]
        rw [if_neg hf.2]
        have hs : (some (h.sync.vec (x :: l))).any (fun r => has r.flags flSync) = true := sync_has h (x :: l)
        simp only [manageIndex, Bool.false_eq_true, ↓reduceIte, hs]
        cases hi : isSync (t.db.recs key) <;>
          have hi' : (t.db.recs key).any (fun r => has r.flags flSync) = _ := hi
        · rw [hi']
          simp [Db.mark]
        · rw [hi']
          simp [Db.put]
      · intro k hk
        refine ⟨?_, ?_, ?_⟩
        · simp only [Tx.done, manageIndex_recs]
          simp [Db.put, hk]
        · simp only [Tx.done]
          have hs : (some (h.sync.vec (x :: l))).any (fun r => has r.flags flSync) = true := sync_has h (x :: l)
          simp only [manageIndex, Bool.false_eq_true, ↓reduceIte, hs]
          cases hi : (t.db.recs key).any fun r => has r.flags flSync
          · simp [Db.mark, hk, Db.put]
          · simp [Db.put]
        · intro hF
          exact hF

/-! ### the records of one set -/

/-- the accumulated difference of one direction as it is stored: a set, there only if it is not empty, and then marked and
    in the index -/
structure HalfOk (db : Db) (key : Str) : Prop where
  set : IsSet (db.recs key)
  nonempty : ∀ r, db.recs key = some r → members (some r) ≠ [] ∧ isSync (some r) = true
  idx : db.idx key = (db.recs key).isSome

/-- a set-valued record and its accumulated differences against the members `base` -/
structure KeyOk (base : List Str) (db : Db) (K : Str) : Prop where
  set : IsSet (db.recs K)
  plus : HalfOk db (43 :: K)
  minus : HalfOk db (45 :: K)
  pMem : ∀ x, x ∈ members (db.recs (43 :: K)) ↔ x ∈ members (db.recs K) ∧ x ∉ base
  mMem : ∀ x, x ∈ members (db.recs (45 :: K)) ↔ x ∈ base ∧ x ∉ members (db.recs K)

theorem vecItems_eq {r : Option Rec} (h : IsSet r) : vecItems r = some (members r) := by
  cases r with
  | none => rfl
  | some r =>
    obtain ⟨l, hl, -⟩ := h r rfl
    obtain ⟨a, b, c, d, v⟩ := r
    dsimp only at hl
    subst hl
    rfl

theorem members_asc {r : Option Rec} (h : IsSet r) : Asc (members r) := by
  cases r with
  | none => exact Asc.nil
  | some r =>
    obtain ⟨l, hl, ha⟩ := h r rfl
    obtain ⟨a, b, c, d, v⟩ := r
    dsimp only at hl
    subst hl
    exact ha

theorem isSet_vec (h : Hdr) {l : List Str} (hl : Asc l) : IsSet (some (h.vec l)) := by
  intro x hx
  cases hx
  exact ⟨l, rfl, hl⟩

theorem storedAbs_eq {t : Tx} {s : KeySpec} (h1 : IsSet (t.db.recs (opKey s .plus))) (h2 : IsSet (t.db.recs (opKey s .minus))) :
    storedAbs t s = some ((t.db.recs (opKey s .plus)).map fun _ => members (t.db.recs (opKey s .plus)),
      (t.db.recs (opKey s .minus)).map fun _ => members (t.db.recs (opKey s .minus))) := by
  simp only [storedAbs, vecItems_eq h1, vecItems_eq h2]

theorem map_getD (r : Option Rec) : (r.map fun _ => members r).getD [] = members r := by
  cases r <;> rfl

/-- half of the state after a step: given by the new accumulated difference -/
theorem half_after {db db' : Db} {key : Str} {h : Hdr} {a : Option (List Str)} (ho : HalfOk db key)
    (h1 : db'.recs key = newAbs h (db.recs key) a) (h2 : db'.idx key = newIdx (db.recs key) (db.idx key) a)
    (hasc : Asc (a.getD [])) : HalfOk db' key ∧ members (db'.recs key) =
      (a.or ((db.recs key).map fun _ => members (db.recs key))).getD [] := by
  cases a with
  | none =>
    simp only [newAbs, newIdx] at h1 h2
    refine ⟨⟨by rw [h1]; exact ho.set, by rw [h1]; exact ho.nonempty, by rw [h1, h2]; exact ho.idx⟩, ?_⟩
    rw [h1]
    simp only [Option.none_or]
    exact (map_getD _).symm
  | some l =>
    cases l with
    | nil =>
      simp only [newAbs, newIdx] at h1 h2
      refine ⟨⟨?_, ?_, ?_⟩, ?_⟩
      · rw [h1]; intro x hx; cases hx
      · rw [h1]; intro x hx; cases hx
      · rw [h1, h2]
        split
        · rfl
        · rename_i hs
          rw [ho.idx]
          cases hr : db.recs key with
          | none => rfl
          | some r =>
            have := (ho.nonempty r hr).2
            rw [hr] at hs
            exact absurd this hs
      · rw [h1]; rfl
    | cons x l =>
      simp only [newAbs, newIdx] at h1 h2
      refine ⟨⟨?_, ?_, ?_⟩, ?_⟩
      · rw [h1]; exact isSet_vec _ hasc
      · rw [h1]
        intro r hr
        cases hr
        exact ⟨by simp [members, Hdr.vec], sync_has h _⟩
      · rw [h1, h2]
        split
        · rename_i hs
          rw [ho.idx]
          cases hr : db.recs key with
          | none => rw [hr] at hs; simp [isSync] at hs
          | some r => rfl
        · rfl
      · rw [h1]; rfl

theorem absCalc_asc {base cur fin plus minus : List Str} {p m : Option (List Str)} (h : AbsOk base cur p m)
    (hp : Asc plus) (hm : Asc minus) (mp : ∀ x, x ∈ plus ↔ x ∈ fin ∧ x ∉ cur) (mm : ∀ x, x ∈ minus ↔ x ∈ cur ∧ x ∉ fin) :
    Asc ((absCalc p m plus minus).1.getD []) ∧ Asc ((absCalc p m plus minus).2.getD []) := by
  have hok := absCalc_ok h hp hm mp mm
  constructor
  · have := hok.pAsc
    cases e : (absCalc p m plus minus).1 with
    | none => exact Asc.nil
    | some l => rw [e] at this; exact this
  · have := hok.mAsc
    cases e : (absCalc p m plus minus).2 with
    | none => exact Asc.nil
    | some l => rw [e] at this; exact this

theorem keyOk_abs {base : List Str} {db : Db} {K : Str} (hk : KeyOk base db K) :
    AbsOk base (members (db.recs K)) ((db.recs (43 :: K)).map fun _ => members (db.recs (43 :: K)))
      ((db.recs (45 :: K)).map fun _ => members (db.recs (45 :: K))) := by
  refine ⟨?_, ?_, ?_, ?_⟩
  · rw [map_getD]; exact members_asc hk.plus.set
  · rw [map_getD]; exact members_asc hk.minus.set
  · rw [map_getD]; exact hk.pMem
  · rw [map_getD]; exact hk.mMem

/-- the accumulated differences that `db` would get by the step -/
def absAfter (db : Db) (K : Str) (st : Step) : Option (List Str) × Option (List Str) :=
  absCalc ((db.recs (43 :: K)).map fun _ => members (db.recs (43 :: K)))
    ((db.recs (45 :: K)).map fun _ => members (db.recs (45 :: K))) st.plus st.minus

theorem stepMem (op : KvOp) {old new : List Str} (ho : Asc old) (hn : Asc new) (x : Str) :
    (x ∈ (stepCalc op old new).plus ↔ x ∈ (stepCalc op old new).final ∧ x ∉ old) ∧
    (x ∈ (stepCalc op old new).minus ↔ x ∈ old ∧ x ∉ (stepCalc op old new).final) := by
  obtain ⟨h1, h2, h3⟩ := stepCalc_mem op old new ho hn x
  rw [h1, h2, h3]
  exact ⟨Iff.rfl, Iff.rfl⟩

theorem keyOk_after {base : List Str} {db db' : Db} {K : Str} {op : KvOp} {h : Hdr} {new : List Str} (hk : KeyOk base db K)
    (hn : Asc new)
    (h0 : db'.recs K = some (h.vec (stepCalc op (members (db.recs K)) new).final))
    (h1 : db'.recs (43 :: K) = newAbs h (db.recs (43 :: K)) (absAfter db K (stepCalc op (members (db.recs K)) new)).1)
    (i1 : db'.idx (43 :: K) = newIdx (db.recs (43 :: K)) (db.idx (43 :: K))
      (absAfter db K (stepCalc op (members (db.recs K)) new)).1)
    (h2 : db'.recs (45 :: K) = newAbs h (db.recs (45 :: K)) (absAfter db K (stepCalc op (members (db.recs K)) new)).2)
    (i2 : db'.idx (45 :: K) = newIdx (db.recs (45 :: K)) (db.idx (45 :: K))
      (absAfter db K (stepCalc op (members (db.recs K)) new)).2) :
    KeyOk base db' K := by
  have ho := members_asc hk.set
  obtain ⟨a1, a2, a3⟩ := stepCalc_asc op _ _ ho hn
  have hm := fun x => stepMem op ho hn x
  have hok := absCalc_ok (keyOk_abs hk) a2 a3 (fun x => (hm x).1) (fun x => (hm x).2)
  have hasc := absCalc_asc (keyOk_abs hk) a2 a3 (fun x => (hm x).1) (fun x => (hm x).2)
  obtain ⟨p1, p2⟩ := half_after hk.plus h1 i1 hasc.1
  obtain ⟨m1, m2⟩ := half_after hk.minus h2 i2 hasc.2
  have hmem : members (db'.recs K) = (stepCalc op (members (db.recs K)) new).final := by rw [h0]; rfl
  refine ⟨by rw [h0]; exact isSet_vec _ a1, p1, m1, ?_, ?_⟩
  · intro x
    rw [p2, hmem]
    exact hok.pMem x
  · intro x
    rw [m2, hmem]
    exact hok.mMem x

/-- the first part of an update -/
theorem deltaStep_core {t : Tx} {sy : Bool} {key : Str} {op : KvOp} {h : Hdr} {new : List Str} (ho : h.owner = core)
    (hs : IsSet (t.db.recs key)) :
    deltaStep t sy key op h new =
      some (0, { t with db := t.db.put key (some (h.vec (stepCalc op (members (t.db.recs key)) new).final)) },
        stepCalc op (members (t.db.recs key)) new) := by
  unfold deltaStep
  rw [vecItems_eq hs]
  simp only [Option.bind_some]
  rw [if_neg (by rw [ho]; exact wrAllowed_core _)]

theorem put_at {t : Tx} {key : Str} {r : Rec} (hf : Fresh t key) :
    ({ t with db := t.db.put key (some r) } : Tx).done.recs key = some r ∧
    (∀ k, Fresh t k → Fresh ({ t with db := t.db.put key (some r) } : Tx) k) ∧
    ∀ k, k ≠ key → SameAt t { t with db := t.db.put key (some r) } k := by
  refine ⟨?_, fun k h => h, ?_⟩
  · simp [Tx.done, hf.1, Db.put]
  · intro k hk
    exact ⟨by simp [Tx.done, Db.put, hk], rfl, fun h => h⟩

theorem ne_keys (K : Str) (hK : K.head? = some 58) : K ≠ 43 :: K ∧ K ≠ 45 :: K ∧ (43 :: K : Str) ≠ 45 :: K := by
  refine ⟨?_, ?_, ?_⟩
  · intro e; rw [e] at hK; simp at hK
  · intro e; rw [e] at hK; simp at hK
  · intro e; simp at e

/-- different records have nothing in common -/
theorem keysOf_disjoint {K K' : Str} (hK : K.head? = some 58) (hK' : K'.head? = some 58) (hne : K ≠ K') :
    ∀ k ∈ keysOf K, k ∉ keysOf K' := by
  intro k hk hk'
  simp only [keysOf, List.mem_cons, List.not_mem_nil, or_false] at hk hk'
  rcases hk with rfl | rfl | rfl <;> rcases hk' with e | e | e
  · exact hne e
  · rw [e] at hK; simp at hK
  · rw [e] at hK; simp at hK
  · rw [← e] at hK'; simp at hK'
  · simp at e; exact hne e
  · simp at e
  · rw [← e] at hK'; simp at hK'
  · simp at e
  · simp at e; exact hne e

/-- an update without relatives, in a worker -/
theorem deltaSet0_ok {t : Tx} {s : KeySpec} {op : KvOp} {h : Hdr} {new base : List Str} (hs : s.extraOp = none)
    (ho : h.owner = core) (hn : Asc new) (hf : ∀ k ∈ keysOf (opKey s .set), Fresh t k)
    (hk : KeyOk base t.done (opKey s .set)) :
    ∃ t', deltaSet0 t false s op h new = some t' ∧
      t'.done.recs (opKey s .set) = some (h.vec (stepCalc op (members (t.done.recs (opKey s .set))) new).final) ∧
      KeyOk base t'.done (opKey s .set) ∧
      ∀ k, k ∉ keysOf (opKey s .set) → SameAt t t' k := by
  have hK := opKey_head s hs
  have eP := opKey_plus s hs
  have eM := opKey_minus s hs
  generalize hKK : opKey s .set = K at *
  have f0 : Fresh t K := hf K (by simp [keysOf])
  have fP : Fresh t (43 :: K) := hf (43 :: K) (by simp [keysOf])
  have fM : Fresh t (45 :: K) := hf (45 :: K) (by simp [keysOf])
  obtain ⟨n1, n2, n3⟩ := ne_keys K hK
  have hstep := deltaStep_core (t := t) (sy := false) (key := K) (op := op) (new := new) ho (by rw [← f0.recs]; exact hk.set)
  rw [← f0.recs] at hstep
  obtain ⟨p1, p2, p3⟩ := put_at (r := h.vec (stepCalc op (members (t.done.recs K)) new).final) f0
  generalize hst : stepCalc op (members (t.done.recs K)) new = st at *
  generalize ht1 : ({ t with db := t.db.put K (some (h.vec st.final)) } : Tx) = t1 at *
  have q1 := storeAbs_at t1 (43 :: K) h ho (p2 _ fP) (absAfter t.done K st).1
  generalize ht2 : storeAbs t1 (43 :: K) h (absAfter t.done K st).1 = t2 at *
  have sM : SameAt t t2 (45 :: K) := (p3 _ n2.symm).trans (q1.2.2 _ n3.symm)
  have q2 := storeAbs_at t2 (45 :: K) h ho (sM.2.2 fM) (absAfter t.done K st).2
  generalize ht3 : storeAbs t2 (45 :: K) h (absAfter t.done K st).2 = t3 at *
  have sP1 := p3 (43 :: K) n1.symm
  have sM1 := p3 (45 :: K) n2.symm
  have hrun : deltaSet0 t false s op h new = some t3 := by
    unfold deltaSet0
    rw [hKK, hstep]
    simp only [Option.bind_some]
    rw [if_neg (by decide), if_neg (by decide)]
    have hp : IsSet (t1.db.recs (opKey s .plus)) := by
      rw [eP, ← (p2 _ fP).recs, sP1.1]; exact hk.plus.set
    have hm : IsSet (t1.db.recs (opKey s .minus)) := by
      rw [eM, ← (p2 _ fM).recs, sM1.1]; exact hk.minus.set
    rw [storedAbs_eq hp hm, eP, eM, ← (p2 _ fP).recs, ← (p2 _ fM).recs, sP1.1, sM1.1]
    simp only [Option.bind_some]
    change some (storeAbs (storeAbs t1 (43 :: K) h (absAfter t.done K st).1) (45 :: K) h (absAfter t.done K st).2) = some t3
    rw [ht2, ht3]
  have r0 : t3.done.recs K = some (h.vec st.final) := by
    rw [(q2.2.2 K n2).1, (q1.2.2 K n1).1, p1]
  refine ⟨t3, hrun, r0, ?_, ?_⟩
  · refine keyOk_after (op := op) (h := h) (new := new) hk hn (by rw [hst]; exact r0) ?_ ?_ ?_ ?_
    · rw [hst, (q2.2.2 _ n3).1, q1.1, sP1.1]
    · rw [hst, (q2.2.2 _ n3).2.1, q1.2.1, sP1.1, sP1.2.1]
    · rw [hst, q2.1, sM.1]
    · rw [hst, q2.2.1, sM.1, sM.2.1]
  · intro k hkk
    simp only [keysOf, List.mem_cons, List.not_mem_nil, or_false, not_or] at hkk
    exact ((p3 k hkk.1).trans (q1.2.2 k hkk.2.1)).trans (q2.2.2 k hkk.2.2)

/-- the loop over the items, in a worker: every item's own record is updated -/
theorem relLoop_ok {s rel : KeySpec} {op : KvOp} {h : Hdr} {B : Str → List Str} (hs : rel.extraOp = none) (ho : h.owner = core)
    (l : List Str) : ∀ (t : Tx) (rs : List KeySpec), l.map (relSpec rel) = rs.map some →
      (rs.map fun r => opKey r .set).Nodup →
      (∀ r ∈ rs, r.extraOp = none ∧ (∀ k ∈ keysOf (opKey r .set), Fresh t k) ∧
        KeyOk (B (opKey r .set)) t.done (opKey r .set)) →
      ∃ t', relLoop false s rel op h t l = some (true, t') ∧
        (∀ r ∈ rs, t'.done.recs (opKey r .set) = some ((relHdr h).vec
          (stepCalc op (members (t.done.recs (opKey r .set))) [composeKeyPrefix s]).final) ∧
          KeyOk (B (opKey r .set)) t'.done (opKey r .set)) ∧
        ∀ k, (∀ r ∈ rs, k ∉ keysOf (opKey r .set)) → SameAt t t' k := by
  induction l with
  | nil =>
    intro t rs hl _ _
    have : rs = [] := by simpa using hl
    subst this
    exact ⟨t, rfl, by simp, fun k _ => SameAt.refl t k⟩
  | cons x l ih =>
    intro t rs hl hnd hr
    cases rs with
    | nil => simp at hl
    | cons r rs =>
      simp only [List.map_cons, List.cons.injEq] at hl
      simp only [List.map_cons, List.nodup_cons] at hnd
      obtain ⟨hx, hf, hk⟩ := hr r (by simp)
      have hasc : Asc [composeKeyPrefix s] := List.pairwise_singleton _ _
      obtain ⟨t1, e1, e2, e3, e4⟩ := deltaSet0_ok (op := op) (h := relHdr h) (new := [composeKeyPrefix s]) hx
        (by exact ho) hasc hf hk
      have hdis : ∀ r' ∈ rs, ∀ k ∈ keysOf (opKey r' .set), k ∉ keysOf (opKey r .set) := by
        intro r' hr' 
        refine keysOf_disjoint (opKey_head r' (hr r' (by simp [hr'])).1) (opKey_head r hx) ?_
        intro e
        exact hnd.1 (by rw [← e]; exact List.mem_map.mpr ⟨r', hr', rfl⟩)
      have hself : ∀ r' : KeySpec, opKey r' .set ∈ keysOf (opKey r' .set) := by
        intro r'; simp [keysOf]
      have hkeep : ∀ r' ∈ rs, KeyOk (B (opKey r' .set)) t1.done (opKey r' .set) := by
        intro r' hr'
        obtain ⟨-, -, hk'⟩ := hr r' (by simp [hr'])
        have s0 := e4 _ (hdis r' hr' (opKey r' .set) (by simp [keysOf]))
        have s1 := e4 _ (hdis r' hr' (43 :: opKey r' .set) (by simp [keysOf]))
        have s2 := e4 _ (hdis r' hr' (45 :: opKey r' .set) (by simp [keysOf]))
        refine ⟨by rw [s0.1]; exact hk'.set, ⟨by rw [s1.1]; exact hk'.plus.set, by rw [s1.1]; exact hk'.plus.nonempty,
          by rw [s1.1, s1.2.1]; exact hk'.plus.idx⟩, ⟨by rw [s2.1]; exact hk'.minus.set,
          by rw [s2.1]; exact hk'.minus.nonempty, by rw [s2.1, s2.2.1]; exact hk'.minus.idx⟩, ?_, ?_⟩
        · rw [s0.1, s1.1]; exact hk'.pMem
        · rw [s0.1, s2.1]; exact hk'.mMem
      obtain ⟨t2, g1, g2, g3⟩ := ih t1 rs hl.2 hnd.2 (by
        intro r' hr'
        obtain ⟨a1, a2, -⟩ := hr r' (by simp [hr'])
        exact ⟨a1, fun k hk => (e4 k (hdis r' hr' k hk)).2.2 (a2 k hk), hkeep r' hr'⟩)
      refine ⟨t2, ?_, ?_, ?_⟩
      · simp only [relLoop, hl.1, e1, Option.bind_some, g1]
      · intro r' hr'
        rcases List.mem_cons.mp hr' with rfl | hr'
        · have hk2 : ∀ k ∈ keysOf (opKey r' .set), SameAt t1 t2 k := by
            intro k hk
            exact g3 k (fun r'' hr'' hk' => hdis r'' hr'' k hk' hk)
          have s0 := hk2 (opKey r' .set) (by simp [keysOf])
          have s1 := hk2 (43 :: opKey r' .set) (by simp [keysOf])
          have s2 := hk2 (45 :: opKey r' .set) (by simp [keysOf])
          refine ⟨by rw [s0.1, e2], ⟨by rw [s0.1]; exact e3.set, ⟨by rw [s1.1]; exact e3.plus.set,
            by rw [s1.1]; exact e3.plus.nonempty, by rw [s1.1, s1.2.1]; exact e3.plus.idx⟩,
            ⟨by rw [s2.1]; exact e3.minus.set, by rw [s2.1]; exact e3.minus.nonempty,
            by rw [s2.1, s2.2.1]; exact e3.minus.idx⟩, ?_, ?_⟩⟩
          · rw [s0.1, s1.1]; exact e3.pMem
          · rw [s0.1, s2.1]; exact e3.mMem
        · obtain ⟨b1, b2⟩ := g2 r' hr'
          refine ⟨?_, b2⟩
          rw [b1, (e4 _ (hdis r' hr' _ (hself r'))).1]
      · intro k hk
        exact (e4 k (hk r (by simp))).trans (g3 k (fun r' hr' => hk r' (by simp [hr'])))

theorem KeyOk.congr {base : List Str} {t t' : Tx} {K : Str} (hk : KeyOk base t.done K)
    (hs : ∀ k ∈ keysOf K, SameAt t t' k) : KeyOk base t'.done K := by
  have s0 := hs K (by simp [keysOf])
  have s1 := hs (43 :: K) (by simp [keysOf])
  have s2 := hs (45 :: K) (by simp [keysOf])
  refine ⟨by rw [s0.1]; exact hk.set, ⟨by rw [s1.1]; exact hk.plus.set,
    by rw [s1.1]; exact hk.plus.nonempty, by rw [s1.1, s1.2.1]; exact hk.plus.idx⟩,
    ⟨by rw [s2.1]; exact hk.minus.set, by rw [s2.1]; exact hk.minus.nonempty,
    by rw [s2.1, s2.2.1]; exact hk.minus.idx⟩, ?_, ?_⟩
  · rw [s0.1, s1.1]; exact hk.pMem
  · rw [s0.1, s2.1]; exact hk.mMem

theorem not_keysOf {K : Str} {rs : List KeySpec} (hK : K.head? = some 58) (hx : ∀ r ∈ rs, r.extraOp = none)
    (hn : K ∉ rs.map fun r => opKey r .set) : ∀ k ∈ keysOf K, ∀ r ∈ rs, k ∉ keysOf (opKey r .set) := by
  intro k hk r hr
  refine keysOf_disjoint hK (opKey_head r (hx r hr)) ?_ k hk
  intro e
  exact hn (List.mem_map.mpr ⟨r, hr, e.symm⟩)

/-- an update with relatives, in a worker -/
theorem deltaSet_ok {t : Tx} {s rel : KeySpec} {op : KvOp} {h : Hdr} {new : List Str} {B : Str → List Str} {rsP rsM : List KeySpec}
    (hs : s.extraOp = none) (hrel : rel.extraOp = none) (ho : h.owner = core) (hn : Asc new)
    (hP : (stepCalc op (members (t.done.recs (opKey s .set))) new).plus.map (relSpec rel) = rsP.map some)
    (hM : (stepCalc op (members (t.done.recs (opKey s .set))) new).minus.map (relSpec rel) = rsM.map some)
    (hnd : (opKey s .set :: (rsP ++ rsM).map fun r => opKey r .set).Nodup)
    (hok : ∀ r ∈ s :: (rsP ++ rsM), r.extraOp = none ∧ (∀ k ∈ keysOf (opKey r .set), Fresh t k) ∧
      KeyOk (B (opKey r .set)) t.done (opKey r .set)) :
    ∃ t', deltaSet t false s rel op h new = some (true, t') ∧
      t'.done.recs (opKey s .set) = some (h.vec (stepCalc op (members (t.done.recs (opKey s .set))) new).final) ∧
      (∀ r ∈ rsP, t'.done.recs (opKey r .set) = some ((relHdr h).vec
          (stepCalc .plus (members (t.done.recs (opKey r .set))) [composeKeyPrefix s]).final)) ∧
      (∀ r ∈ rsM, t'.done.recs (opKey r .set) = some ((relHdr h).vec
          (stepCalc .minus (members (t.done.recs (opKey r .set))) [composeKeyPrefix s]).final)) ∧
      (∀ r ∈ s :: (rsP ++ rsM), KeyOk (B (opKey r .set)) t'.done (opKey r .set)) ∧
      ∀ k, (∀ r ∈ s :: (rsP ++ rsM), k ∉ keysOf (opKey r .set)) → SameAt t t' k := by
  have hK := opKey_head s hs
  have eP := opKey_plus s hs
  have eM := opKey_minus s hs
  obtain ⟨-, hf, hk⟩ := hok s (by simp)
  generalize hKK : opKey s .set = K at *
  have f0 : Fresh t K := hf K (by simp [keysOf])
  have fP : Fresh t (43 :: K) := hf (43 :: K) (by simp [keysOf])
  have fM : Fresh t (45 :: K) := hf (45 :: K) (by simp [keysOf])
  obtain ⟨n1, n2, n3⟩ := ne_keys K hK
  have hstep := deltaStep_core (t := t) (sy := false) (key := K) (op := op) (new := new) ho (by rw [← f0.recs]; exact hk.set)
  rw [← f0.recs] at hstep
  obtain ⟨p1, p2, p3⟩ := put_at (r := h.vec (stepCalc op (members (t.done.recs K)) new).final) f0
  generalize hst : stepCalc op (members (t.done.recs K)) new = st at *
  generalize ht1 : ({ t with db := t.db.put K (some (h.vec st.final)) } : Tx) = t1 at *
  have q1 := storeAbs_at t1 (43 :: K) h ho (p2 _ fP) (absAfter t.done K st).1
  generalize ht2 : storeAbs t1 (43 :: K) h (absAfter t.done K st).1 = t2 at *
  simp only [List.map_append, List.nodup_cons, List.mem_append, not_or, List.nodup_append] at hnd
  obtain ⟨⟨hKP, hKM⟩, ndP, ndM, hPM⟩ := hnd
  have hxP : ∀ r ∈ rsP, r.extraOp = none := fun r hr => (hok r (by simp [hr])).1
  have hxM : ∀ r ∈ rsM, r.extraOp = none := fun r hr => (hok r (by simp [hr])).1
  have dKP := not_keysOf hK hxP hKP
  have dKM := not_keysOf hK hxM hKM
  have dPM : ∀ r ∈ rsP, ∀ k ∈ keysOf (opKey r .set), ∀ r' ∈ rsM, k ∉ keysOf (opKey r' .set) := by
    intro r hr
    refine not_keysOf (opKey_head r (hxP r hr)) hxM ?_
    intro hm
    exact hPM _ (List.mem_map.mpr ⟨r, hr, rfl⟩) _ hm rfl
  -- the keys of the relatives are not written before the first loop
  have s12 : ∀ k, k ∉ keysOf K → SameAt t t2 k := by
    intro k hkk
    simp only [keysOf, List.mem_cons, List.not_mem_nil, or_false, not_or] at hkk
    exact (p3 k hkk.1).trans (q1.2.2 k hkk.2.1)
  obtain ⟨t3, l1, l2, l3⟩ := relLoop_ok (s := s) (op := .plus) (h := h) (B := B) hrel ho st.plus t2 rsP hP ndP (by
    intro r hr
    obtain ⟨a1, a2, a3⟩ := hok r (by simp [hr])
    have hsm : ∀ k ∈ keysOf (opKey r .set), SameAt t t2 k := fun k hk' => s12 k fun hk'' => dKP k hk'' r hr hk'
    exact ⟨a1, fun k hk' => (hsm k hk').2.2 (a2 k hk'), a3.congr hsm⟩)
  have s3K : ∀ k ∈ keysOf K, SameAt t2 t3 k := fun k hk' => l3 k (dKP k hk')
  have sM : SameAt t t3 (45 :: K) :=
    ((p3 _ n2.symm).trans (q1.2.2 _ n3.symm)).trans (s3K _ (by simp [keysOf]))
  have q2 := storeAbs_at t3 (45 :: K) h ho (sM.2.2 fM) (absAfter t.done K st).2
  generalize ht4 : storeAbs t3 (45 :: K) h (absAfter t.done K st).2 = t4 at *
  have s4 : ∀ k, k ∉ keysOf K → SameAt t3 t4 k := by
    intro k hkk
    simp only [keysOf, List.mem_cons, List.not_mem_nil, or_false, not_or] at hkk
    exact q2.2.2 k hkk.2.2
  have s14 : ∀ r ∈ rsM, ∀ k ∈ keysOf (opKey r .set), SameAt t t4 k := by
    intro r hr k hk'
    have h1 : k ∉ keysOf K := fun hk'' => dKM k hk'' r hr hk'
    exact ((s12 k h1).trans (l3 k fun r' hr' hk'' => dPM r' hr' k hk'' r hr hk')).trans (s4 k h1)
  obtain ⟨t5, m1, m2, m3⟩ := relLoop_ok (s := s) (op := .minus) (h := h) (B := B) hrel ho st.minus t4 rsM hM ndM (by
    intro r hr
    obtain ⟨a1, a2, a3⟩ := hok r (by simp [hr])
    exact ⟨a1, fun k hk' => (s14 r hr k hk').2.2 (a2 k hk'), a3.congr (s14 r hr)⟩)
  have s5K : ∀ k ∈ keysOf K, SameAt t4 t5 k := fun k hk' => m3 k (dKM k hk')
  have s5P : ∀ r ∈ rsP, ∀ k ∈ keysOf (opKey r .set), SameAt t3 t5 k := by
    intro r hr k hk'
    have h1 : k ∉ keysOf K := fun hk'' => dKP k hk'' r hr hk'
    exact (s4 k h1).trans (m3 k (dPM r hr k hk'))
  have sP1 := p3 (43 :: K) n1.symm
  have sM1 := p3 (45 :: K) n2.symm
  have hrun : deltaSet t false s rel op h new = some (true, t5) := by
    unfold deltaSet
    rw [hKK, hstep]
    simp only [Option.bind_some]
    rw [if_neg (by decide), if_neg (by decide)]
    have hp : IsSet (t1.db.recs (opKey s .plus)) := by
      rw [eP, ← (p2 _ fP).recs, sP1.1]; exact hk.plus.set
    have hm : IsSet (t1.db.recs (opKey s .minus)) := by
      rw [eM, ← (p2 _ fM).recs, sM1.1]; exact hk.minus.set
    rw [storedAbs_eq hp hm, eP, eM, ← (p2 _ fP).recs, ← (p2 _ fM).recs, sP1.1, sM1.1]
    simp only [Option.bind_some, Option.map_some]
    change ((relLoop false s rel .plus h (storeAbs t1 (43 :: K) h (absAfter t.done K st).1) st.plus).bind fun a =>
      if a.1 = true then relLoop false s rel .minus h (storeAbs a.2 (45 :: K) h (absAfter t.done K st).2) st.minus
      else some a) = some (true, t5)
    rw [ht2, l1]
    simp only [Option.bind_some, if_true]
    rw [ht4, m1]
  have c0 : t5.done.recs K = some (h.vec st.final) := by
    rw [(s5K K (by simp [keysOf])).1, (q2.2.2 K n2).1, (s3K K (by simp [keysOf])).1, (q1.2.2 K n1).1, p1]
  have sPf : SameAt t2 t5 (43 :: K) :=
    ((s3K _ (by simp [keysOf])).trans (q2.2.2 _ n3)).trans (s5K _ (by simp [keysOf]))
  have sMf : SameAt t4 t5 (45 :: K) := s5K _ (by simp [keysOf])
  refine ⟨t5, hrun, c0, ?_, ?_, ?_, ?_⟩
  · intro r hr
    have hmem : opKey r .set ∈ keysOf (opKey r .set) := by simp [keysOf]
    have h1 : opKey r .set ∉ keysOf K := fun hk'' => dKP _ hk'' r hr hmem
    rw [(s5P r hr _ hmem).1, (l2 r hr).1, (s12 _ h1).1]
  · intro r hr
    have hmem : opKey r .set ∈ keysOf (opKey r .set) := by simp [keysOf]
    rw [(m2 r hr).1, (s14 r hr _ hmem).1]
  · intro r hr
    simp only [List.mem_cons, List.mem_append] at hr
    rcases hr with rfl | hr | hr
    · rw [hKK]
      refine keyOk_after (op := op) (h := h) (new := new) hk hn (by rw [hst]; exact c0) ?_ ?_ ?_ ?_
      · rw [hst, sPf.1, q1.1, sP1.1]
      · rw [hst, sPf.2.1, q1.2.1, sP1.1, sP1.2.1]
      · rw [hst, sMf.1, q2.1, sM.1]
      · rw [hst, sMf.2.1, q2.2.1, sM.1, sM.2.1]
    · exact (l2 r hr).2.congr (s5P r hr)
    · exact (m2 r hr).2
  · intro k hkk
    have h1 : k ∉ keysOf K := by
      have := hkk s (by simp)
      rwa [hKK] at this
    exact (((s12 k h1).trans (l3 k fun r hr => hkk r (by simp [hr]))).trans (s4 k h1)).trans
      (m3 k fun r hr => hkk r (by simp [hr]))

theorem map_filterMap {f : Str → Option KeySpec} : ∀ {l : List Str}, (∀ x ∈ l, ∃ r, f x = some r) →
    l.map f = (l.filterMap f).map some
  | [], _ => rfl
  | x :: l, h => by
    obtain ⟨r, hr⟩ := h x (by simp)
    rw [List.filterMap_cons_some hr, List.map_cons, List.map_cons, hr,
      map_filterMap (fun y hy => h y (by simp [hy]))]

theorem filterMap_keys_nodup {f : Str → Option KeySpec} : ∀ {l : List Str}, l.Nodup →
    (∀ x ∈ l, ∀ y ∈ l, ∀ r r', f x = some r → f y = some r' → opKey r .set = opKey r' .set → x = y) →
    ((l.filterMap f).map fun r => opKey r .set).Nodup
  | [], _, _ => by simp
  | x :: l, hnd, h => by
    rw [List.nodup_cons] at hnd
    have ih := filterMap_keys_nodup hnd.2 (fun y hy z hz => h y (by simp [hy]) z (by simp [hz]))
    cases e : f x with
    | none => rwa [List.filterMap_cons_none e]
    | some r =>
      rw [List.filterMap_cons_some e, List.map_cons, List.nodup_cons]
      refine ⟨?_, ih⟩
      intro hm
      obtain ⟨r', hr', e'⟩ := List.mem_map.mp hm
      obtain ⟨y, hy, ey⟩ := List.mem_filterMap.mp hr'
      have := h x (by simp) y (by simp [hy]) r r' e ey e'.symm
      exact hnd.1 (this ▸ hy)

/-- all set-valued records and their accumulated differences are as they should be -/
def AllOk (S : KeySpec → Prop) (db0 db : Db) : Prop :=
  ∀ s, S s → KeyOk (members (db0.recs (opKey s .set))) db (opKey s .set)

theorem synced_allOk {S : KeySpec → Prop} {db0 : Db} (h : Synced S db0) : AllOk S db0 db0 := by
  intro s hs
  have hx := h.unmarked s hs
  obtain ⟨p1, p2⟩ := h.none s hs .plus (Or.inl rfl)
  obtain ⟨m1, m2⟩ := h.none s hs .minus (Or.inr rfl)
  rw [opKey_plus s hx] at p1 p2
  rw [opKey_minus s hx] at m1 m2
  refine ⟨h.set s hs, ⟨?_, ?_, ?_⟩, ⟨?_, ?_, ?_⟩, ?_, ?_⟩
  · rw [p1]; intro x hx; cases hx
  · rw [p1]; intro x hx; cases hx
  · rw [p1, p2]; rfl
  · rw [m1]; intro x hx; cases hx
  · rw [m1]; intro x hx; cases hx
  · rw [m1, m2]; rfl
  · rw [p1]; simp [members]
  · rw [m1]; simp [members]

/-- One update, when everything was as it should be. -/
theorem update_ok {S : KeySpec → Prop} {db0 db : Db} {u : Update} (hx : ∀ s, S s → s.extraOp = none) (hf : Fits S db u)
    (hok : AllOk S db0 db) :
    ∃ db', kvDeltaSet db false u.spec u.rel u.op u.hdr u.new = some (0, db') ∧ AllOk S db0 db' ∧
      db'.recs (opKey u.spec .set) = some (u.hdr.vec (stepCalc u.op (mem db u.spec) u.new).final) ∧
      (∀ x ∈ (stepCalc u.op (mem db u.spec) u.new).plus, ∀ r, relSpec u.rel x = some r →
        db'.recs (opKey r .set) = some ((relHdr u.hdr).vec (stepCalc .plus (mem db r) [composeKeyPrefix u.spec]).final)) ∧
      (∀ x ∈ (stepCalc u.op (mem db u.spec) u.new).minus, ∀ r, relSpec u.rel x = some r →
        db'.recs (opKey r .set) = some ((relHdr u.hdr).vec (stepCalc .minus (mem db r) [composeKeyPrefix u.spec]).final)) ∧
      (∀ k, k ∉ keysOf (opKey u.spec .set) →
        (∀ x ∈ (stepCalc u.op (mem db u.spec) u.new).plus ++ (stepCalc u.op (mem db u.spec) u.new).minus, ∀ r,
          relSpec u.rel x = some r → k ∉ keysOf (opKey r .set)) → db'.recs k = db.recs k ∧ db'.idx k = db.idx k) := by
  have ho := members_asc (hok u.spec hf.own).set
  change Asc (mem db u.spec) at ho
  have hmem := fun x => stepCalc_mem u.op (mem db u.spec) u.new ho hf.sorted x
  obtain ⟨-, a2, a3⟩ := stepCalc_asc u.op (mem db u.spec) u.new ho hf.sorted
  have hdone : (⟨db, [], []⟩ : Tx).done = db := by simp [Tx.done]
  -- where the items of the difference come from
  have hsub : ∀ x ∈ (stepCalc u.op (mem db u.spec) u.new).plus ++ (stepCalc u.op (mem db u.spec) u.new).minus,
      x ∈ mem db u.spec ++ u.new := by
    intro x hxx
    obtain ⟨-, h2, h3⟩ := hmem x
    rw [List.mem_append, h2, h3] at hxx
    rw [List.mem_append]
    revert hxx
    cases u.op <;> simp only [Result] <;> grind
  generalize hst : stepCalc u.op (mem db u.spec) u.new = st at *
  have hnd : (st.plus ++ st.minus).Nodup := by
    rw [List.nodup_append]
    refine ⟨a2.nodup, a3.nodup, ?_⟩
    intro a ha b hb e
    subst e
    obtain ⟨-, h2, h3⟩ := hmem a
    exact (h2.mp ha).2 (h3.mp hb).1
  have hP := map_filterMap (f := relSpec u.rel) (l := st.plus) (by
    intro x hx'
    obtain ⟨r, hr, -⟩ := hf.named x (hsub x (by simp [hx']))
    exact ⟨r, hr⟩)
  have hM := map_filterMap (f := relSpec u.rel) (l := st.minus) (by
    intro x hx'
    obtain ⟨r, hr, -⟩ := hf.named x (hsub x (by simp [hx']))
    exact ⟨r, hr⟩)
  have hin : ∀ r ∈ st.plus.filterMap (relSpec u.rel) ++ st.minus.filterMap (relSpec u.rel),
      S r ∧ opKey r .set ≠ opKey u.spec .set := by
    intro r hr
    rw [← List.filterMap_append] at hr
    obtain ⟨x, hx', e⟩ := List.mem_filterMap.mp hr
    obtain ⟨r', hr', h1, h2⟩ := hf.named x (hsub x hx')
    rw [e] at hr'
    cases hr'
    exact ⟨h1, h2⟩
  have hkeys : (opKey u.spec .set :: (st.plus.filterMap (relSpec u.rel) ++ st.minus.filterMap (relSpec u.rel)).map
      fun r => opKey r .set).Nodup := by
    rw [List.nodup_cons]
    constructor
    · intro hm
      obtain ⟨r, hr, e⟩ := List.mem_map.mp hm
      exact (hin r hr).2 e
    · rw [← List.filterMap_append]
      exact filterMap_keys_nodup hnd (fun x hx' y hy => hf.distinct x (hsub x hx') y (hsub y hy))
  have hfr : ∀ k, Fresh ⟨db, [], []⟩ k := fun k => ⟨by simp, by simp⟩
  have hst' : stepCalc u.op (members ((⟨db, [], []⟩ : Tx).done.recs (opKey u.spec .set))) u.new = st := by
    rw [hdone]; exact hst
  obtain ⟨t', e1, e2, e3, e4, e5, e6⟩ := deltaSet_ok (t := ⟨db, [], []⟩) (s := u.spec) (rel := u.rel) (op := u.op) (h := u.hdr)
    (new := u.new) (B := fun k => members (db0.recs k)) (hx _ hf.own) hf.rel hf.owner hf.sorted
    (by rw [hst']; exact hP) (by rw [hst']; exact hM) hkeys (by
      intro r hr
      rw [hdone]
      rcases List.mem_cons.mp hr with rfl | hr
      · exact ⟨hx _ hf.own, fun k _ => hfr k, hok _ hf.own⟩
      · exact ⟨hx _ (hin r hr).1, fun k _ => hfr k, hok _ (hin r hr).1⟩)
  rw [hst'] at e2
  rw [hdone] at e3 e4
  refine ⟨t'.done, by simp [kvDeltaSet, e1], ?_, e2, ?_, ?_, ?_⟩
  · intro s hs
    by_cases hmm : opKey s .set ∈ opKey u.spec .set :: (st.plus.filterMap (relSpec u.rel) ++
      st.minus.filterMap (relSpec u.rel)).map fun r => opKey r .set
    · rw [← List.map_cons (f := fun r => opKey r .set)] at hmm
      obtain ⟨r, hr, e⟩ := List.mem_map.mp hmm
      have := e5 r hr
      rw [← e]
      exact this
    · have hc := (hok s hs)
      rw [← hdone] at hc
      refine hc.congr (fun k hk => e6 k ?_)
      refine not_keysOf (opKey_head s (hx s hs)) ?_ (by rw [List.map_cons]; exact hmm) k hk
      intro r hr
      rcases List.mem_cons.mp hr with rfl | hr
      · exact hx _ hf.own
      · exact hx _ (hin r hr).1
  · intro x hx' r hr
    exact e3 r (List.mem_filterMap.mpr ⟨x, hx', hr⟩)
  · intro x hx' r hr
    exact e4 r (List.mem_filterMap.mpr ⟨x, hx', hr⟩)
  · intro k h1 h2
    have := e6 k (by
      intro r hr
      rcases List.mem_cons.mp hr with rfl | hr
      · exact h1
      · rw [← List.filterMap_append] at hr
        obtain ⟨x, hx', e⟩ := List.mem_filterMap.mp hr
        exact h2 x hx' r e)
    obtain ⟨c1, c2, -⟩ := this
    rw [hdone] at c1 c2
    exact ⟨c1, c2⟩

theorem hist_ok {S : KeySpec → Prop} {db0 db : Db} (hb : Synced S db0) (h : Hist S db0 db) : AllOk S db0 db := by
  induction h with
  | start => exact synced_allOk hb
  | step _ hf e ih =>
    obtain ⟨db', e', ok', -⟩ := update_ok hb.unmarked hf ih
    rw [e] at e'
    cases e'
    exact ok'

/-- what an update leaves in its record, in the records of its items and in others -/
theorem update_mem {S : KeySpec → Prop} {db0 db : Db} {u : Update} (hxx : ∀ s, S s → s.extraOp = none) (hf : Fits S db u)
    (hall : AllOk S db0 db) :
    ∃ db', kvDeltaSet db false u.spec u.rel u.op u.hdr u.new = some (0, db') ∧
      Asc (mem db' u.spec) ∧ (∀ x, x ∈ mem db' u.spec ↔ Result u.op (mem db u.spec) u.new x) ∧
      (∀ x r, x ∈ mem db u.spec ++ u.new → relSpec u.rel x = some r →
        Asc (mem db' r) ∧ ∀ y, y ∈ mem db' r ↔
          (if x ∈ mem db' u.spec ∧ x ∉ mem db u.spec then y ∈ mem db r ∨ y = composeKeyPrefix u.spec
           else if x ∈ mem db u.spec ∧ x ∉ mem db' u.spec then y ∈ mem db r ∧ y ≠ composeKeyPrefix u.spec
           else y ∈ mem db r)) ∧
      ∀ s, S s → opKey s .set ≠ opKey u.spec .set →
        (∀ x r, x ∈ mem db u.spec ++ u.new → relSpec u.rel x = some r → opKey s .set ≠ opKey r .set) →
        mem db' s = mem db s := by
  have ho : Asc (mem db u.spec) := members_asc (hall _ hf.own).set
  have hone : Asc [composeKeyPrefix u.spec] := List.pairwise_singleton _ _
  obtain ⟨db', e, -, r0, rP, rM, rO⟩ := update_ok hxx hf hall
  obtain ⟨a1, a2, a3⟩ := stepCalc_asc u.op _ _ ho hf.sorted
  have hm := fun x => stepMem u.op ho hf.sorted x
  have hc := fun x => stepCalc_mem u.op _ _ ho hf.sorted x
  have hsub : ∀ x ∈ (stepCalc u.op (mem db u.spec) u.new).plus ++ (stepCalc u.op (mem db u.spec) u.new).minus,
      x ∈ mem db u.spec ++ u.new := by
    intro x hxq
    obtain ⟨-, h2, h3⟩ := hc x
    rw [List.mem_append, h2, h3] at hxq
    rw [List.mem_append]
    revert hxq
    cases u.op <;> simp only [Result] <;> grind
  have m0 : mem db' u.spec = (stepCalc u.op (mem db u.spec) u.new).final := by rw [mem, r0]; rfl
  have hself : ∀ k : Str, k ∈ keysOf k := fun k => by simp [keysOf]
  refine ⟨db', e, by rw [m0]; exact a1, fun x => by rw [m0]; exact (hc x).1, ?_, ?_⟩
  · intro x r hx hr
    obtain ⟨r', hr', hS, hne⟩ := hf.named x hx
    rw [hr] at hr'
    cases hr'
    have hro : Asc (mem db r) := members_asc (hall _ hS).set
    simp only [m0, ← (hm x).1, ← (hm x).2]
    by_cases h1 : x ∈ (stepCalc u.op (mem db u.spec) u.new).plus
    · have : mem db' r = (stepCalc .plus (mem db r) [composeKeyPrefix u.spec]).final := by rw [mem, rP x h1 r hr]; rfl
      refine ⟨by rw [this]; exact (stepCalc_asc .plus _ _ hro hone).1, fun y => ?_⟩
      rw [if_pos h1, this, (stepCalc_mem .plus _ _ hro hone y).1]
      simp [Result]
    · by_cases h2 : x ∈ (stepCalc u.op (mem db u.spec) u.new).minus
      · have : mem db' r = (stepCalc .minus (mem db r) [composeKeyPrefix u.spec]).final := by rw [mem, rM x h2 r hr]; rfl
        refine ⟨by rw [this]; exact (stepCalc_asc .minus _ _ hro hone).1, fun y => ?_⟩
        rw [if_neg h1, if_pos h2, this, (stepCalc_mem .minus _ _ hro hone y).1]
        simp [Result]
      · have hkeep := (rO (opKey r .set)
          (keysOf_disjoint (opKey_head r (hxx r hS)) (opKey_head _ (hxx _ hf.own)) hne _ (hself _)) (by
            intro z hz rz hrz
            obtain ⟨rz', hrz', hSz, -⟩ := hf.named z (hsub z hz)
            rw [hrz] at hrz'
            cases hrz'
            refine keysOf_disjoint (opKey_head r (hxx r hS)) (opKey_head rz (hxx rz hSz)) ?_ _ (hself _)
            intro ek
            have := hf.distinct x hx z (hsub z hz) r rz hr hrz ek
            subst this
            rcases List.mem_append.mp hz with h | h
            · exact h1 h
            · exact h2 h)).1
        have : mem db' r = mem db r := by rw [mem, hkeep]; rfl
        rw [this]
        exact ⟨hro, fun y => by rw [if_neg h1, if_neg h2]⟩
  · intro s hs hne hoth
    have hkeep := (rO (opKey s .set)
      (keysOf_disjoint (opKey_head s (hxx s hs)) (opKey_head _ (hxx _ hf.own)) hne _ (hself _)) (by
        intro z hz rz hrz
        obtain ⟨rz', hrz', hSz, -⟩ := hf.named z (hsub z hz)
        rw [hrz] at hrz'
        cases hrz'
        exact keysOf_disjoint (opKey_head s (hxx s hs)) (opKey_head rz (hxx rz hSz))
          (hoth z rz (hsub z hz) hrz) _ (hself _))).1
    rw [mem, hkeep]
    rfl

end Sid.Ubr
