import Verif.Spec.UbrPerm
import Verif.Proof.UbrKey
namespace Sid.Ubr
open Sid.Spec.Perm

theorem core_eq : core = [47] := by decide

/-- the longest common prefix -/
theorem matchFrom_split (o w : Str) : ∀ i, ∃ p r1 r2, o = p ++ r1 ∧ w = p ++ r2 ∧
    (∀ a b x y, r1 = a :: x → r2 = b :: y → a ≠ b) ∧ matchFrom i o w = matchRest (i + p.length) r1 r2 := by
  induction o generalizing w with
  | nil =>
    intro i
    refine ⟨[], [], w, rfl, rfl, ?_, ?_⟩
    · intro a b x y h; cases h
    · cases w <;> simp [matchFrom]
  | cons a o ih =>
    intro i
    cases w with
    | nil =>
      refine ⟨[], a :: o, [], rfl, rfl, ?_, ?_⟩
      · intro a b x y _ h; cases h
      · simp [matchFrom]
    | cons b w =>
      by_cases hab : a = b
      · subst hab
        obtain ⟨p, r1, r2, h1, h2, h3, h4⟩ := ih w (i + 1)
        refine ⟨a :: p, r1, r2, by simp [h1], by simp [h2], h3, ?_⟩
        simp only [matchFrom, ↓reduceIte, List.length_cons]
        rw [h4]
        congr 1
        omega
      · refine ⟨[], a :: o, b :: w, rfl, rfl, ?_, ?_⟩
        · intro a' b' x y h h'
          cases h; cases h'
          exact hab
        · simp [matchFrom, hab]

theorem matchRest_same {i : Nat} {r1 r2 : Str} : matchRest i r1 r2 = .same ↔ r1 = [] ∧ r2 = [] := by
  unfold matchRest
  constructor
  · intro h
    split at h
    · assumption
    · split at h
      · split at h <;> cases h
      · split at h
        · split at h <;> cases h
        · cases h
  · intro h
    rw [if_pos h]

theorem matchRest_core {i : Nat} {r1 r2 : Str} : matchRest i r1 r2 ≠ .core := by
  unfold matchRest
  intro h
  split at h
  · cases h
  · split at h
    · split at h <;> cases h
    · split at h
      · split at h <;> cases h
      · cases h

theorem matchRest_sub {i : Nat} {r1 r2 : Str} :
    matchRest i r1 r2 = .sub ↔ i ≠ 0 ∧ r2 ≠ [] ∧ (i = 1 ∨ r2.head? = some 47) := by
  unfold matchRest
  constructor
  · intro h
    split at h
    · cases h
    · split at h
      · rename_i h2
        split at h
        · exact ⟨h2.1, h2.2, by assumption⟩
        · cases h
      · split at h
        · split at h <;> cases h
        · cases h
  · rintro ⟨h1, h2, h3⟩
    rw [if_neg (fun e => h2 e.2), if_pos ⟨h1, h2⟩, if_pos h3]

theorem matchRest_sup {i : Nat} {r1 r2 : Str} :
    matchRest i r1 r2 = .sup ↔ i ≠ 0 ∧ r2 = [] ∧ r1 ≠ [] ∧ (i = 1 ∨ r1.head? = some 47) := by
  unfold matchRest
  constructor
  · intro h
    split at h
    · cases h
    · rename_i h0
      split at h
      · split at h <;> cases h
      · rename_i h1
        split at h
        · rename_i h2
          split at h
          · refine ⟨h2.1, ?_, h2.2, by assumption⟩
            by_cases e : r2 = []
            · exact e
            · exact absurd ⟨h2.1, e⟩ h1
          · cases h
        · cases h
  · rintro ⟨h1, h2, h3, h4⟩
    rw [if_neg (fun e => h3 e.1), if_neg (fun e => e.2 h2), if_pos ⟨h1, h3⟩, if_pos h4]

/-- exact match is exact, whatever the names -/
theorem modMatch_same {o w : Str} (hw : w ≠ core) : modMatch o w = .same ↔ o = w := by
  rw [modMatch, if_neg hw]
  obtain ⟨p, r1, r2, h1, h2, h3, h4⟩ := matchFrom_split o w 0
  rw [h4, matchRest_same]
  constructor
  · rintro ⟨rfl, rfl⟩
    rw [h1, h2]
  · rintro rfl
    have e : r1 = r2 := List.append_cancel_left (h1.symm.trans h2)
    subst e
    cases r1 with
    | nil => exact ⟨rfl, rfl⟩
    | cons a x => exact absurd rfl (h3 a a x x rfl rfl)

theorem modMatch_core {o w : Str} : modMatch o w = .core ↔ w = core := by
  constructor
  · intro h
    by_cases hw : w = core
    · exact hw
    · rw [modMatch, if_neg hw] at h
      obtain ⟨p, r1, r2, -, -, -, h4⟩ := matchFrom_split o w 0
      rw [h4] at h
      exact absurd h matchRest_core
  · intro h
    rw [modMatch, if_pos h]

theorem modMatch_sub_of_below {o w : Str} (ho : ∃ t, o = 47 :: t) (hw : w ≠ core) (h : Below o w) : modMatch o w = .sub := by
  rw [modMatch, if_neg hw]
  obtain ⟨p, r1, r2, h1, h2, h3, h4⟩ := matchFrom_split o w 0
  rw [h4, matchRest_sub]
  obtain ⟨t0, ho⟩ := ho
  have pre : ∃ t, t ≠ [] ∧ w = o ++ t ∧ (t.head? = some 47 ∨ o.length = 1) := by
    rcases h with ⟨t, ht⟩ | ⟨he, t, ht, hw'⟩
    · exact ⟨47 :: t, by simp, ht, Or.inl rfl⟩
    · exact ⟨t, ht, by rw [he, hw']; rfl, Or.inr (by rw [he]; rfl)⟩
  obtain ⟨t, tn, tw, tc⟩ := pre
  have hr1 : r1 = [] := by
    rcases r1 with _ | ⟨a, x⟩
    · rfl
    · rw [h1, h2, List.append_assoc] at tw
      have := List.append_cancel_left tw
      exact absurd rfl (h3 a a x (x ++ t) rfl this)
  subst hr1
  simp only [List.append_nil] at h1
  subst h1
  have hr2 : r2 = t := by
    rw [h2] at tw
    exact List.append_cancel_left tw
  subst hr2
  have hl : 0 + o.length ≠ 0 := by rw [ho]; simp
  refine ⟨hl, tn, ?_⟩
  rcases tc with h | h
  · exact Or.inr h
  · exact Or.inl (by omega)

theorem modMatch_sup_of_below {o w : Str} (hw' : ∃ t, w = 47 :: t) (hw : w ≠ core) (h : Below w o) :
    modMatch o w = .sup := by
  rw [modMatch, if_neg hw]
  obtain ⟨p, r1, r2, h1, h2, h3, h4⟩ := matchFrom_split o w 0
  rw [h4, matchRest_sup]
  obtain ⟨t0, ho⟩ := hw'
  rcases h with ⟨t, ht⟩ | ⟨he, -⟩
  · have hr2 : r2 = [] := by
      rcases r2 with _ | ⟨a, x⟩
      · rfl
      · rw [h1, h2, List.append_assoc] at ht
        have := List.append_cancel_left ht
        exact absurd rfl (h3 a a (x ++ 47 :: t) x this rfl)
    subst hr2
    simp only [List.append_nil] at h2
    subst h2
    have hr1 : r1 = 47 :: t := by
      rw [h1] at ht
      exact List.append_cancel_left ht
    subst hr1
    exact ⟨by rw [ho]; simp, rfl, by simp, Or.inr rfl⟩
  · exact absurd (he.trans core_eq.symm) hw

theorem below_of_sub {o w : Str} (ho : ∃ t, o = 47 :: t) (hw' : ∃ t, w = 47 :: t) (hw : w ≠ core) (hc : ¬ Confusable o w)
    (h : modMatch o w = .sub) : Below o w := by
  rw [modMatch, if_neg hw] at h
  obtain ⟨p, r1, r2, h1, h2, h3, h4⟩ := matchFrom_split o w 0
  rw [h4, matchRest_sub] at h
  obtain ⟨hi, hr2, hh⟩ := h
  obtain ⟨t0, ho⟩ := ho
  obtain ⟨t1, hw1⟩ := hw'
  rcases r1 with _ | ⟨a, x⟩
  · simp only [List.append_nil] at h1
    subst h1
    rcases hh with hh | hh
    · right
      have : o = [47] := by
        rw [ho] at hh ⊢
        have : t0.length = 0 := by simpa using hh
        rw [List.length_eq_zero_iff.mp this]
      refine ⟨this, r2, hr2, ?_⟩
      rw [h2, this]; rfl
    · left
      rcases r2 with _ | ⟨b, y⟩
      · exact absurd rfl hr2
      · simp only [List.head?_cons, Option.some.injEq] at hh
        exact ⟨y, by rw [h2, hh]⟩
  · exfalso
    rcases r2 with _ | ⟨b, y⟩
    · exact hr2 rfl
    · have hab := h3 a b x y rfl rfl
      apply hc
      rcases hh with hh | hh
      · left
        rcases p with _ | ⟨c, p⟩
        · simp at hi
        · have hp : p = [] := by
            apply List.length_eq_zero_iff.mp
            simp at hh
            simpa using hh
          subst hp
          rw [ho] at h1
          rw [hw1] at h2
          simp only [List.cons_append, List.nil_append, List.cons.injEq] at h1 h2
          exact ⟨a, b, x, y, by rw [ho, h1.2], by rw [hw1, h2.2], hab⟩
      · right
        simp only [List.head?_cons, Option.some.injEq] at hh
        subst hh
        exact ⟨p, a, x, y, h1, h2, hab⟩

theorem below_of_sup {o w : Str} (hw' : ∃ t, w = 47 :: t) (hw : w ≠ core) (h : modMatch o w = .sup) : Below w o := by
  rw [modMatch, if_neg hw] at h
  obtain ⟨p, r1, r2, h1, h2, h3, h4⟩ := matchFrom_split o w 0
  rw [h4, matchRest_sup] at h
  obtain ⟨hi, hr2, hr1, hh⟩ := h
  subst hr2
  simp only [List.append_nil] at h2
  subst h2
  obtain ⟨t1, hw1⟩ := hw'
  rcases hh with hh | hh
  · exfalso
    apply hw
    rw [core_eq, hw1]
    rw [hw1] at hh
    have : t1.length = 0 := by simpa using hh
    rw [List.length_eq_zero_iff.mp this]
  · left
    rcases r1 with _ | ⟨b, y⟩
    · exact absurd rfl hr1
    · simp only [List.head?_cons, Option.some.injEq] at hh
      exact ⟨y, by rw [h1, hh]⟩

theorem not_below_both {o w : Str} (h : Below o w) (h' : Below w o) : False := by
  rcases h with ⟨t, h⟩ | ⟨h, t, ht, hw⟩
  · rcases h' with ⟨t', h'⟩ | ⟨h', t', ht', hw'⟩
    · rw [h'] at h
      have := congrArg List.length h
      simp at this
    · rw [h'] at h
      have := congrArg List.length h
      simp at this
      have hl : o.length = 0 := by omega
      rw [hw'] at hl
      simp at hl
  · rcases h' with ⟨t', h'⟩ | ⟨h', t', ht', hw'⟩
    · rw [h, hw] at h'
      have := congrArg List.length h'
      simp at this
    · rw [h', ] at hw
      simp at hw
      exact ht hw

theorem below_ne {o w : Str} (h : Below o w) : o ≠ w := by
  rintro rfl
  exact not_below_both h h

/-- the relation of modules as the code sees it -/
theorem modMatch_spec {o w : Str} (ho : ∃ t, o = 47 :: t) (hw' : ∃ t, w = 47 :: t) (hc : ¬ Confusable o w)
    (frg sub sup : Prop) :
    (match modMatch o w with
      | .no => frg
      | .same => True
      | .core => True
      | .sub => sub
      | .sup => sup) ↔ Granted frg sub sup o w := by
  by_cases hw : w = core
  · rw [modMatch_core.mpr hw]
    simp only [Granted]
    rw [core_eq] at hw
    exact ⟨fun _ => Or.inl hw, fun _ => trivial⟩
  · rcases hm : modMatch o w with _ | _ | _ | _ | _
    · simp only [Granted]
      have n1 : ¬ Below o w := by
        intro h
        have := modMatch_sub_of_below ho hw h
        rw [hm] at this; cases this
      have n2 : ¬ Below w o := by
        intro h
        have := modMatch_sup_of_below hw' hw h
        rw [hm] at this; cases this
      have n3 : w ≠ o := by
        rintro rfl
        have := (modMatch_same hw).mpr rfl
        rw [hm] at this; cases this
      constructor
      · intro h
        exact Or.inr (Or.inr (Or.inr (Or.inr ⟨n1, n2, h⟩)))
      · rintro (h | h | h | h | h)
        · exact absurd (h.trans core_eq.symm) hw
        · exact absurd h n3
        · exact absurd h.1 n1
        · exact absurd h.1 n2
        · exact h.2.2
    · simp only [Granted]
      exact ⟨fun _ => Or.inr (Or.inl ((modMatch_same hw).mp hm).symm), fun _ => trivial⟩
    · exact absurd (modMatch_core.mp hm) hw
    · have hb := below_of_sub ho hw' hw hc hm
      simp only [Granted]
      constructor
      · intro h
        exact Or.inr (Or.inr (Or.inl ⟨hb, h⟩))
      · rintro (h | h | h | h | h)
        · exact absurd (h.trans core_eq.symm) hw
        · exact absurd h.symm (below_ne hb)
        · exact h.2
        · exact absurd h.1 (fun h' => not_below_both hb h')
        · exact absurd hb h.1
    · have hb := below_of_sup hw' hw hm
      simp only [Granted]
      constructor
      · intro h
        exact Or.inr (Or.inr (Or.inr (Or.inl ⟨hb, h⟩)))
      · rintro (h | h | h | h | h)
        · exact absurd (h.trans core_eq.symm) hw
        · exact absurd h (below_ne hb)
        · exact absurd h.1 (fun h' => not_below_both hb h')
        · exact h.2
        · exact absurd hb h.2.1

/-- names that are confused are taken for a module and its subordinate, though they are unrelated -/
theorem confused {o w : Str} (ho : ∃ t, o = 47 :: t) (hw : w ≠ core) (hc : Confusable o w) :
    modMatch o w = .sub ∧ ¬ Below o w ∧ o ≠ w := by
  obtain ⟨t0, ho⟩ := ho
  rcases hc with ⟨a, b, o', w', h1, h2, hab⟩ | ⟨p, a, o', w', h1, h2, hab⟩
  · refine ⟨?_, ?_, ?_⟩
    · rw [modMatch, if_neg hw, h1, h2]
      simp only [matchFrom, ↓reduceIte, hab]
      rw [matchRest_sub]
      simp
    · rw [h1, h2]
      rintro (⟨t, h⟩ | ⟨h, -⟩)
      · simp at h
        exact hab h.1.symm
      · simp at h
    · rw [h1, h2]
      intro h
      simp at h
      exact hab h.1
  · have hp : p ≠ [] := by
      rintro rfl
      rw [ho] at h1
      simp only [List.nil_append, List.cons.injEq] at h1
      exact hab h1.1.symm
    have key : ∀ (p : Str) i, (i ≠ 0 ∨ p ≠ []) → matchFrom i (p ++ a :: o') (p ++ 47 :: w') = .sub := by
      intro p
      induction p with
      | nil =>
        intro i hi
        simp only [List.nil_append, matchFrom, hab, ↓reduceIte]
        rw [matchRest_sub]
        refine ⟨?_, by simp, Or.inr rfl⟩
        rcases hi with hi | hi
        · exact hi
        · exact absurd rfl hi
      | cons c p ih =>
        intro i _
        simp only [List.cons_append, matchFrom, ↓reduceIte]
        exact ih (i + 1) (Or.inl (by omega))
    refine ⟨?_, ?_, ?_⟩
    · rw [modMatch, if_neg hw, h1, h2]
      exact key p 0 (Or.inr hp)
    · rw [h1, h2]
      rintro (⟨t, h⟩ | ⟨h, t, -, h'⟩)
      · rw [List.append_assoc] at h
        have := List.append_cancel_left h
        simp at this
        exact hab this.1.symm
      · rcases p with _ | ⟨c, p⟩
        · exact hp rfl
        · simp at h
    · rw [h1, h2]
      intro h
      have := List.append_cancel_left h
      simp at this
      exact hab this.1

/-! ### permissions -/

theorem has_bit (f : Flags) (n : Nat) (hn : n < 64) (bit : Flags) (hb : bit = BitVec.twoPow 64 n) :
    has f bit = true ↔ f.getLsbD n = true := by
  subst hb
  simp only [has, bne_iff_ne, ne_eq]
  rw [BitVec.and_twoPow]
  split
  · rename_i h
    simp only [h, iff_true]
    intro e
    have := congrArg (fun x : BitVec 64 => x.getLsbD n) e
    simp [hn] at this
  · rename_i h
    simp [h]

theorem has_frgRd (f : Flags) : has f flFrgRd = true ↔ f.getLsbD 5 = true := has_bit f 5 (by decide) _ (by decide)
theorem has_subRd (f : Flags) : has f flSubRd = true ↔ f.getLsbD 6 = true := has_bit f 6 (by decide) _ (by decide)
theorem has_supRd (f : Flags) : has f flSupRd = true ↔ f.getLsbD 7 = true := has_bit f 7 (by decide) _ (by decide)
theorem has_frgWr (f : Flags) : has f flFrgWr = true ↔ f.getLsbD 8 = true := has_bit f 8 (by decide) _ (by decide)
theorem has_subWr (f : Flags) : has f flSubWr = true ↔ f.getLsbD 9 = true := has_bit f 9 (by decide) _ (by decide)
theorem has_supWr (f : Flags) : has f flSupWr = true ↔ f.getLsbD 10 = true := has_bit f 10 (by decide) _ (by decide)

theorem wrCase_neg (f wr rd : Flags) : wrCase f wr rd < 0 ↔ ¬ has f wr = true := by
  unfold wrCase
  by_cases h : has f wr = true
  · simp [h]
  · simp only [h, not_false_eq_true, iff_true, Bool.false_eq_true, ↓reduceIte]
    split
    · decide
    · split <;> decide

theorem wrAllowed_neg {r : Rec} {w : Str} (ho : ∃ t, r.owner = 47 :: t) (hw' : ∃ t, w = 47 :: t)
    (hc : ¬ Confusable r.owner w) : wrAllowed (some r) w < 0 ↔ ¬ MayWrite r w := by
  have h := modMatch_spec ho hw' hc (frgWr r) (subWr r) (supWr r)
  rw [MayWrite, ← h]
  simp only [wrAllowed]
  rcases modMatch r.owner w with _ | _ | _ | _ | _
  · simp only [wrCase_neg, has_frgWr, frgWr]
  · simp
  · simp
  · simp only [wrCase_neg, has_subWr, subWr]
  · simp only [wrCase_neg, has_supWr, supWr]

theorem rdAllowed_iff {r : Rec} {w : Str} (ho : ∃ t, r.owner = 47 :: t) (hw' : ∃ t, w = 47 :: t)
    (hc : ¬ Confusable r.owner w) : rdAllowed r w = true ↔ MayRead r w := by
  have h := modMatch_spec ho hw' hc (frgRd r) (subRd r) (supRd r)
  rw [MayRead, ← h]
  simp only [rdAllowed]
  rcases modMatch r.owner w with _ | _ | _ | _ | _
  · simp only [has_frgRd, frgRd]
  · simp
  · simp
  · simp only [has_subRd, subRd]
  · simp only [has_supRd, supRd]

theorem rsvAllowed_iff {r : Rec} {w : Str} : rsvAllowed (some r) w = true ↔ w = core ∨ w = r.owner := by
  simp only [rsvAllowed, Bool.or_eq_true, beq_iff_eq]
  by_cases hw : w = core
  · simp [hw, modMatch_core]
  · rw [modMatch_same hw, modMatch_core]
    exact ⟨fun h => h.elim (fun e => Or.inr e.symm) Or.inl, fun h => h.elim Or.inr (fun e => Or.inl e.symm)⟩

/-! ### calls -/

theorem manageIndex_recs (db : Db) (b : Bool) (key : Str) (o n : Option Rec) : (manageIndex db b key o n).recs = db.recs := by
  unfold manageIndex
  split
  · rfl
  · split <;> rfl

theorem setKey_head {c : Ctx} {m : Str} {dom : Option Str} {ns : Ns} {k : Str} :
    ((composeKey (setSpec c m dom ns k)).drop 1).head? = some 58 := by
  rw [compose_glue]
  rfl

theorem rsvKey_head {dom : Option Str} {ns : Ns} {k : Str} :
    (Kvs.canon (composeKey (rsvSpec dom ns k))).head? = some 58 := by
  rw [canon_compose _ (Or.inl rfl)]
  rfl

theorem writeRec_other (db : Db) (key k : Str) (r : Rec) (h : k ≠ key) (h' : k.head? ≠ some 126) :
    (writeRec db key r).recs k = db.recs k := by
  have ha : k ≠ opArchive ++ key := by
    rintro rfl
    exact h' rfl
  unfold writeRec
  rw [manageIndex_recs]
  split
  · simp [Db.put, h, ha]
  · simp [Db.put, h]

theorem writeRec_key (db : Db) (key : Str) (r : Rec) (h : key.head? ≠ some 126) : (writeRec db key r).recs key = some r := by
  have ha : key ≠ opArchive ++ key := by
    intro e
    rw [e] at h
    exact h rfl
  unfold writeRec
  rw [manageIndex_recs]
  split
  · simp only [Db.put]
    simp [ha]
  · simp [Db.put]

theorem archive_key (db : Db) (key : Str) (r : Rec) :
    (writeRec db key r).recs (opArchive ++ key) =
      if has r.flags flAr && (db.recs key).isSome then db.recs key else db.recs (opArchive ++ key) := by
  have ha : opArchive ++ key ≠ key := by
    intro e
    have := congrArg List.length e
    simp [opArchive, Sid.Ifc.txt] at this
  unfold writeRec
  rw [manageIndex_recs]
  split
  · simp only [Db.put]
    simp
  · simp only [Db.put]
    rw [if_neg ha]

/-- a call by a module that is denied by the record leaves it as it is -/
theorem call_keeps {isWorker : Bool} {db db' : Db} {w : Str} {x : Call} {ret : Int} {key : Str} {r : Rec}
    (hk : db.recs key = some r) (hh : key.head? ≠ some 126) (hd : wrAllowed (some r) w < 0)
    (hc : call isWorker db w x = some (ret, db')) : db'.recs key = some r := by
  have hn : rsvAllowed (some r) w = false := by
    cases h : rsvAllowed (some r) w with
    | false => rfl
    | true =>
      rw [rsvAllowed_iff] at h
      have : wrAllowed (some r) w = 1 := by
        simp only [wrAllowed]
        by_cases hw : w = core
        · rw [modMatch_core.mpr hw]
        · rw [(modMatch_same hw).mpr (h.resolve_left hw).symm]
      rw [this] at hd
      exact absurd hd (by decide)
  have hres : ∀ (c : Ctx) (dom : Option Str) (ns : Ns) (name : Str) (flags : Flags) (unset : Bool),
      doReserve db c isWorker w dom ns name flags unset = some (ret, db') → db'.recs key = some r := by
    intro c dom ns name flags unset h
    unfold doReserve at h
    dsimp only at h
    generalize Kvs.canon (composeKey (rsvSpec dom ns name)) = k at h
    split at h
    · split at h
      · rename_i ha
        simp only [Option.some.injEq, Prod.mk.injEq] at h
        rw [← h.2]
        simp only [Db.put]
        by_cases e : key = k
        · subst e
          rw [hk, hn] at ha
          cases ha
        · rw [if_neg e, hk]
      · simp only [Option.some.injEq, Prod.mk.injEq] at h
        rw [← h.2, hk]
    · split at h
      · cases h
      · split at h
        · rename_i ha
          simp only [Option.some.injEq, Prod.mk.injEq] at h
          rw [← h.2, manageIndex_recs]
          simp only [Db.put]
          by_cases e : key = k
          · subst e
            rw [hk, hn] at ha
            cases ha
          · rw [if_neg e, hk]
        · simp only [Option.some.injEq, Prod.mk.injEq] at h
          rw [← h.2, hk]
  cases x with
  | set c a =>
    simp only [call, kvSet] at hc
    split at hc
    · unfold doKvSet at hc
      generalize (if a.ns = .udev ∧ w = core then some 0 else globalRs db w (domOf a.ns) a.ns a.key) = g at hc
      cases g with
      | none => cases hc
      | some g =>
        simp only [Option.bind_some] at hc
        split at hc
        · simp only [Option.some.injEq, Prod.mk.injEq] at hc
          rw [← hc.2, hk]
        · generalize hkk : (composeKey (setSpec c w (domOf a.ns) a.ns a.key)).drop 1 = k at hc
          split at hc
          · split at hc
            · cases hc
            · simp only [Option.some.injEq, Prod.mk.injEq] at hc
              rw [← hc.2, hk]
          · rename_i hal
            simp only [Option.some.injEq, Prod.mk.injEq] at hc
            rw [← hc.2]
            rw [writeRec_other db k key _ ?_ hh, hk]
            rintro rfl
            rw [hk] at hal
            exact hal hd
    · simp only [Option.some.injEq, Prod.mk.injEq] at hc
      rw [← hc.2, hk]
  | reserve c ns name flags =>
    simp only [call, kvReserve] at hc
    split at hc
    · exact hres _ _ _ _ _ _ hc
    · simp only [Option.some.injEq, Prod.mk.injEq] at hc
      rw [← hc.2, hk]
  | unreserve c ns name =>
    simp only [call, kvUnreserve] at hc
    split at hc
    · exact hres _ _ _ _ _ _ hc
    · simp only [Option.some.injEq, Prod.mk.injEq] at hc
      rw [← hc.2, hk]

theorem calls_keep {isWorker : Bool} {key : Str} {r : Rec} (hh : key.head? ≠ some 126) (l : List (Str × Call)) :
    ∀ {db db' : Db}, db.recs key = some r → (∀ x ∈ l, wrAllowed (some r) x.1 < 0) → calls isWorker db l = some db' →
      db'.recs key = some r := by
  induction l with
  | nil =>
    intro db db' hk _ h
    simp only [calls, Option.some.injEq] at h
    rw [← h, hk]
  | cons x l ih =>
    intro db db' hk hd h
    obtain ⟨w, x⟩ := x
    simp only [calls] at h
    cases hx : call isWorker db w x with
    | none => rw [hx] at h; cases h
    | some y =>
      rw [hx] at h
      simp only [Option.bind_some] at h
      exact ih (call_keeps hk hh (hd (w, x) (by simp)) hx) (fun z hz => hd z (by simp [hz])) h

end Sid.Ubr
