import Verif.Spec.Dump
import Verif.Proof.UbrGen
/-
Proofs about writing the database file.
-/
namespace Sid.Ubr
open Sid.Spec.Codec Sid.Spec.Gen Sid.Spec.Dump
open Sid.Ifc (txt leBytes leNat)

/-! ### loading a file by its first bytes -/

theorem readMsg_zero {b : List UInt8} (h4 : 4 ≤ b.length) (h : b.take 4 = [0, 0, 0, 0]) : readMsg b = .ok [] := by
  unfold readMsg
  rw [if_neg (by omega)]
  simp only [h]
  rw [if_pos (by decide)]

theorem start_zero {b : List UInt8} (h4 : 4 ≤ b.length) (h : b.take 4 = [0, 0, 0, 0]) : start (some b) = start none := by
  simp only [start, loadFile, syncBytes, readMsg_zero h4 h, Parsed.bind]
  rfl

theorem start_trunc : start (some []) = start none := rfl

theorem start_bad {b : List UInt8} (h : readMsg b = .bad) : start (some b) = start none := by
  simp only [start, loadFile, syncBytes, h, Parsed.bind]

theorem start_congr {b b' : List UInt8} (h : readMsg b = readMsg b') : start (some b) = start (some b') := by
  simp only [start, loadFile, syncBytes, h]

theorem message_length (l : List (Str × Rec)) : (message l).length = 4 + (l.flatMap recBytes).length := by
  simp [message, Ifc.leBytes_length]

theorem leNat_mod (n : Nat) : leNat (leBytes n 4) ≤ n := by
  simp only [leBytes, leNat, UInt8.toNat_ofNat']
  omega

/-- bytes behind the message make no difference -/
theorem readMsg_tail (l : List (Str × Rec)) (t : List UInt8) : readMsg (message l ++ t) = readMsg (message l) := by
  have hl := message_length l
  have hs : (message l).take 4 = leBytes (4 + (l.flatMap recBytes).length) 4 := by
    rw [message, List.take_append_of_le_length (by simp [Ifc.leBytes_length]), List.take_of_length_le (by simp [Ifc.leBytes_length])]
  have hle := leNat_mod (4 + (l.flatMap recBytes).length)
  unfold readMsg
  rw [List.take_append_of_le_length (by omega), hs]
  dsimp only
  rw [if_neg (c := (message l ++ t).length < 4) (by rw [List.length_append]; omega),
    if_neg (c := (message l).length < 4) (by omega)]
  by_cases h1 : leNat (leBytes (4 + (l.flatMap recBytes).length) 4) ≤ 4
  · rw [if_pos h1, if_pos h1]
  · rw [if_neg h1, if_neg h1]
    by_cases h2 : leNat (leBytes (4 + (l.flatMap recBytes).length) 4) > 0x4000000
    · rw [if_pos h2, if_pos h2]
    · rw [if_neg h2, if_neg h2, if_neg (by rw [List.length_append]; omega), if_neg (by omega),
        List.take_append_of_le_length (by omega)]

/-! ### the pieces -/

theorem pieces_flatten (x : Str × Rec) : (pieces x).flatten = recBytes x := by
  unfold pieces recBytes
  cases x.2.val with
  | scalar d => simp
  | vector l =>
    have : ∀ l : List (List UInt8), (l.flatMap fun i => [leBytes i.length 8, i]).flatten = l.flatMap itemBytes := by
      intro l
      induction l with
      | nil => rfl
      | cons a l ih => simp [itemBytes, ih]
    simp [this]

theorem all_pieces (l : List (Str × Rec)) : (l.flatMap pieces).flatten = l.flatMap recBytes := by
  induction l with
  | nil => rfl
  | cons x l ih => simp [List.flatMap_cons, pieces_flatten, ih]

theorem roundUp_ge (n : Nat) : n ≤ roundUp n := by
  unfold roundUp; split <;> omega

/-! ### single actions -/

theorem acts_append (f : Option (List UInt8)) (a b : List Act) : acts f (a ++ b) = (acts f a).bind fun f => acts f b := by
  induction a generalizing f with
  | nil => rfl
  | cons x a ih =>
    simp only [List.cons_append, acts]
    cases act f x with
    | none => rfl
    | some f' => simp [ih]

/-- the file as it is while records are added: zeros for the size, what has been added, zeros -/
def body (d : List UInt8) (alloc : Nat) : List UInt8 := [0, 0, 0, 0] ++ d ++ List.replicate (alloc - (4 + d.length)) 0

theorem body_length {d : List UInt8} {alloc : Nat} (h : 4 + d.length ≤ alloc) : (body d alloc).length = alloc := by
  simp [body]; omega

theorem resize_body {d : List UInt8} {alloc n : Nat} (h : 4 + d.length ≤ alloc) (hn : alloc ≤ n) :
    resize n (body d alloc) = body d n := by
  unfold resize
  rw [body_length h, List.take_of_length_le (by rw [body_length h]; exact hn)]
  unfold body
  rw [List.append_assoc, List.replicate_append_replicate]
  congr 2
  omega

theorem store_body {d e : List UInt8} {alloc : Nat} (h : 4 + d.length + e.length ≤ alloc) :
    storeAt (4 + d.length) e (body d alloc) = some (body (d ++ e) alloc) := by
  unfold storeAt
  rw [if_pos (by rw [body_length (by omega)]; exact h)]
  congr 1
  have h1 : (body d alloc).take (4 + d.length) = [0, 0, 0, 0] ++ d := by
    unfold body
    rw [List.take_append_of_le_length (by simp; omega), List.take_of_length_le (by simp; omega)]
  have h2 : (body d alloc).drop (4 + d.length + e.length) = List.replicate (alloc - (4 + (d ++ e).length)) 0 := by
    unfold body
    rw [List.drop_append, List.drop_of_length_le (by simp; omega), List.nil_append, List.drop_replicate]
    congr 1
    simp
    omega
  rw [h1, h2]
  simp [body]

/-- the actions that leave the first four bytes alone -/
def Behind : Act → Prop
  | .trunc => False
  | .size n => 4 ≤ n
  | .copy pos _ => 4 ≤ pos
  | .word _ => False

/-- the size prefix is there and zero -/
def Zero (b : List UInt8) : Prop := 4 ≤ b.length ∧ b.take 4 = [0, 0, 0, 0]

theorem act_behind {b : List UInt8} {a : Act} {f : Option (List UInt8)} (ha : Behind a) (hz : Zero b)
    (h : act (some b) a = some f) : ∃ b', f = some b' ∧ Zero b' := by
  cases a with
  | trunc => exact ha.elim
  | word => exact ha.elim
  | size n =>
    simp only [act, Option.some.injEq] at h
    have hn : 4 ≤ n := ha
    refine ⟨_, h.symm, ?_, ?_⟩
    · have := hz.1; simp [resize]; omega
    · have := hz.1
      unfold resize
      rw [List.take_append_of_le_length (by simp; omega), List.take_take, Nat.min_eq_left hn, hz.2]
  | copy pos d =>
    have hn : 4 ≤ pos := ha
    simp only [act, storeAt] at h
    split at h
    · next hl =>
      simp only [Option.map_some, Option.some.injEq] at h
      refine ⟨_, h.symm, ?_, ?_⟩
      · simp; omega
      · rw [List.append_assoc, List.take_append_of_le_length (by simp; omega), List.take_take, Nat.min_eq_left hn, hz.2]
    · cases h

theorem acts_behind (l : List Act) : ∀ {b : List UInt8} {f : Option (List UInt8)}, (∀ a ∈ l, Behind a) → Zero b →
    acts (some b) l = some f → ∃ b', f = some b' ∧ Zero b' := by
  induction l with
  | nil => intro b f _ hz h; cases h; exact ⟨b, rfl, hz⟩
  | cons a l ih =>
    intro b f ha hz h
    simp only [acts] at h
    cases h1 : act (some b) a with
    | none => rw [h1] at h; cases h
    | some f1 =>
      rw [h1] at h
      obtain ⟨b1, rfl, hz1⟩ := act_behind (ha a (by simp)) hz h1
      exact ih (fun x hx => ha x (by simp [hx])) hz1 h

theorem partly_zero {b b' f : List UInt8} (h : Zero b) (h' : Zero b') (hp : Partly b b' f) : Zero f := by
  refine ⟨by have := h.1; have := hp.1; omega, ?_⟩
  apply List.ext_getElem?
  intro i
  rw [← h.2]
  by_cases hi : i < 4
  · rw [List.getElem?_take_of_lt hi, List.getElem?_take_of_lt hi]
    have e : b[i]? = b'[i]? := by
      have := congrArg (fun l : List UInt8 => l[i]?) (h.2.trans h'.2.symm)
      simpa [List.getElem?_take_of_lt hi] using this
    rcases hp.2.2 i with x | x
    · exact x
    · rw [x, e]
  · rw [List.getElem?_eq_none (by simp; omega), List.getElem?_eq_none (by simp; omega)]

/-- copied up to the `k`th byte -/
theorem partly_take {b b' : List UInt8} (h : b'.length = b.length) (k : Nat) : Partly b b' (b'.take k ++ b.drop k) := by
  refine ⟨by simp; omega, by simp; omega, fun i => ?_⟩
  by_cases hi : i < (b'.take k).length
  · right
    rw [List.getElem?_append_left hi, List.getElem?_take_of_lt (by simp at hi; omega)]
  · left
    rw [List.getElem?_append_right (by omega), List.getElem?_drop]
    by_cases hk : k ≤ b'.length
    · congr 1; simp at hi ⊢; omega
    · rw [List.getElem?_eq_none (by simp at hi ⊢; omega), List.getElem?_eq_none (by simp at hi; omega)]

/-! ### adding -/

theorem addActs_behind (used alloc : Nat) (d : List UInt8) (h : used = 0 ∨ 4 ≤ used) :
    (∀ a ∈ (addActs used alloc d).1, Behind a) ∧ 4 ≤ (addActs used alloc d).2.1 := by
  unfold addActs
  have h4 : 4 ≤ if used = 0 then 4 else used := by split <;> omega
  generalize (if used = 0 then 4 else used) = p at h4
  dsimp only
  have := roundUp_ge (p + d.length)
  split
  · refine ⟨?_, by dsimp only; omega⟩
    intro a ha
    rw [List.mem_singleton.mp ha]
    exact h4
  · refine ⟨?_, by dsimp only; omega⟩
    intro a ha
    simp only [List.mem_cons, List.not_mem_nil, or_false] at ha
    rcases ha with rfl | rfl
    · show 4 ≤ roundUp _; omega
    · exact h4

theorem addAll_behind (l : List (List UInt8)) : ∀ (used alloc : Nat), (used = 0 ∨ 4 ≤ used) →
    ∀ a ∈ (addAll used alloc l).1, Behind a := by
  induction l with
  | nil => intro _ _ _ a ha; cases ha
  | cons d l ih =>
    intro used alloc h a ha
    have h1 := addActs_behind used alloc d h
    simp only [addAll, List.mem_append] at ha
    rcases ha with ha | ha
    · exact h1.1 a ha
    · exact ih _ _ (Or.inr h1.2) a ha

theorem addActs_file (used alloc : Nat) (d e : List UInt8) (hu : used = if d = [] ∧ used = 0 then 0 else 4 + d.length)
    (ha : 4 + d.length ≤ alloc) :
    acts (some (body d alloc)) (addActs used alloc e).1 = some (some (body (d ++ e) (addActs used alloc e).2.2)) ∧
    (addActs used alloc e).2.1 = 4 + (d ++ e).length ∧ 4 + (d ++ e).length ≤ (addActs used alloc e).2.2 := by
  have hp : (if used = 0 then 4 else used) = 4 + d.length := by
    by_cases h0 : used = 0
    · rw [if_pos h0]
      by_cases hd : d = []
      · rw [hd]; rfl
      · rw [if_neg (by simp [hd])] at hu; omega
    · rw [if_neg h0]
      rwa [if_neg (by simp [h0])] at hu
  unfold addActs
  rw [hp]
  dsimp only
  rw [List.length_append]
  by_cases h : alloc ≥ 4 + d.length + e.length
  · rw [if_pos h]
    refine ⟨?_, by dsimp only; omega, by dsimp only; omega⟩
    simp [acts, act, store_body h]
  · rw [if_neg h]
    have := roundUp_ge (4 + d.length + e.length)
    refine ⟨?_, by dsimp only; omega, by dsimp only; omega⟩
    simp only [acts, act, Option.bind_some]
    rw [resize_body ha (by omega)]
    simp [store_body this]

theorem addAll_file (l : List (List UInt8)) : ∀ (used alloc : Nat) (d : List UInt8),
    (used = if d = [] ∧ used = 0 then 0 else 4 + d.length) → 4 + d.length ≤ alloc →
    ∃ alloc', acts (some (body d alloc)) (addAll used alloc l).1 = some (some (body (d ++ l.flatten) alloc')) ∧
      4 + (d ++ l.flatten).length ≤ alloc' ∧ (addAll used alloc l).2 = if l = [] then used else 4 + (d ++ l.flatten).length := by
  induction l with
  | nil => intro used alloc d hu ha; exact ⟨alloc, by simp [addAll, acts], by simpa using ha, by simp [addAll]⟩
  | cons e l ih =>
    intro used alloc d hu ha
    obtain ⟨h1, h2, h3⟩ := addActs_file used alloc d e hu ha
    obtain ⟨alloc', h4, h5, h6⟩ := ih (addActs used alloc e).2.1 (addActs used alloc e).2.2 (d ++ e)
      (by rw [h2, if_neg (by rintro ⟨-, h⟩; omega)]) h3
    refine ⟨alloc', ?_, ?_, ?_⟩
    · simp only [addAll]
      rw [acts_append, h1]
      simpa using h4
    · simpa using h5
    · simp only [addAll]
      rw [h6, if_neg (c := e :: l = []) (by simp)]
      by_cases hl : l = []
      · rw [if_pos hl, h2, hl]; simp
      · rw [if_neg hl]; simp

/-- the whole run, file there or not -/
theorem dump_file (f0 : Option (List UInt8)) (l : List (Str × Rec)) :
    ∃ n, acts f0 (dumpActs l) = some (some ((if l = [] then [0, 0, 0, 0] else message l) ++ List.replicate n 0)) := by
  obtain ⟨alloc, h1, h2, h3⟩ := addAll_file (l.flatMap pieces) 0 4 [] (by simp) (by simp)
  rw [List.nil_append, all_pieces] at h1 h2 h3
  have he : l.flatMap pieces = [] ↔ l = [] := by
    cases l with
    | nil => simp
    | cons x l =>
      simp only [List.flatMap_cons, List.append_eq_nil_iff, reduceCtorEq, iff_false, not_and]
      intro h
      unfold pieces at h
      split at h <;> simp at h
  have hb : acts f0 [.trunc, .size 4] = some (some (body [] 4)) := by
    cases f0 <;> rfl
  refine ⟨alloc - (4 + (l.flatMap recBytes).length), ?_⟩
  unfold dumpActs
  dsimp only
  rw [acts_append, acts_append, hb]
  simp only [Option.bind_some]
  rw [h1, h3]
  simp only [Option.bind_some, acts, act, storeAt]
  rw [if_pos (by rw [body_length h2, Ifc.leBytes_length]; omega)]
  simp only [Option.map_some, Option.bind_some, List.take_zero, List.nil_append, Ifc.leBytes_length]
  congr 2
  simp only [body, he]
  by_cases hl : l = []
  · subst hl; rfl
  · rw [if_neg hl, if_neg hl]
    simp [message]

/-! ### killed -/

theorem split_append {α : Type} {a b c d : List α} (h : a ++ b = c ++ d) :
    (∃ x, a = c ++ x ∧ d = x ++ b) ∨ ∃ x, c = a ++ x ∧ b = x ++ d := by
  rcases List.append_eq_append_iff.mp h with ⟨x, h1, h2⟩ | ⟨x, h1, h2⟩
  · exact Or.inr ⟨x, h1, h2⟩
  · exact Or.inl ⟨x, h1, h2⟩

/-- what the parts of a run leave -/
theorem dump_prefix (f0 : Option (List UInt8)) (l : List (Str × Rec)) (before after : List Act) (f : Option (List UInt8))
    (h : dumpActs l = before ++ after) (e : acts f0 before = some f) :
    (before = [] ∧ f = f0) ∨ (before = [.trunc] ∧ f = some []) ∨
    (∃ b, f = some b ∧ Zero b ∧ after ≠ []) ∨ (before = dumpActs l ∧ after = []) := by
  unfold dumpActs at h
  dsimp only at h
  match before, h, e with
  | [], _, e => left; exact ⟨rfl, by cases e; rfl⟩
  | [a], h, e =>
    simp only [List.cons_append, List.cons.injEq, List.nil_append] at h
    obtain ⟨rfl, -⟩ := h
    right; left
    refine ⟨rfl, ?_⟩
    simp only [acts, act, Option.bind_some] at e
    cases e; rfl
  | a :: b :: rest, h, e =>
    right; right
    simp only [List.cons_append, List.cons.injEq, List.nil_append] at h
    obtain ⟨rfl, rfl, h⟩ := h
    have hb : acts f0 (.trunc :: .size 4 :: rest) = acts (some [0, 0, 0, 0]) rest := by cases f0 <;> rfl
    rw [hb] at e
    have hbeh := addAll_behind (l.flatMap pieces) 0 4 (Or.inl rfl)
    rcases split_append h with ⟨x, h1, h2⟩ | ⟨x, h1, h2⟩
    · left
      obtain ⟨b', rfl, hz⟩ := acts_behind rest (fun a ha => hbeh a (by rw [h1]; simp [ha])) ⟨by simp, rfl⟩ e
      exact ⟨b', rfl, hz, by rw [h2]; simp⟩
    · cases x with
      | nil =>
        left
        rw [List.append_nil] at h1
        obtain ⟨b', rfl, hz⟩ := acts_behind rest (fun a ha => hbeh a (by rw [← h1]; exact ha)) ⟨by simp, rfl⟩ e
        rw [List.nil_append] at h2
        exact ⟨b', rfl, hz, by rw [← h2]; simp⟩
      | cons y x =>
        right
        simp only [List.cons_append, List.cons.injEq] at h2
        obtain ⟨rfl, h2⟩ := h2
        have h2' := List.append_eq_nil_iff.mp h2.symm
        obtain ⟨rfl, rfl⟩ := h2'
        refine ⟨?_, rfl⟩
        unfold dumpActs
        simp [h1]

theorem start_dump (f0 f : Option (List UInt8)) (l : List (Str × Rec)) (e : acts f0 (dumpActs l) = some f) :
    start f = start (some (message l)) := by
  obtain ⟨n, h⟩ := dump_file f0 l
  rw [h] at e
  cases e
  by_cases hl : l = []
  · rw [if_pos hl, hl]
    refine (start_zero ?_ ?_).trans ?_
    · simp
    · rfl
    · rfl
  · rw [if_neg hl]
    exact start_congr (readMsg_tail l _)

theorem left_start {f0 f : Option (List UInt8)} {l : List (Str × Rec)} (h : Left f0 (dumpActs l) f) :
    start f = start f0 ∨ start f = start none ∨ start f = start (some (message l)) := by
  cases h with
  | @between before after f hs e =>
    rcases dump_prefix f0 l before after f hs e with ⟨-, rfl⟩ | ⟨-, rfl⟩ | ⟨b, rfl, hz, -⟩ | ⟨rfl, -⟩
    · exact Or.inl rfl
    · exact Or.inr (Or.inl start_trunc)
    · exact Or.inr (Or.inl (start_zero hz.1 hz.2))
    · exact Or.inr (Or.inr (start_dump f0 _ l e))
  | @within before after pos d b b' f hs e e' hp =>
    right; left
    have e2 : acts f0 (before ++ [.copy pos d]) = some (some b') := by
      rw [acts_append, e]
      simp [acts, e']
    have hz : Zero b' := by
      rcases dump_prefix f0 l (before ++ [.copy pos d]) after (some b') (by rw [hs]; simp) e2 with
        ⟨h, -⟩ | ⟨h, -⟩ | ⟨b1, h, hz, -⟩ | ⟨h, -⟩
      · simp at h
      · cases before <;> simp at h
      · cases h; exact hz
      · have := congrArg List.getLast? h
        rw [List.getLast?_concat, dumpActs, List.getLast?_concat] at this
        cases this
    have hz0 : Zero b := by
      rcases dump_prefix f0 l before (.copy pos d :: after) (some b) hs e with ⟨h, -⟩ | ⟨h, -⟩ | ⟨b1, h, hz, -⟩ | ⟨-, h⟩
      · subst h; simp [dumpActs] at hs
      · subst h; simp [dumpActs] at hs
      · cases h; exact hz
      · cases h
    have := partly_zero hz0 hz hp
    exact start_zero this.1 this.2

theorem dump_alive (f0 : Option (List UInt8)) (l : List (Str × Rec)) (before after : List Act)
    (h : dumpActs l = before ++ after) : ∃ f, acts f0 before = some f := by
  obtain ⟨n, e⟩ := dump_file f0 l
  rw [h, acts_append] at e
  cases hb : acts f0 before with
  | none => rw [hb] at e; cases e
  | some f => exact ⟨f, rfl⟩

end Sid.Ubr
