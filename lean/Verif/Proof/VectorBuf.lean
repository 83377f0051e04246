import Verif.Model.VectorBuf
import Verif.Proof.BufIo

namespace Sid.VBuf
open Sid.LBuf (Mode IoEv WOut checkBuf roundUp rd32)
open Sid.Spec.VBuf (Op Ret)
open Sid.Spec.Frame

structure Inv (b : Buf) : Prop where
  le : b.used ≤ b.cells.length
  pfx : b.mode = .prefixed → ∃ p, b.cells[0]? = some (some p) ∧ p.length = 4

def items (b : Buf) : List (List UInt8) := ((b.cells.take b.used).drop (pfxCells b.mode)).map cellBytes

theorem resize_length (cells : List Cell) (n fresh) : (resize cells n fresh).length = n := by
  simp [resize]; omega

theorem resize_take (cells : List Cell) (n k : Nat) (fresh) (h1 : k ≤ n) (h2 : k ≤ cells.length) :
    (resize cells n fresh).take k = cells.take k := by
  unfold resize
  rw [List.take_append_of_le_length (by simp; omega), List.take_take, Nat.min_eq_left h1]

theorem getElem?_zero_of_take {l m : List Cell} {k : Nat} (h : l.take k = m.take k) (hk : 0 < k) : l[0]? = m[0]? := by
  have := congrArg (fun l : List Cell => l[0]?) h
  simpa [List.getElem?_take, hk] using this

theorem realloc_ok {b b' : Buf} {needed force fresh} (h : realloc b needed force fresh = .ok b') :
    b'.mode = b.mode ∧ b'.size = b.size ∧ b'.used = b.used ∧ b'.markSet = b.markSet ∧ b'.markPos = b.markPos ∧
      needed ≤ b'.cells.length ∧
      (∀ k, k ≤ needed → k ≤ b.cells.length → b'.cells.take k = b.cells.take k) := by
  unfold realloc at h
  split at h
  · rename_i hc
    cases h
    exact ⟨rfl, rfl, rfl, rfl, rfl, hc.2, fun _ _ _ => rfl⟩
  · split at h
    · cases h
    · dsimp only at h
      have hge := LBuf.roundUp_ge needed (if force then 1 else b.step)
      generalize roundUp needed (if force then 1 else b.step) = n at h hge
      split at h
      · cases h
      · cases h
        refine ⟨rfl, rfl, rfl, rfl, rfl, ?_, ?_⟩
        · rw [resize_length]; exact hge
        · intro k h1 h2
          exact resize_take _ _ _ _ (Nat.le_trans h1 hge) h2

theorem count_eq {b : Buf} (I : Inv b) : count b = (items b).length := by
  have := I.le
  unfold count items
  cases b.mode <;> simp [pfxCells]
  · omega
  · split <;> omega

theorem create_inv {mode size st limit fresh p b} (h : create mode size st limit fresh p = .ok b) :
    Inv b ∧ b.mode = mode ∧ items b = [] ∧ b.used = 0 := by
  unfold create at h
  split at h
  · cases h
  · cases h
  · dsimp only at h
    split at h
    · cases h
    · rename_i b' hb
      obtain ⟨e1, e2, e3, e4, e5, e6, -⟩ := realloc_ok hb
      dsimp only at e1 e3
      cases mode
      · cases h
        exact ⟨⟨by omega, by rw [e1]; intro h; cases h⟩, e1, by simp [items, e3], e3⟩
      · cases h
        refine ⟨⟨?_, ?_⟩, e1, by simp [items, e3], e3⟩
        · dsimp only; omega
        · intro _
          have : 0 < b'.cells.length := by simp only [pfxCells] at e6; omega
          exact ⟨_, by simp [this]; rfl, rfl⟩

theorem startIdx_pos {b : Buf} (hm : b.mode = .prefixed) : 0 < startIdx b := by
  unfold startIdx
  rw [hm]
  simp only [pfxCells]
  split <;> omega

theorem startIdx_ge (b : Buf) : pfxCells b.mode ≤ startIdx b := by
  unfold startIdx
  split
  · omega
  · cases b.mode <;> simp only [pfxCells] <;> omega

/-- Clearing the mark on release does not touch anything else. -/
theorem releaseAt_eq (b : Buf) (q : Nat) (rw' : Bool) : ∃ ms mp, releaseAt b q rw' =
    { b with markSet := ms, markPos := mp, used := if rw' then q + pfxCells b.mode else b.used } := by
  unfold releaseAt
  by_cases h : b.markSet = true ∧ q ≤ b.markPos
  · simp only [h, and_self, if_true]
    refine ⟨false, 0, ?_⟩
    cases rw' <;> simp
  · simp only [h, if_false]
    refine ⟨b.markSet, b.markPos, ?_⟩
    cases rw' <;> simp

/-- Appending at the end. -/
theorem add_spec {b b' : Buf} {d mem fresh r} (I : Inv b) (h : add b d mem fresh = (b', r)) :
    Inv b' ∧ b'.mode = b.mode ∧
      ((∃ e, r = .err e ∧ b' = b) ∨ (r = .pos (items b).length ∧ items b' = items b ++ [d])) := by
  unfold add at h
  split at h
  · cases h; exact ⟨I, rfl, .inl ⟨_, rfl, rfl⟩⟩
  · split at h
    · cases h; exact ⟨I, rfl, .inl ⟨_, rfl, rfl⟩⟩
    · rename_i b1 hb1
      obtain ⟨e1, e2, e3, e4, e5, e6, e7⟩ := realloc_ok hb1
      have hi : startIdx b < b1.cells.length := by omega
      have key : Inv { b1 with cells := putItem b1.cells (startIdx b) d, used := startIdx b + 1 } ∧
          items { b1 with cells := putItem b1.cells (startIdx b) d, used := startIdx b + 1 } = items b ++ [d] := by
        have hle := I.le
        refine ⟨⟨by simp [putItem]; omega, ?_⟩, ?_⟩
        · intro hm
          dsimp only at hm ⊢
          rw [e1] at hm
          obtain ⟨p, hp, hl⟩ := I.pfx hm
          have hc0 : 0 < b.cells.length := by
            rcases Nat.eq_zero_or_pos b.cells.length with h0 | h0
            · rw [List.length_eq_zero_iff] at h0; rw [h0] at hp; cases hp
            · exact h0
          have hsi : 0 < startIdx b := startIdx_pos hm
          refine ⟨p, ?_, hl⟩
          unfold putItem
          rw [List.getElem?_set_ne (by omega)]
          rw [getElem?_zero_of_take (e7 1 (by omega) (by omega)) (by omega)]
          exact hp
        · unfold items putItem
          dsimp only
          rw [e1]
          have ht : (b1.cells.set (startIdx b) (some d)).take (startIdx b + 1) = b1.cells.take (startIdx b) ++ [some d] := by
            rw [List.take_set, List.take_add_one, List.getElem?_eq_getElem hi]
            simp only [Option.toList_some]
            rw [List.set_append_right _ _ (by simp; omega)]
            simp [Nat.min_eq_left (Nat.le_of_lt hi)]
          rw [ht]
          have hlen : (b1.cells.take (startIdx b)).length = startIdx b := by simp; omega
          have hpf := startIdx_ge b
          rw [List.drop_append_of_le_length (by omega), List.map_append]
          simp only [List.map_cons, List.map_nil, cellBytes, Option.getD_some]
          congr 1
          by_cases hu : b.used = 0
          · have h1 : ((b1.cells.take (startIdx b)).drop (pfxCells b.mode)) = [] :=
              List.drop_eq_nil_of_le (by simp [startIdx, hu]; omega)
            rw [h1]
            simp [hu]
          · simp only [startIdx, hu, if_false] at e7 ⊢
            rw [e7 b.used (by omega) hle]
      rw [count_eq I] at h
      unfold setMark at h
      cases mem
      · simp at h
        obtain ⟨rfl, rfl⟩ := h
        exact ⟨key.1, e1, .inr ⟨rfl, key.2⟩⟩
      · simp at h
        obtain ⟨rfl, rfl⟩ := h
        exact ⟨⟨key.1.le, key.1.pfx⟩, e1, .inr ⟨rfl, key.2⟩⟩

theorem putEmpty_length (cells : List Cell) (i n : Nat) : (putEmpty cells i n).length = cells.length := by
  induction n generalizing cells with
  | zero => rfl
  | succ n ih => rw [putEmpty, ih, List.length_set]

theorem putEmpty_take (cells : List Cell) (i n : Nat) (h : n ≤ cells.length) :
    (putEmpty cells i n).take n = List.replicate n none ∧ (putEmpty cells i n).drop n = cells.drop n := by
  induction n generalizing cells with
  | zero => simp [putEmpty]
  | succ n ih =>
    obtain ⟨h1, h2⟩ := ih (cells.set n none) (by simp; omega)
    rw [putEmpty]
    have hl : (putEmpty (cells.set n none) i n).length = cells.length := by rw [putEmpty_length, List.length_set]
    have hd : ∀ j, n ≤ j → (putEmpty (cells.set n none) i n)[j]? = (cells.set n none)[j]? := by
      intro j hj
      have := congrArg (fun l : List Cell => l[j - n]?) h2
      simp only [List.getElem?_drop] at this
      rwa [show n + (j - n) = j by omega] at this
    constructor
    · rw [List.take_add_one, h1, hd n (Nat.le_refl _), List.getElem?_set_self (by omega)]
      simp [List.replicate_succ']
    · apply List.ext_getElem?
      intro j
      rw [List.getElem?_drop, List.getElem?_drop, hd _ (by omega), List.getElem?_set_ne (by omega)]

/-- Zero-filled adds: nothing, or the first items of a plain buffer. -/
theorem addEmpty_spec {b b' : Buf} {n mem fresh r} (I : Inv b) (g : n = 0 ∨ (b.mode = .plain ∧ items b = []))
    (h : addEmpty b n mem fresh = (b', r)) :
    Inv b' ∧ b'.mode = b.mode ∧
      ((∃ e, r = .err e ∧ b' = b) ∨ (r = .pos (items b).length ∧ items b' = items b ++ List.replicate n [])) := by
  unfold addEmpty at h
  split at h
  · cases h; exact ⟨I, rfl, .inl ⟨_, rfl, rfl⟩⟩
  · split at h
    · cases h; exact ⟨I, rfl, .inl ⟨_, rfl, rfl⟩⟩
    · rename_i b1 hb1
      obtain ⟨e1, e2, e3, e4, e5, e6, e7⟩ := realloc_ok hb1
      have hle := I.le
      have key : Inv { b1 with cells := putEmpty b1.cells (startIdx b) n, used := startIdx b + n } ∧
          items { b1 with cells := putEmpty b1.cells (startIdx b) n, used := startIdx b + n }
            = items b ++ List.replicate n [] := by
        rcases g with rfl | ⟨hm, hi⟩
        · simp only [putEmpty, Nat.add_zero, List.replicate_zero, List.append_nil]
          refine ⟨⟨by dsimp only; omega, ?_⟩, ?_⟩
          · intro hm
            dsimp only at hm ⊢
            rw [e1] at hm
            obtain ⟨p, hp, hl⟩ := I.pfx hm
            have hc0 : 0 < b.cells.length := by
              rcases Nat.eq_zero_or_pos b.cells.length with h0 | h0
              · rw [List.length_eq_zero_iff] at h0; rw [h0] at hp; cases hp
              · exact h0
            have hsi : 0 < startIdx b := startIdx_pos hm
            refine ⟨p, ?_, hl⟩
            rw [getElem?_zero_of_take (e7 1 (by omega) (by omega)) (by omega)]
            exact hp
          · unfold items
            dsimp only
            rw [e1]
            by_cases hu : b.used = 0
            · have h1 : ((b1.cells.take (startIdx b)).drop (pfxCells b.mode)) = [] :=
                List.drop_eq_nil_of_le (by simp [startIdx, hu]; omega)
              rw [h1]
              simp [hu]
            · simp only [startIdx, hu, if_false] at e7 ⊢
              rw [e7 b.used (by omega) hle]
        · have hu : b.used = 0 := by
            have := congrArg List.length hi
            simp [items, hm, pfxCells] at this
            rcases this with h | h
            · exact h
            · rw [h] at hle; simpa using hle
          have hs : startIdx b = 0 := by simp [startIdx, hu, hm, pfxCells]
          rw [hs, Nat.zero_add] at *
          obtain ⟨p1, p2⟩ := putEmpty_take b1.cells 0 n (by omega)
          refine ⟨⟨by dsimp only; rw [putEmpty_length]; omega, by dsimp only; rw [e1, hm]; intro h; cases h⟩, ?_⟩
          rw [hi]
          unfold items
          dsimp only
          rw [e1, hm, p1]
          simp [pfxCells, cellBytes]
      rw [count_eq I] at h
      unfold setMark at h
      cases mem
      · simp at h
        obtain ⟨rfl, rfl⟩ := h
        exact ⟨key.1, e1, .inr ⟨rfl, key.2⟩⟩
      · simp at h
        obtain ⟨rfl, rfl⟩ := h
        exact ⟨⟨key.1.le, key.1.pfx⟩, e1, .inr ⟨rfl, key.2⟩⟩

theorem release_spec {b b' : Buf} {p rel rw' r} (I : Inv b) (h : release b p rel rw' = (b', r)) :
    Inv b' ∧ b'.mode = b.mode ∧
      items b' = Spec.VBuf.effect (items b) (.release p rel rw') r := by
  unfold release at h
  dsimp only at h
  rw [count_eq I] at h
  split at h
  · rename_i h0
    simp only [Prod.mk.injEq] at h
    obtain ⟨rfl, rfl⟩ := h
    refine ⟨I, rfl, ?_⟩
    rw [List.length_eq_zero_iff] at h0
    rw [h0]
    split <;> cases rw' <;> simp [Spec.VBuf.effect]
  · split at h
    · cases h
      exact ⟨I, rfl, by cases rw' <;> rfl⟩
    · rename_i h0 hp
      simp only [Prod.mk.injEq] at h
      obtain ⟨rfl, rfl⟩ := h
      have hle := I.le
      have hlen : (items b).length ≠ 0 ∧ (items b).length + pfxCells b.mode = b.used := by
        refine ⟨h0, ?_⟩
        simp [items] at h0 ⊢
        omega
      cases rw'
      · obtain ⟨ms, mp, h1⟩ := releaseAt_eq b (if rel then (items b).length - p else p) false
        rw [h1]
        exact ⟨⟨I.le, I.pfx⟩, rfl, rfl⟩
      · have main : ∀ q, q ≤ (items b).length →
            Inv (releaseAt b q true) ∧ (releaseAt b q true).mode = b.mode ∧ items (releaseAt b q true) = (items b).take q := by
          intro q hq
          obtain ⟨ms, mp, h1⟩ := releaseAt_eq b q true
          rw [h1]
          refine ⟨⟨by simp only [if_true]; omega, I.pfx⟩, rfl, ?_⟩
          unfold items
          simp only [if_true]
          rw [← List.map_take]
          congr 1
          apply List.ext_getElem?
          intro j
          simp only [List.getElem?_drop, List.getElem?_take]
          by_cases hj : j < q
          · rw [if_pos (by omega), if_pos hj, if_pos (by omega)]
          · rw [if_neg (by omega), if_neg hj]
        simp only [Spec.VBuf.effect]
        cases rel
        · exact main p (by omega)
        · exact main ((items b).length - p) (by omega)

theorem reset_spec {b : Buf} {fresh} (I : Inv b) :
    Inv (reset b fresh).1 ∧ (reset b fresh).1.mode = b.mode ∧ items (reset b fresh).1 = [] := by
  unfold reset
  dsimp only
  split
  · exact ⟨⟨Nat.zero_le _, I.pfx⟩, rfl, by simp [items]⟩
  · rename_i b1 hb1
    obtain ⟨e1, e2, e3, e4, e5, e6, e7⟩ := realloc_ok hb1
    dsimp only at e1 e3 e6 e7
    refine ⟨⟨by dsimp only; omega, ?_⟩, e1, by simp [items, e3]⟩
    intro hm
    dsimp only at hm
    rw [e1] at hm
    obtain ⟨p, hp, hl⟩ := I.pfx hm
    have hc0 : 0 < b.cells.length := by
      rcases Nat.eq_zero_or_pos b.cells.length with h0 | h0
      · rw [List.length_eq_zero_iff] at h0; rw [h0] at hp; cases hp
      · exact h0
    refine ⟨p, ?_, hl⟩
    rw [hm] at e7
    rw [getElem?_zero_of_take (e7 1 (by simp [pfxCells]) (by omega)) (by omega)]
    exact hp

theorem getData_spec {b : Buf} (I : Inv b) (p : Nat) :
    Inv (getData b p).1 ∧ (getData b p).1.mode = b.mode ∧ items (getData b p).1 = items b ∧
      (p ≤ (items b).length → b.mode = .prefixed ∨ p = 0 → (getData b p).2 = .items ((items b).drop p)) ∧
      ((items b).length < p → (getData b p).2 = .err .ERANGE) ∧ (getData b p).2 ≠ .done := by
  unfold getData
  rw [count_eq I]
  split
  · exact ⟨I, rfl, rfl, by omega, fun _ => rfl, by simp⟩
  · rename_i hp
    dsimp only
    have h1 : ∀ P : Prop, ∀ [Decidable P], ∀ c : Buf, c = (if P then { b with markSet := true, markPos := p } else b) →
        Inv c ∧ c.mode = b.mode ∧ items c = items b := by
      intro P _ c hc
      split at hc <;> subst hc
      · exact ⟨⟨I.le, I.pfx⟩, rfl, rfl⟩
      · exact ⟨I, rfl, rfl⟩
    obtain ⟨a1, a2, a3⟩ := h1 (¬ b.markSet ∨ p < (if b.markSet then 1 else 0)) _ rfl
    split
    · rename_i hm
      split
      · rename_i h0
        refine ⟨a1, a2, a3, ?_, by omega, by simp⟩
        intro _ _
        simp [items, hm, pfxCells, h0]
      · rename_i h0
        refine ⟨a1, a2, a3, ?_, by omega, by simp⟩
        intro _ h
        rcases h with h | h
        · rw [hm] at h; cases h
        · exact absurd h h0
    · rename_i hm
      refine ⟨a1, a2, a3, ?_, by omega, by simp⟩
      intro _ _
      dsimp only
      congr 1
      unfold items
      rw [hm, ← List.map_drop, List.drop_drop]
      simp [pfxCells, Nat.add_comm]

/-- Guard under which zero-filled adds are harmless: none or into an empty plain buffer. -/
def OkHist (mode : Mode) (hist : List (Op × Ret)) : Prop :=
  ∀ pre n m r post, hist = pre ++ (Op.addEmpty n m, r) :: post → n = 0 ∨ (mode = .plain ∧ Spec.VBuf.content pre = [])

theorem content_snoc (hist : List (Op × Ret)) (e : Op × Ret) :
    Spec.VBuf.content (hist ++ [e]) = Spec.VBuf.effect (Spec.VBuf.content hist) e.1 e.2 := by
  simp [Spec.VBuf.content, List.foldl_append]

theorem reach_spec {mode hist b} (R : Reach mode hist b) : OkHist mode hist →
    Inv b ∧ b.mode = mode ∧ items b = Spec.VBuf.content hist := by
  induction R with
  | create h =>
    intro _
    obtain ⟨h1, h2, h3, -⟩ := create_inv h
    exact ⟨h1, h2, h3⟩
  | @call hist b op fresh b' r R hst ih =>
    intro G
    have hb1 : b' = (step b op fresh).1 := by rw [hst]
    have hr1 : r = (step b op fresh).2 := by rw [hst]
    subst hb1 hr1
    have G' : OkHist mode hist := by
      intro pre n m r post h
      exact G pre n m r (post ++ [(op, (step b op fresh).2)]) (by rw [h]; simp)
    obtain ⟨I, hm, hi⟩ := ih G'
    rw [content_snoc, ← hi]
    cases op with
    | add d m =>
      simp only [step]
      obtain ⟨a1, a2, a3⟩ := add_spec I (b' := (add b d m fresh).1) (r := (add b d m fresh).2) (fresh := fresh) rfl
      rw [hm] at a2
      rcases a3 with ⟨e, h1, h2⟩ | ⟨h1, h2⟩
      · exact ⟨a1, a2, by rw [h1, h2]; rfl⟩
      · exact ⟨a1, a2, by rw [h1, h2]; rfl⟩
    | addEmpty n m =>
      simp only [step]
      have g := G hist n m _ [] rfl
      obtain ⟨a1, a2, a3⟩ := addEmpty_spec I (b' := (addEmpty b n m fresh).1) (r := (addEmpty b n m fresh).2)
        (fresh := fresh) (by rw [hm, hi]; exact g) rfl
      rw [hm] at a2
      rcases a3 with ⟨e, h1, h2⟩ | ⟨h1, h2⟩
      · exact ⟨a1, a2, by rw [h1, h2]; rfl⟩
      · exact ⟨a1, a2, by rw [h1, h2]; rfl⟩
    | release p rel rw' =>
      simp only [step]
      obtain ⟨a1, a2, a3⟩ := release_spec I (b' := (release b p rel rw').1) (r := (release b p rel rw').2) rfl
      exact ⟨a1, a2.trans hm, a3⟩
    | getData p =>
      simp only [step]
      obtain ⟨a1, a2, a3, -, -, a4⟩ := getData_spec I p
      refine ⟨a1, a2.trans hm, ?_⟩
      rw [a3]
      cases (getData b p).2 <;> rfl
    | reset =>
      simp only [step]
      obtain ⟨a1, a2, a3⟩ := reset_spec (fresh := fresh) I
      exact ⟨a1, a2.trans hm, by rw [a3]; rfl⟩

/-- Running calls from a created buffer, for building concrete reachable states. -/
def run (fresh : Nat → Cell) : List Op → List (Op × Ret) × Buf → List (Op × Ret) × Buf
  | [], s => s
  | op :: ops, (h, b) => run fresh ops (h ++ [(op, (step b op fresh).2)], (step b op fresh).1)

theorem run_reach {mode fresh} (ops : List Op) : ∀ h b, Reach mode h b → Reach mode (run fresh ops (h, b)).1 (run fresh ops (h, b)).2 := by
  induction ops with
  | nil => intro h b R; exact R
  | cons op ops ih => intro h b R; exact ih _ _ (.call R rfl)

/-! ### Writing -/

theorem skip_spec (l : List (List UInt8)) : ∀ off, off ≤ l.flatten.length →
    skip l off = if off = l.flatten.length then .error .ENODATA else .ok (l.flatten.drop off) := by
  induction l with
  | nil => intro off h; simp at h; simp [skip, h]
  | cons c cs ih =>
    intro off h
    simp only [List.flatten_cons, List.length_append] at h ⊢
    unfold skip
    split
    · rename_i hc
      rw [if_neg (by omega), List.drop_append_of_le_length (by omega)]
    · rename_i hc
      rw [ih _ (by omega)]
      by_cases h2 : off = c.length + cs.flatten.length
      · rw [if_pos (by omega), if_pos h2]
      · rw [if_neg (by omega), if_neg h2]
        congr 1
        rw [List.drop_append, List.drop_eq_nil_of_le (show c.length ≤ off by omega)]
        rfl

/-- The list of byte pieces behind the used cells. -/
def pieces (b : Buf) : List (List UInt8) := (b.cells.take b.used).map cellBytes

theorem sum_flatten (l : List Cell) : (l.map (fun c => (cellBytes c).length)).sum = ((l.map cellBytes).flatten).length := by
  simp [List.length_flatten, Function.comp_def]

/-- After the prefix update the pieces are the final wire content. -/
def wire (b : Buf) : List UInt8 :=
  match b.mode with
  | .plain => (items b).flatten
  | .prefixed => if b.used = 0 then [] else frame (items b).flatten

/-- Normal form: the prefix is already up to date. -/
def Clean (b : Buf) : Prop := (pieces b).flatten = wire b

theorem updatePrefix_spec {b : Buf} (I : Inv b) (hu : b.used ≠ 0) :
    ∃ b', updatePrefix b 0 = some b' ∧ Inv b' ∧ b'.used = b.used ∧ b'.mode = b.mode ∧ items b' = items b ∧ Clean b' := by
  cases hm : b.mode
  · refine ⟨b, by simp [updatePrefix, hm], I, rfl, hm, rfl, ?_⟩
    simp [Clean, wire, hm, pieces, items, pfxCells]
  · obtain ⟨p, hp, hl⟩ := I.pfx hm
    have hle := I.le
    rcases b with ⟨mode, sz, st, lim, cells, used, ms, mp⟩
    dsimp only at hm hp hu hle
    subst hm
    match cells, hp with
    | some q :: cs, hp =>
      simp only [List.getElem?_cons_zero, Option.some.injEq] at hp
      subst hp
      obtain ⟨n, rfl⟩ : ∃ n, used = n + 1 := ⟨used - 1, by omega⟩
      simp only [updatePrefix, and_self, if_true]
      refine ⟨_, rfl, ⟨by simpa using hle, fun _ => ⟨_, rfl, rfl⟩⟩, rfl, rfl, ?_, ?_⟩
      · simp [items, pfxCells]
      · unfold Clean wire pieces items
        simp only [Nat.add_eq_zero_iff, Nat.reduceEqDiff, and_false, if_false, pfxCells, List.take_succ_cons,
          List.map_cons, List.sum_cons, List.flatten_cons, cellBytes, Option.getD_some, hl, List.drop_succ_cons, List.drop_zero]
        unfold frame
        have : (List.map (fun c : Cell => (c.getD []).length) (List.take n cs)).sum
            = ((List.take n cs).map cellBytes).flatten.length := sum_flatten _
        rw [this, Nat.add_comm 4]
        rfl

theorem offer_clean {b : Buf} (C : Clean b) (hu : b.used ≠ 0) {pos : Nat} (hp : 0 < pos) (hle : pos ≤ (wire b).length) :
    offer b pos = some (b, if pos = (wire b).length then .error .ENODATA else .ok ((wire b).drop pos)) := by
  unfold offer
  have h1 := skip_spec (pieces b) pos (by rw [C]; exact hle)
  rw [C] at h1
  have hpos : ¬ pos = 0 := by omega
  simp only [hpos, if_false]
  show (match skip (pieces b) pos with
    | Except.error e => some (b, Except.error e)
    | Except.ok _ => _) = _
  rw [h1]
  by_cases he : pos = (wire b).length
  · simp [he]
  · simp only [he, if_false, updatePrefix, hpos, false_and]
    show some (b, skip (pieces b) pos) = _
    rw [h1]; simp [he]

theorem offer_zero {b : Buf} (I : Inv b) (hu : b.used ≠ 0) :
    ∃ b', offer b 0 = some (b', .ok (wire b)) ∧ Inv b' ∧ b'.used = b.used ∧ Clean b' ∧ wire b' = wire b := by
  obtain ⟨b', h1, h2, h3, h4, h5, h6⟩ := updatePrefix_spec I hu
  have hw : wire b' = wire b := by unfold wire; rw [h3, h4, h5]
  refine ⟨b', ?_, h2, h3, h6, hw⟩
  have hne : pieces b ≠ [] := by
    intro h0
    have := congrArg List.length h0
    have hle := I.le
    simp [pieces] at this
    rcases this with h | h
    · exact hu h
    · rw [h] at hle; simp at hle; exact hu hle
  unfold offer
  simp only [if_true]
  show (match (if pieces b = [] then Except.error Errno.ENODATA else Except.ok (pieces b).flatten) with
    | Except.error e => _
    | Except.ok _ => _) = _
  rw [if_neg hne, h1]
  show some (b', Except.ok (pieces b').flatten) = _
  rw [h6, hw]

theorem writeAll_spec (evs : List IoEv) : ∀ (b : Buf) (pos : Nat) (out : List UInt8), Inv b → (pos ≠ 0 → Clean b) →
    (pos ≠ 0 → b.used ≠ 0) → pos ≤ (wire b).length → out = (wire b).take pos →
    ∃ o, writeAll b pos out evs = some o ∧
    (∀ x, o = .done x → IoEv.fail .ENODATA ∉ evs → x = wire b) ∧
    (∀ e x, o = .failed e x → IoEv.fail e ∈ evs ∧ e ≠ .EAGAIN ∧ e ≠ .EINTR ∧ x <+: wire b) ∧
    (∀ x, o = .pending x → x <+: wire b) := by
  induction evs with
  | nil =>
    intro b pos out I hC hU hle ho
    unfold writeAll
    by_cases hu : b.used = 0
    · have hpos : pos = 0 := by
        by_cases h : pos = 0
        · exact h
        · exact absurd hu (hU h)
      subst hpos
      have : offer b 0 = some (b, .error .ENODATA) := by simp [offer, hu]
      have hw : wire b = [] := by unfold wire items; cases b.mode <;> simp [hu]
      rw [this]
      refine ⟨_, rfl, ?_, by simp, by simp⟩
      intro x hx _
      simp at hx; rw [← hx, ho, hw]; rfl
    · by_cases hpos : pos = 0
      · subst hpos
        obtain ⟨b', h1, -⟩ := offer_zero I hu
        rw [h1]
        refine ⟨_, rfl, by simp, by simp, ?_⟩
        intro x hx; cases hx; rw [ho]; exact List.take_prefix _ _
      · rw [offer_clean (hC hpos) hu (by omega) hle]
        by_cases he : pos = (wire b).length
        · simp only [he, if_true]
          refine ⟨_, rfl, ?_, by simp, by simp⟩
          intro x hx _
          cases hx
          rw [ho, he, List.take_length]
        · simp only [he, if_false]
          refine ⟨_, rfl, by simp, by simp, ?_⟩
          intro x hx; cases hx; rw [ho]; exact List.take_prefix _ _
  | cons ev es ih =>
    intro b pos out I hC hU hle ho
    by_cases hu : b.used = 0
    · have hpos : pos = 0 := by
        by_cases h : pos = 0
        · exact h
        · exact absurd hu (hU h)
      subst hpos
      have : offer b 0 = some (b, .error .ENODATA) := by simp [offer, hu]
      have hw : wire b = [] := by unfold wire items; cases b.mode <;> simp [hu]
      simp only [writeAll, this]
      refine ⟨_, rfl, ?_, by simp, by simp⟩
      intro x hx _
      simp at hx; rw [← hx, ho, hw]; rfl
    · -- common continuation
      have cont : ∀ b' bs, Inv b' → Clean b' → b'.used ≠ 0 → wire b' = wire b → bs = (wire b).drop pos →
          offer b pos = some (b', .ok bs) →
          ∃ o, writeAll b pos out (ev :: es) = some o ∧
            (∀ x, o = .done x → IoEv.fail .ENODATA ∉ ev :: es → x = wire b) ∧
            (∀ e x, o = .failed e x → IoEv.fail e ∈ ev :: es ∧ e ≠ .EAGAIN ∧ e ≠ .EINTR ∧ x <+: wire b) ∧
            (∀ x, o = .pending x → x <+: wire b) := by
        intro b' bs I' C' hu' hw hbs hoff
        cases ev with
        | fail e =>
          simp only [writeAll, hoff]
          by_cases h1 : e = .ENODATA
          · rw [if_pos h1]
            exact ⟨_, rfl, fun x _ hn => absurd (by rw [h1]; simp) hn, by simp, by simp⟩
          · rw [if_neg h1]
            by_cases h2 : e = .EAGAIN ∨ e = .EINTR
            · rw [if_pos h2]
              obtain ⟨o, o1, o2, o3, o4⟩ := ih b' pos out I' (fun _ => C') (fun _ => hu') (by rw [hw]; exact hle) (by rw [hw]; exact ho)
              rw [hw] at *
              exact ⟨o, o1, fun x hx hn => o2 x hx (fun h => hn (List.mem_cons_of_mem _ h)),
                fun e x hx => ⟨List.mem_cons_of_mem _ (o3 e x hx).1, (o3 e x hx).2⟩, o4⟩
            · rw [if_neg h2]
              refine ⟨_, rfl, by simp, ?_, by simp⟩
              intro e' x hx
              cases hx
              exact ⟨by simp, fun hc => h2 (.inl hc), fun hc => h2 (.inr hc), by rw [ho]; exact List.take_prefix _ _⟩
        | xfer k =>
          simp only [writeAll, hoff]
          have hlen : (bs.take k).length = min k ((wire b).length - pos) := by rw [hbs]; simp
          obtain ⟨o, o1, o2, o3, o4⟩ := ih b' (pos + (bs.take k).length) (out ++ bs.take k) I' (fun _ => C') (fun _ => hu')
            (by rw [hw, hlen]; omega)
            (by rw [hw, ho, hlen, hbs, List.take_add]; congr 1
                rw [List.take_eq_take_iff]; simp)
          rw [hw] at *
          exact ⟨o, o1, fun x hx hn => o2 x hx (fun h => hn (List.mem_cons_of_mem _ h)),
            fun e x hx => ⟨List.mem_cons_of_mem _ (o3 e x hx).1, (o3 e x hx).2⟩, o4⟩
      by_cases hpos : pos = 0
      · subst hpos
        obtain ⟨b', h1, h2, h3, h4, h5⟩ := offer_zero I hu
        exact cont b' (wire b) h2 h4 (by rw [h3]; exact hu) h5 (by simp) h1
      · have h1 := offer_clean (hC hpos) hu (by omega) hle
        by_cases he : pos = (wire b).length
        · simp only [writeAll, h1]
          simp only [he, if_true]
          refine ⟨_, rfl, ?_, by simp, by simp⟩
          intro x hx _
          cases hx
          rw [ho, he, List.take_length]
        · simp only [he, if_false] at h1
          exact cont b _ I (hC hpos) hu rfl rfl h1

end Sid.VBuf
