import Verif.Model.Ifc
import Verif.Spec.Ifc
import Verif.Proof.BufIo
/-
Lemmas about the client library and the base utilities.
-/
namespace Sid.Util
open Sid.Spec.Client
open Sid.LBuf (IoEv Stream sysRead)

theorem digitsVal_append (l : Str) (c : UInt8) : digitsVal (l ++ [c]) = digitsVal l * 10 + (c.toNat - 48) := by
  simp [digitsVal, List.foldl_append]

theorem digit_ok (d : Nat) (h : d < 10) : (UInt8.ofNat (48 + d)).toNat = 48 + d := by
  simp [UInt8.toNat_ofNat']; omega

theorem isDigit_ofNat (d : Nat) (h : d < 10) : isDigit (UInt8.ofNat (48 + d)) = true := by
  have := digit_ok d h
  simp only [isDigit, Bool.and_eq_true, decide_eq_true_eq, UInt8.le_iff_toNat_le, this]
  exact ⟨by simp, by simp; omega⟩

theorem decimal_spec (n : Nat) : decimal n ≠ [] ∧ (∀ c ∈ decimal n, isDigit c = true) ∧ digitsVal (decimal n) = n := by
  induction n using Nat.strongRecOn with
  | ind n ih =>
    rw [decimal]
    split
    · rename_i h
      refine ⟨by simp, by simpa using isDigit_ofNat n h, ?_⟩
      simp [digitsVal]; omega
    · rename_i h
      obtain ⟨h1, h2, h3⟩ := ih (n / 10) (by omega)
      refine ⟨by simp, ?_, ?_⟩
      · intro c hc
        rcases List.mem_append.mp hc with hc | hc
        · exact h2 c hc
        · simp only [List.mem_singleton] at hc
          rw [hc]; exact isDigit_ofNat _ (by omega)
      · rw [digitsVal_append, h3, digit_ok _ (by omega)]
        omega

theorem isSpace_of_isDigit {c : UInt8} (h : isDigit c = true) : isSpace c = false := by
  simp only [isDigit, Bool.and_eq_true, decide_eq_true_eq, UInt8.le_iff_toNat_le, UInt8.reduceToNat] at h
  rw [Bool.eq_false_iff]
  simp only [isSpace, ne_eq, Bool.or_eq_true, beq_iff_eq, Bool.and_eq_true, decide_eq_true_eq, UInt8.le_iff_toNat_le,
    ← UInt8.toNat_inj, UInt8.reduceToNat]
  omega

theorem takeSign_digit {c : UInt8} {l : Str} (h : isDigit c = true) : takeSign (c :: l) = (false, c :: l) := by
  simp only [isDigit, Bool.and_eq_true, decide_eq_true_eq, UInt8.le_iff_toNat_le, UInt8.reduceToNat] at h
  unfold takeSign
  split
  · rename_i heq
    simp only [List.cons.injEq] at heq
    rw [heq.1] at h; simp at h
  · rename_i heq
    simp only [List.cons.injEq] at heq
    rw [heq.1] at h; simp at h
  · rfl

theorem takeWhile_all {α} {p : α → Bool} {l : List α} (h : ∀ a ∈ l, p a = true) : l.takeWhile p = l ∧ l.dropWhile p = [] := by
  induction l with
  | nil => exact ⟨rfl, rfl⟩
  | cons a l ih =>
    obtain ⟨h1, h2⟩ := ih fun b hb => h b (by simp [hb])
    simp [h a (by simp), h1, h2]

/-- digits only -/
theorem strtoull_digits {s : Str} (h0 : s ≠ []) (h : ∀ c ∈ s, isDigit c = true) :
    strtoull s = if digitsVal s ≥ 2 ^ 64 then (2 ^ 64 - 1, true, []) else (digitsVal s, false, []) := by
  cases s with
  | nil => exact absurd rfl h0
  | cons c l =>
    have hc := h c (by simp)
    obtain ⟨h1, h2⟩ := takeWhile_all h
    have hd : (c :: l).dropWhile isSpace = c :: l := by simp [List.dropWhile_cons, isSpace_of_isDigit hc]
    unfold strtoull
    simp only [hd, takeSign_digit hc, h1, h2, h0, if_false]
    split <;> simp

theorem strtoull_decimal (n : Nat) (h : n < 2 ^ 64) : strtoull (decimal n) = (n, false, []) := by
  obtain ⟨h1, h2, h3⟩ := decimal_spec n
  rw [strtoull_digits h1 h2, h3, if_neg (by omega)]

theorem strPrefix_isPrefixOf (a b : Str) : strPrefix a b = a.isPrefixOf b := by
  induction a generalizing b with
  | nil => simp [strPrefix]
  | cons x a ih =>
    cases b with
    | nil => rfl
    | cons y b => simp [strPrefix, List.isPrefixOf, ih]

theorem getenv_eq (env : List Str) (k : Str) : getenv env k = valueOf env k := by
  induction env with
  | nil => rfl
  | cons e l ih =>
    simp only [getenv, valueOf, List.findSome?_cons, strPrefix_isPrefixOf]
    split
    · rename_i h; simp
    · rename_i h; simpa [valueOf] using ih

theorem envGetUll_decimal {env : List Str} {key : Str} {min max n : Nat} (h : valueOf env key = some (decimal n))
    (hn : n < 2 ^ 64) :
    envGetUll env key min max = if min ≠ max ∧ (n < min ∨ n > max) then .error .ERANGE else .ok n := by
  simp [envGetUll, getenv_eq, h, strtoull_decimal n hn]

/-! ### complete reads -/

theorem sysRead_ok {s : Stream} {req : Nat} {ev : IoEv} {bs : List UInt8} (h : sysRead s req ev = .ok bs) :
    bs = s.data.take bs.length ∧ bs.length ≤ req ∧ bs.length ≤ s.data.length ∧
      (bs = [] → req ≠ 0 → s.data = [] ∧ s.closed = true) := by
  cases ev with
  | fail e => simp [sysRead] at h
  | xfer k =>
    simp only [sysRead] at h
    split at h
    · rename_i h0
      simp only [Except.ok.injEq] at h; subst h
      exact ⟨by simp, by simp, by simp, fun _ hr => absurd h0 hr⟩
    · split at h
      · rename_i hd
        split at h
        · rename_i hc
          simp only [Except.ok.injEq] at h; subst h
          exact ⟨by simp, by simp, by simp, fun _ _ => ⟨hd, hc⟩⟩
        · simp at h
      · rename_i h0 hd
        simp only [Except.ok.injEq] at h; subst h
        have hd' : 0 < s.data.length := List.length_pos_iff.mpr hd
        refine ⟨by simp [List.take_take, List.length_take], ?_, ?_, ?_⟩
        · simp only [List.length_take]; omega
        · simp only [List.length_take]; omega
        · intro h; have := congrArg List.length h; simp only [List.length_take, List.length_nil] at this; omega

theorem sysRead_error {s : Stream} {req : Nat} {ev : IoEv} {e : Errno} (h : sysRead s req ev = .error e) :
    ev = .fail e ∨ (e = .EAGAIN ∧ s.data = []) := by
  cases ev with
  | fail e' => simp only [sysRead, Except.error.injEq] at h; exact .inl (by rw [h])
  | xfer k =>
    simp only [sysRead] at h
    split at h
    · simp at h
    · split at h
      · split at h
        · simp at h
        · simp only [Except.error.injEq] at h; exact .inr ⟨h.symm, by assumption⟩
      · simp at h

theorem readAll_spec (evs : List IoEv) : ∀ (s : Stream) (len : Nat) (got : List UInt8),
    (∀ bs s', readAll s len got evs = .done bs s' →
      ∃ k, k ≤ len ∧ bs = got ++ s.data.take k ∧ k ≤ s.data.length ∧ s' = ⟨s.data.drop k, s.closed⟩ ∧
        (k < len → s.closed = true ∧ s'.data = [])) ∧
    (∀ e, readAll s len got evs = .failed e → IoEv.fail e ∈ evs ∧ e ≠ .EINTR ∧ e ≠ .EAGAIN) ∧
    (∀ bs s', readAll s len got evs = .pending bs s' →
      ∃ k, k < len ∧ k ≤ s.data.length ∧ bs = got ++ s.data.take k ∧ s' = ⟨s.data.drop k, s.closed⟩) := by
  induction evs with
  | nil =>
    intro s len got
    simp only [readAll]
    refine ⟨?_, ?_, ?_⟩
    · intro bs s' h
      split at h
      · simp only [RdOut.done.injEq] at h
        obtain ⟨rfl, rfl⟩ := h
        exact ⟨0, by omega, by simp, by simp, by simp, by omega⟩
      · simp at h
    · intro e h; split at h <;> simp at h
    · intro bs s' h
      split at h
      · simp at h
      · simp only [RdOut.pending.injEq] at h
        obtain ⟨rfl, rfl⟩ := h
        exact ⟨0, by omega, by simp, by simp, by simp⟩
  | cons ev es ih =>
    intro s len got
    simp only [readAll]
    by_cases hl : len = 0
    · simp only [hl, if_true]
      refine ⟨?_, by simp, by simp⟩
      intro bs s' h
      simp only [RdOut.done.injEq] at h
      obtain ⟨rfl, rfl⟩ := h
      exact ⟨0, by omega, by simp, by simp, by simp, by omega⟩
    · simp only [hl, if_false]
      cases hr : sysRead s len ev with
      | error e =>
        simp only
        by_cases he : e = .EINTR ∨ e = .EAGAIN
        · simp only [he, if_true]
          obtain ⟨h1, h2, h3⟩ := ih s len got
          exact ⟨h1, fun e h => ⟨List.mem_cons_of_mem _ (h2 e h).1, (h2 e h).2⟩, h3⟩
        · simp only [he, if_false]
          refine ⟨by simp, ?_, by simp⟩
          intro e' h
          simp only [RdOut.failed.injEq] at h
          subst h
          rcases sysRead_error hr with rfl | ⟨rfl, -⟩
          · exact ⟨by simp, fun h => he (.inl h), fun h => he (.inr h)⟩
          · exact absurd (.inr rfl) he
      | ok bs =>
        obtain ⟨g1, g2, g3, g4⟩ := sysRead_ok hr
        simp only
        by_cases hb : bs = []
        · simp only [hb, if_true]
          refine ⟨?_, by simp, by simp⟩
          intro bs' s' h
          simp only [RdOut.done.injEq] at h
          obtain ⟨rfl, rfl⟩ := h
          obtain ⟨hd, hc⟩ := g4 hb hl
          exact ⟨0, by omega, by simp, by simp, by simp, fun _ => ⟨hc, hd⟩⟩
        · simp only [hb, if_false]
          obtain ⟨h1, h2, h3⟩ := ih { s with data := s.data.drop bs.length } (len - bs.length) (got ++ bs)
          refine ⟨?_, fun e h => ⟨List.mem_cons_of_mem _ (h2 e h).1, (h2 e h).2⟩, ?_⟩
          · intro bs' s' h
            obtain ⟨k, k1, k2, k3, k4, k5⟩ := h1 bs' s' h
            simp only [List.length_drop] at k3
            refine ⟨bs.length + k, by omega, ?_, by omega, ?_, ?_⟩
            · rw [k2, List.take_add, List.append_assoc]
              conv => lhs; rw [g1]
              simp [List.length_take, Nat.min_eq_left g3]
            · rw [k4]; simp [List.drop_drop]
            · intro hk
              exact k5 (by omega)
          · intro bs' s' h
            obtain ⟨k, k1, k2, k3, k4⟩ := h3 bs' s' h
            simp only [List.length_drop] at k2
            refine ⟨bs.length + k, by omega, by omega, ?_, ?_⟩
            · rw [k3, List.take_add, List.append_assoc]
              conv => lhs; rw [g1]
              simp [List.length_take, Nat.min_eq_left g3]
            · rw [k4]; simp [List.drop_drop]

/-! ### words -/

theorem isDelim_iff (c : UInt8) : isDelim c = true ↔ c = 32 ∨ c = 9 ∨ c = 10 := by
  simp [isDelim, or_assoc]

theorem words_delims (l : Str) : words (l.dropWhile isDelim) = words l := by
  induction l with
  | nil => rfl
  | cons c l ih =>
    by_cases h : isDelim c = true
    · rw [List.dropWhile_cons, if_pos h, ih]
      simp only [words, wordsAux, (isDelim_iff c).mp h, if_true]
    · rw [List.dropWhile_cons, if_neg h]

theorem wordsAux_word (l cur : Str) (h : cur ≠ [] ∨ ∃ c t, l = c :: t ∧ isDelim c = false) :
    wordsAux cur l = (cur ++ l.takeWhile fun c => !isDelim c) :: words (l.dropWhile fun c => !isDelim c) := by
  induction l generalizing cur with
  | nil =>
    rcases h with h | ⟨c, t, h, -⟩
    · simp [wordsAux, h, words]
    · cases h
  | cons c l ih =>
    by_cases hd : isDelim c = true
    · have hcur : cur ≠ [] := by
        rcases h with h | ⟨c', t, h, hf⟩
        · exact h
        · simp only [List.cons.injEq] at h
          rw [← h.1, hd] at hf; cases hf
      simp only [wordsAux, (isDelim_iff c).mp hd, if_true, hcur, if_false, List.takeWhile_cons, List.dropWhile_cons, hd,
        Bool.not_true, Bool.false_eq_true, List.append_nil]
      congr 1
      simp [words, wordsAux, (isDelim_iff c).mp hd]
    · have hd' : ¬ (c = 32 ∨ c = 9 ∨ c = 10) := fun h => hd ((isDelim_iff c).mpr h)
      simp only [wordsAux, hd', if_false]
      rw [ih (cur ++ [c]) (.inl (by simp))]
      simp only [List.takeWhile_cons, List.dropWhile_cons, hd, Bool.not_false, if_true, List.append_assoc,
        List.singleton_append]

theorem wordMatch_isArg {arg w : Str} (ha : 61 ∉ arg) : (wordMatch arg w).1 = isArg arg w ∧
    (isArg arg w = true → (wordMatch arg w).2 = if w = arg then none else some (w.drop arg.length)) := by
  have hsplit : w.takeWhile (· ≠ 61) ++ w.dropWhile (· ≠ 61) = w := List.takeWhile_append_dropWhile
  have hda : arg.takeWhile (fun c : UInt8 => decide (c ≠ 61)) = arg ∧
      arg.dropWhile (fun c : UInt8 => decide (c ≠ 61)) = [] :=
    takeWhile_all fun a h => by simp; intro h'; exact ha (h' ▸ h)
  have hpre : ∀ v : Str, (arg ++ 61 :: v).takeWhile (· ≠ 61) = arg ∧ (arg ++ 61 :: v).dropWhile (· ≠ 61) = 61 :: v := by
    intro v
    constructor
    · rw [List.takeWhile_append, hda.1]
      simp
    · rw [List.dropWhile_append, hda.2]
      simp
  simp only [wordMatch, isArg]
  by_cases h : w = arg
  · subst h
    rw [hda.1, hda.2]
    simp
  · by_cases hp : (arg ++ [61]).isPrefixOf w = true
    · obtain ⟨v, rfl⟩ := List.isPrefixOf_iff_prefix.mp hp
      obtain ⟨h1, h2⟩ := hpre v
      simp only [List.append_assoc, List.singleton_append] at h hp ⊢
      rw [h1, h2]
      simp
    · have hn : (w.takeWhile (· ≠ 61) == arg) = false := by
        rw [Bool.eq_false_iff, ne_eq, beq_iff_eq]
        intro heq
        cases hdw : w.dropWhile (· ≠ 61) with
        | nil => rw [hdw, heq] at hsplit; simp at hsplit; exact h hsplit.symm
        | cons c v =>
          have hc : c = 61 := by
            have := List.head?_dropWhile_not (fun c : UInt8 => decide (c ≠ 61)) w
            rw [hdw] at this; simpa using this
          apply hp
          rw [List.isPrefixOf_iff_prefix]
          exact ⟨v, by rw [← hsplit, hdw, heq, hc]; simp⟩
      simp only [hn, hp]
      simp [h]

theorem getArgLoop_spec (arg : Str) (want : Bool) (ha : 61 ∉ arg) (line : Str) :
    getArgLoop arg want line =
      (match (words line).find? (isArg arg) with
       | none => .ok none
       | some w => if want then (if w = arg then .error .EINVAL else .ok (some (some (w.drop arg.length)))) else .ok (some none)) := by
  induction hn : line.length using Nat.strongRecOn generalizing line with
  | ind n ih =>
    rw [getArgLoop]
    simp only
    rw [← words_delims line]
    have hlen : (line.dropWhile isDelim).length ≤ line.length := (List.dropWhile_sublist _).length_le
    generalize hl : line.dropWhile isDelim = t at *
    cases t with
    | nil => simp [words, wordsAux]
    | cons c l =>
      have hc : isDelim c = false := by
        have := List.head?_dropWhile_not isDelim line
        rw [hl] at this; simpa using this
      rw [dif_neg (by simp)]
      have hw : words (c :: l) = ((c :: l).takeWhile fun c => !isDelim c) :: words ((c :: l).dropWhile fun c => !isDelim c) := by
        unfold words
        rw [wordsAux_word (c :: l) [] (.inr ⟨c, l, rfl, hc⟩)]
        simp [words]
      rw [hw, List.find?_cons]
      obtain ⟨m1, m2⟩ := wordMatch_isArg (arg := arg) (w := (c :: l).takeWhile fun c => !isDelim c) ha
      rw [m1]
      by_cases hm : isArg arg ((c :: l).takeWhile fun c => !isDelim c) = true
      · simp only [hm, if_true, m2 hm]
        cases want
        · simp
        · simp only [if_true]
          by_cases he : ((c :: l).takeWhile fun c => !isDelim c) = arg
          · simp [he]
          · simp only [he, if_false]
      · simp only [hm, Bool.false_eq_true, if_false]
        have h2 : (l.dropWhile (fun c => !isDelim c)).length ≤ l.length := (List.dropWhile_sublist _).length_le
        refine ih _ ?_ _ rfl
        simp only [List.dropWhile_cons, hc, Bool.not_false, if_true]
        simp only [List.length_cons] at hlen
        omega

end Sid.Util

namespace Sid.Ifc
open Sid.Spec.Client
open Sid.LBuf
open Sid.Spec.Buf (Op Ret)
open Sid.Spec.Frame

theorem leNat_number (l : List UInt8) : leNat l = number l := by
  induction l with
  | nil => rfl
  | cons b l ih => simp [leNat, number, ih]

theorem leBytes_length (n k : Nat) : (leBytes n k).length = k := by
  induction k generalizing n with
  | zero => rfl
  | succ k ih => simp [leBytes, ih]

theorem number_leBytes (n k : Nat) : number (leBytes n k) = n % 256 ^ k := by
  induction k generalizing n with
  | zero => simp [leBytes, number]; omega
  | succ k ih =>
    simp only [leBytes, number, ih, UInt8.toNat_ofNat']
    rw [show 256 ^ (k + 1) = 256 * 256 ^ k by rw [Nat.pow_succ, Nat.mul_comm], Nat.mod_mul]

theorem hdr_bytes_length (h : Hdr) : h.bytes.length = 12 := by simp [Hdr.bytes, leBytes_length]

theorem hdrOf_bytes (h : Hdr) (rest : List UInt8) (h1 : h.status < 2 ^ 64) (h2 : h.prot < 256) (h3 : h.cmd < 256)
    (h4 : h.flags < 2 ^ 16) : hdrOf (h.bytes ++ rest) = some h := by
  unfold hdrOf
  have hl := hdr_bytes_length h
  rw [if_neg (by simp [hl])]
  obtain ⟨st, pr, cm, fl⟩ := h
  dsimp only at h1 h2 h3 h4
  have e1 : leNat (leBytes st 8) = st := by rw [leNat_number, number_leBytes]; omega
  have e2 : leNat (leBytes pr 1) = pr := by rw [leNat_number, number_leBytes]; omega
  have e3 : leNat (leBytes cm 1) = cm := by rw [leNat_number, number_leBytes]; omega
  have e4 : leNat (leBytes fl 2) = fl := by rw [leNat_number, number_leBytes]; omega
  have l1 := leBytes_length st 8
  have l2 := leBytes_length pr 1
  have l3 := leBytes_length cm 1
  have l4 := leBytes_length fl 2
  simp only [Hdr.bytes]
  generalize leBytes st 8 = a at *
  generalize leBytes pr 1 = b at *
  generalize leBytes cm 1 = c at *
  generalize leBytes fl 2 = d at *
  have t1 : (a ++ b ++ c ++ d ++ rest).take 8 = a := by
    simp only [List.append_assoc]; rw [← l1, List.take_left']; rfl
  have t2 : (a ++ b ++ c ++ d ++ rest).drop 8 = b ++ c ++ d ++ rest := by
    simp only [List.append_assoc]; rw [← l1, List.drop_left']; rfl
  have t3 : (b ++ c ++ d ++ rest).take 1 = b := by
    simp only [List.append_assoc]; rw [← l2, List.take_left']; rfl
  have t4 : (a ++ b ++ c ++ d ++ rest).drop 9 = c ++ d ++ rest := by
    rw [show 9 = 8 + 1 from rfl, ← List.drop_drop, t2]
    simp only [List.append_assoc]; rw [← l2, List.drop_left']; rfl
  have t5 : (c ++ d ++ rest).take 1 = c := by
    simp only [List.append_assoc]; rw [← l3, List.take_left']; rfl
  have t6 : (a ++ b ++ c ++ d ++ rest).drop 10 = d ++ rest := by
    rw [show 10 = 9 + 1 from rfl, ← List.drop_drop, t4]
    simp only [List.append_assoc]; rw [← l3, List.drop_left']; rfl
  have t7 : (d ++ rest).take 2 = d := by rw [← l4, List.take_left']; rfl
  rw [t1, t2, t3, t4, t5, t6, t7, e1, e2, e3, e4]

theorem bit_cases {P : Nat → Prop} (i : Nat) (h : i < 32) (hp : ∀ j ∈ List.range 32, P j) : P i :=
  hp i (List.mem_range.mpr h)

theorem major_makedev (ma mi : BitVec 32) : majorOf (makedev ma mi) = ma := by
  apply BitVec.eq_of_getLsbD_eq
  intro i hi
  have : i = 0 ∨ i = 1 ∨ i = 2 ∨ i = 3 ∨ i = 4 ∨ i = 5 ∨ i = 6 ∨ i = 7 ∨ i = 8 ∨ i = 9 ∨ i = 10 ∨ i = 11 ∨ i = 12 ∨ i = 13 ∨
    i = 14 ∨ i = 15 ∨ i = 16 ∨ i = 17 ∨ i = 18 ∨ i = 19 ∨ i = 20 ∨ i = 21 ∨ i = 22 ∨ i = 23 ∨ i = 24 ∨ i = 25 ∨ i = 26 ∨
    i = 27 ∨ i = 28 ∨ i = 29 ∨ i = 30 ∨ i = 31 := by omega
  rcases this with rfl | rfl | rfl | rfl | rfl | rfl | rfl | rfl | rfl | rfl | rfl | rfl | rfl | rfl | rfl | rfl | rfl | rfl |
    rfl | rfl | rfl | rfl | rfl | rfl | rfl | rfl | rfl | rfl | rfl | rfl | rfl | rfl <;>
  simp [majorOf, makedev]

theorem minor_makedev (ma mi : BitVec 32) : minorOf (makedev ma mi) = mi := by
  apply BitVec.eq_of_getLsbD_eq
  intro i hi
  have : i = 0 ∨ i = 1 ∨ i = 2 ∨ i = 3 ∨ i = 4 ∨ i = 5 ∨ i = 6 ∨ i = 7 ∨ i = 8 ∨ i = 9 ∨ i = 10 ∨ i = 11 ∨ i = 12 ∨ i = 13 ∨
    i = 14 ∨ i = 15 ∨ i = 16 ∨ i = 17 ∨ i = 18 ∨ i = 19 ∨ i = 20 ∨ i = 21 ∨ i = 22 ∨ i = 23 ∨ i = 24 ∨ i = 25 ∨ i = 26 ∨
    i = 27 ∨ i = 28 ∨ i = 29 ∨ i = 30 ∨ i = 31 := by omega
  rcases this with rfl | rfl | rfl | rfl | rfl | rfl | rfl | rfl | rfl | rfl | rfl | rfl | rfl | rfl | rfl | rfl | rfl | rfl |
    rfl | rfl | rfl | rfl | rfl | rfl | rfl | rfl | rfl | rfl | rfl | rfl | rfl | rfl <;>
  simp [minorOf, makedev]

/-! ### building the message -/

/-- what an add adds -/
def opBytes : Op → List UInt8
  | .add bs _ => bs
  | .addFmt s _ => s ++ [0]
  | _ => []

/-- adds that do not ask for the address -/
def Adds (ops : List Op) : Prop := ∀ op ∈ ops, (∃ bs, op = .add bs false) ∨ (∃ s, op = .addFmt s false)

/-- a buffer being filled: unlimited, step 1, nothing bound -/
structure Filling (b : Buf) (c : List UInt8) : Prop where
  inv : Inv b
  mode : b.mode = .prefixed
  step : b.step = 1
  lim : b.limit = 0
  size : b.size = 0
  mark : b.markSet = false
  bytes : bytes b = c

theorem realloc_fields {b b' : Buf} {n force fresh} (h : realloc b n force fresh = .ok b') :
    b'.size = b.size ∧ b'.step = b.step ∧ b'.limit = b.limit := by
  obtain ⟨-, h1, h2, h3, -⟩ := realloc_ok h
  exact ⟨h1, h2, h3⟩

theorem realloc_never_fails {b : Buf} {n fresh} (hs : b.step = 1) (hl : b.limit = 0) :
    ∃ b', realloc b n false fresh = .ok b' := by
  cases h : realloc b n false fresh with
  | ok b' => exact ⟨b', rfl⟩
  | error e =>
    rcases realloc_err h with ⟨-, -, h1, -⟩ | ⟨-, h1, -⟩
    · omega
    · exact absurd hl h1

theorem add_fields {b : Buf} {bs fresh} (hs : b.step = 1) (hl : b.limit = 0) (hm : b.markSet = false) :
    (∃ p, (add b bs false fresh).2 = .pos p) ∧ (add b bs false fresh).1.step = 1 ∧ (add b bs false fresh).1.limit = 0 ∧
      (add b bs false fresh).1.size = b.size := by
  unfold add
  obtain ⟨b', h⟩ := realloc_never_fails (b := b) (n := startOff b + bs.length) (fresh := fresh) hs hl
  obtain ⟨h1, h2, h3⟩ := realloc_fields h
  simp only [hm, Bool.false_eq_true, if_false, h, setMark]
  exact ⟨⟨_, rfl⟩, h2.trans hs, h3.trans hl, h1⟩

theorem addFmt_fields {b : Buf} {bs fresh} (hs : b.step = 1) (hl : b.limit = 0) (hm : b.markSet = false) :
    (∃ p, (addFmt b bs false fresh).2 = .pos p) ∧ (addFmt b bs false fresh).1.step = 1 ∧
      (addFmt b bs false fresh).1.limit = 0 ∧ (addFmt b bs false fresh).1.size = b.size := by
  obtain ⟨mode, size, step, limit, mem, used, ms, mp, gen⟩ := b
  dsimp only at hs hl hm
  subst hs hl hm
  unfold addFmt
  simp only [Bool.false_eq_true, if_false, setMark]
  generalize startOff _ = off
  split
  · generalize hb1 : (if mem.length - off = 0 then (⟨mode, size, 1, 0, mem, used, false, mp, gen⟩ : Buf) else
      (⟨mode, size, 1, 0, store mem off (bs.take (mem.length - off - 1) ++ [0]), used, false, mp, gen⟩ : Buf)) = b1
    have e : b1.step = 1 ∧ b1.limit = 0 ∧ b1.size = size := by
      rw [← hb1]; split <;> exact ⟨rfl, rfl, rfl⟩
    obtain ⟨b', h⟩ := realloc_never_fails (b := b1) (n := off + bs.length + 1) (fresh := fresh) e.1 e.2.1
    obtain ⟨h1, h2, h3⟩ := realloc_fields h
    rw [h]
    exact ⟨⟨_, rfl⟩, h2.trans e.1, h3.trans e.2.1, h1.trans e.2.2⟩
  · exact ⟨⟨_, rfl⟩, rfl, rfl, rfl⟩

theorem addAll_spec {fresh : Nat → UInt8} (ops : List Op) : ∀ {b : Buf} {c : List UInt8}, Adds ops → Filling b c →
    ∃ b', addAll b fresh ops = .ok b' ∧ Filling b' (c ++ ops.flatMap opBytes) := by
  induction ops with
  | nil => intro b c _ F; exact ⟨b, rfl, by simpa using F⟩
  | cons op ops ih =>
    intro b c A F
    have A' : Adds ops := fun o h => A o (by simp [h])
    rcases A op (by simp) with ⟨bs, rfl⟩ | ⟨s, rfl⟩
    · obtain ⟨⟨p, hp⟩, h1, h2, h3⟩ := add_fields (bs := bs) (fresh := fresh) F.step F.lim F.mark
      obtain ⟨g1, g2, g3⟩ := add_spec (b' := (add b bs false fresh).1) (r := (add b bs false fresh).2) F.inv rfl
      rcases g3 with ⟨e, g3, -⟩ | ⟨-, -, g4, g5, -⟩
      · rw [hp] at g3; cases g3
      · obtain ⟨b', hb, F'⟩ := ih (b := (add b bs false fresh).1) (c := c ++ bs) A'
          ⟨g1, g2.trans F.mode, h1, h2, h3.trans F.size, g5, by rw [g4, F.bytes]⟩
        refine ⟨b', ?_, by simpa [opBytes] using F'⟩
        simp only [addAll, LBuf.step]
        rw [show add b bs false fresh = ((add b bs false fresh).1, .pos p) from Prod.ext rfl hp]
        exact hb
    · obtain ⟨⟨p, hp⟩, h1, h2, h3⟩ := addFmt_fields (bs := s) (fresh := fresh) F.step F.lim F.mark
      obtain ⟨g1, g2, g3⟩ := addFmt_spec (b' := (addFmt b s false fresh).1) (r := (addFmt b s false fresh).2) F.inv rfl
      rcases g3 with ⟨e, g3, -⟩ | ⟨-, -, g4, g5, -⟩
      · rw [hp] at g3; cases g3
      · obtain ⟨b', hb, F'⟩ := ih (b := (addFmt b s false fresh).1) (c := c ++ (s ++ [0])) A'
          ⟨g1, g2.trans F.mode, h1, h2, h3.trans F.size, g5, by rw [g4, F.bytes]⟩
        refine ⟨b', ?_, by simpa [opBytes] using F'⟩
        simp only [addAll, LBuf.step]
        rw [show addFmt b s false fresh = ((addFmt b s false fresh).1, .pos p) from Prod.ext rfl hp]
        exact hb

theorem keyOps_adds (env : List Str) (ks : List Str) : Adds (keyOps env ks) := by
  induction ks with
  | nil => intro o h; simp [keyOps] at h
  | cons k ks ih =>
    simp only [keyOps]
    split
    · exact ih
    · intro o h
      rcases List.mem_cons.mp h with rfl | h
      · exact .inr ⟨_, rfl⟩
      · exact ih o h

theorem bodyOps_adds {env : List Str} {req : Req} {ops : List Op} (h : bodyOps env req = .ok ops) : Adds ops := by
  unfold bodyOps at h
  split at h
  · split at h
    · split at h
      · cases h
      · cases h; intro o ho; simp at ho
    · split at h
      · cases h; intro o ho; simp at ho; exact .inl ⟨_, ho⟩
      · cases h; intro o ho; simp at ho
    · cases h
  · split at h
    · unfold scanOps at h
      split at h
      · cases h
      · cases h
        intro o ho
        simp only [List.mem_cons, List.mem_map] at ho
        rcases ho with rfl | ⟨kv, -, rfl⟩ <;> exact .inl ⟨_, rfl⟩
    · split at h
      · split at h
        · unfold checkpointOps at h
          split at h
          · split at h
            · cases h
            · cases h
              intro o ho
              simp only [List.mem_cons] at ho
              rcases ho with rfl | rfl | ho
              · exact .inl ⟨_, rfl⟩
              · exact .inl ⟨_, rfl⟩
              · exact keyOps_adds _ _ _ ho
          · cases h
        · cases h
      · cases h; intro o ho; simp at ho

/-- the message in the buffer is the header and the body -/
theorem message_spec {env : List Str} {req : Req} {fresh : Nat → UInt8} :
    (∀ e, bodyOps env req = .error e → message env req fresh = .error e) ∧
    (∀ ops, bodyOps env req = .ok ops →
      ∃ b, message env req fresh = .ok b ∧ Filling b ((reqHdr req).bytes ++ ops.flatMap opBytes)) := by
  have hc : ∃ b, LBuf.create .prefixed 0 1 0 fresh = .ok b := ⟨_, rfl⟩
  obtain ⟨b, hb⟩ := hc
  obtain ⟨c1, c2, c3, c4, c5, c6, c7, c8, c9, -⟩ := create_spec hb
  have F : Filling b [] := ⟨c1, c2, c8, c9, c7, c4, c3⟩
  obtain ⟨b1, h1, F1⟩ := addAll_spec (fresh := fresh) [.add (reqHdr req).bytes false]
    (by intro o ho; simp at ho; exact .inl ⟨_, ho⟩) F
  constructor
  · intro e he
    simp only [message, hb, h1, he]
  · intro ops ho
    obtain ⟨b2, h2, F2⟩ := addAll_spec (fresh := fresh) ops (bodyOps_adds ho) F1
    exact ⟨b2, by simp only [message, hb, h1, ho, h2], by simpa [opBytes] using F2⟩

theorem filling_used {b : Buf} {c : List UInt8} (F : Filling b c) (h : c ≠ []) : b.used ≠ 0 := by
  intro h0
  apply h
  rw [← F.bytes]
  simp [LBuf.bytes, h0]

/-! ### receiving -/

/-- the buffer holds what was taken from the stream -/
structure Took (b : Buf) (c : List UInt8) : Prop where
  mode : b.mode = .prefixed
  le : b.used ≤ b.mem.length
  eq : b.mem.take b.used = c

theorem read_took {b : Buf} {c : List UInt8} {s : Stream} {ev fresh} (T : Took b c) :
    ∃ d, s.data = d ++ (LBuf.read b s ev fresh).2.1.data ∧
      ((LBuf.read b s ev fresh).2.2 = .error .EAGAIN ∨ (LBuf.read b s ev fresh).2.2 = .error .EINTR ∨
        (∃ n, (LBuf.read b s ev fresh).2.2 = .ok n) → Took (LBuf.read b s ev fresh).1 (c ++ d)) := by
  have hrd : LBuf.read b s ev fresh = readPrefixed b s ev fresh := by simp only [LBuf.read, T.mode]
  rw [hrd]
  unfold readPrefixed
  split
  · exact ⟨[], by simp, by simp⟩
  · cases hr : sysRead s (b.mem.length - b.used) ev with
    | error e => exact ⟨[], by simp, fun _ => by simpa using T⟩
    | ok bs =>
      obtain ⟨g1, g2, g3, -⟩ := Util.sysRead_ok hr
      have hle := T.le
      simp only
      split
      · rename_i h0
        have hb : bs = [] := List.length_eq_zero_iff.mp h0
        subst hb
        split
        · exact ⟨[], by simp, by simp⟩
        · exact ⟨[], by simp, fun _ => by simpa using T⟩
      · have T1 : Took { b with mem := store b.mem b.used bs, used := b.used + bs.length } (c ++ bs) := by
          refine ⟨T.mode, ?_, ?_⟩
          · simp only
            rw [store_length (by omega)]; omega
          · simp only
            rw [store_take_after T.le, T.eq]
        have hd : s.data = bs ++ s.data.drop bs.length := by
          conv => rhs; lhs; rw [g1]
          exact (List.take_append_drop _ _).symm
        split
        · split
          · exact ⟨bs, hd, by simp⟩
          · split
            · cases hre : realloc { b with mem := store b.mem b.used bs, used := b.used + bs.length }
                (expected { b with mem := store b.mem b.used bs, used := b.used + bs.length }) false fresh with
              | error e =>
                refine ⟨bs, by simpa only using hd, ?_⟩
                rcases realloc_err hre with ⟨rfl, -⟩ | ⟨rfl, -⟩ <;> simp
              | ok b2 =>
                refine ⟨bs, hd, fun _ => ?_⟩
                obtain ⟨k1, -, -, -, k5, -, -, k8, k9⟩ := realloc_ok hre
                have hg : ∀ m : Buf, realloc m (expected m) false fresh = .ok b2 → m.used ≤ m.mem.length →
                    m.used ≤ b2.mem.length ∧ b2.mem.take m.used = m.mem.take m.used := by
                  intro m hm hml
                  by_cases hge : m.mem.length ≥ expected m
                  · have : b2 = m := by
                      unfold realloc at hm
                      simp [hge] at hm
                      exact hm.symm
                    subst this
                    exact ⟨hml, rfl⟩
                  · obtain ⟨-, -, -, -, -, -, -, n8, n9⟩ := realloc_ok hm
                    exact ⟨by omega, n9 _ (by omega) hml⟩
                obtain ⟨j1, j2⟩ := hg _ hre T1.le
                exact ⟨k1.trans T.mode, by rw [k5]; exact j1, by rw [k5, j2]; exact T1.eq⟩
            · exact ⟨bs, hd, fun _ => T1⟩
        · exact ⟨bs, hd, fun _ => T1⟩

/-- whatever comes in: the loop ends well only having taken exactly one well-formed message -/
theorem recvLoop_took (evs : List (IoEv × (Nat → UInt8))) : ∀ (b : Buf) (c : List UInt8) (s : Stream), Took b c →
    ∀ b' s', recvLoop b s evs = .complete b' s' ∨ recvLoop b s evs = .eof b' s' →
      ∃ d, s.data = d ++ s'.data ∧ Took b' (c ++ d) ∧ isComplete b' = true := by
  induction evs with
  | nil => intro b c s T b' s' h; simp [recvLoop] at h
  | cons x es ih =>
    obtain ⟨ev, fresh⟩ := x
    intro b c s T b' s' h
    obtain ⟨d, hd, hT⟩ := read_took (s := s) (ev := ev) (fresh := fresh) T
    simp only [recvLoop] at h
    generalize hres : LBuf.read b s ev fresh = res at *
    obtain ⟨b1, s1, r⟩ := res
    cases r with
    | ok n =>
      have T1 := hT (.inr (.inr ⟨n, rfl⟩))
      simp only at h hd T1
      split at h
      · split at h
        · rename_i hc
          simp only [ROut.complete.injEq, reduceCtorEq, or_false] at h
          obtain ⟨rfl, rfl⟩ := h
          exact ⟨d, hd, T1, hc⟩
        · obtain ⟨d', g1, g2, g3⟩ := ih b1 _ s1 T1 b' s' h
          exact ⟨d ++ d', by rw [hd, g1, List.append_assoc], by rw [← List.append_assoc]; exact g2, g3⟩
      · split at h
        · rename_i hc
          simp only [ROut.eof.injEq, reduceCtorEq, false_or] at h
          obtain ⟨rfl, rfl⟩ := h
          exact ⟨d, hd, T1, hc⟩
        · simp at h
    | error e =>
      simp only at h hd
      split at h
      · rename_i he
        have T1 := hT (by rcases he with rfl | rfl <;> simp)
        obtain ⟨d', g1, g2, g3⟩ := ih b1 _ s1 T1 b' s' h
        exact ⟨d ++ d', by rw [hd, g1, List.append_assoc], by rw [← List.append_assoc]; exact g2, g3⟩
      · simp at h

theorem u8_split {a b c d : UInt8} {n : Nat} (h : a.toNat + 256 * b.toNat + 65536 * c.toNat + 16777216 * d.toNat = n) :
    [a, b, c, d] = le32 n := by
  have ha := a.toNat_lt
  have hb := b.toNat_lt
  have hc := c.toNat_lt
  have hd := d.toNat_lt
  simp only [le32, List.cons.injEq, and_true, ← UInt8.toNat_inj, UInt8.toNat_ofNat']
  omega

/-- a complete buffer holds the frame of its content -/
theorem complete_frame {b : Buf} {c : List UInt8} (T : Took b c) (hc : isComplete b = true) :
    ∃ p, c = frame p ∧ p.length + 4 < 2 ^ 32 ∧ bytes b = p ∧ Inv b := by
  have hle := T.le
  simp only [isComplete, T.mode, decide_eq_true_eq, ne_eq] at hc
  obtain ⟨h0, h1⟩ := hc
  unfold expected at h1
  split at h1
  · rename_i h4
    have hlen : c.length = b.used := by rw [← T.eq]; simp; omega
    rw [rd32_take4 _ (by omega), show b.mem.take 4 = c.take 4 by
      rw [← T.eq, List.take_take, Nat.min_eq_left h4], ← rd32_take4 _ (by omega)] at h1
    have hbytes : LBuf.bytes b = c.drop 4 := by simp [LBuf.bytes, T.mode, pfxLen, T.eq]
    match c, hlen, h1, hbytes with
    | w :: x :: y :: z :: p, hlen, h1, hbytes =>
      simp only [rd32] at h1
      have := u8_split h1.symm
      simp only [List.length_cons] at hlen
      refine ⟨p, ?_, ?_, by simpa using hbytes, ⟨hle, by simp [T.mode, pfxLen]; omega, .inr (by simp [T.mode, pfxLen]; omega)⟩⟩
      · simp only [frame]
        rw [show p.length + 4 = b.used by omega, ← this]; rfl
      · have ha := w.toNat_lt
        have hb := x.toNat_lt
        have hc := y.toNat_lt
        have hd := z.toNat_lt
        omega
    | [], hlen, _, _ => simp at hlen; omega
    | [_], hlen, _, _ => simp at hlen; omega
    | [_, _], hlen, _, _ => simp at hlen; omega
    | [_, _, _], hlen, _, _ => simp at hlen; omega
  · omega

theorem data_of_bytes {b : Buf} {p : List UInt8} (I : Inv b) (h : bytes b = p) : (getData b 0).2 = .data p := by
  have hg := getData_spec (b' := (getData b 0).1) (r := (getData b 0).2) (p := 0) I rfl
  rcases hg.2.2.2.2.2 with ⟨_, _, h0⟩ | ⟨h0, _⟩
  · omega
  · rw [h0, h]; rfl

/-! ### the daemon -/

theorem addField_named {e n v : Str} (h : Named e n v) : addField e = some (n, v) := by
  obtain ⟨rfl, hn, hv⟩ := h
  have hda := Util.takeWhile_all (p := fun c : UInt8 => decide (c ≠ 61)) (l := n)
    fun a h => by simp; intro h'; exact hn (h' ▸ h)
  have h1 : (n ++ [61] ++ v).takeWhile (· ≠ 61) = n := by
    rw [List.append_assoc, List.takeWhile_append, hda.1]; simp
  have h2 : (n ++ [61] ++ v).dropWhile (· ≠ 61) = 61 :: v := by
    rw [List.append_assoc, List.dropWhile_append, hda.2]; simp
  unfold addField
  rw [h1, h2]
  cases v with
  | nil => exact absurd rfl hv
  | cons c v => rfl

theorem mem_takeWhile_true {α} {p : α → Bool} {l : List α} {a : α} (h : a ∈ l.takeWhile p) : p a = true := by
  induction l with
  | nil => simp at h
  | cons x l ih =>
    rw [List.takeWhile_cons] at h
    split at h
    · rcases List.mem_cons.mp h with rfl | h
      · assumption
      · exact ih h
    · simp at h

theorem addField_none {e : Str} (h : ∀ n v, ¬ Named e n v) : addField e = none := by
  unfold addField
  split
  · rename_i x c v hd
    exfalso
    have hx : x = 61 := by
      have := List.head?_dropWhile_not (fun c : UInt8 => decide (c ≠ 61)) e
      rw [hd] at this; simpa using this
    apply h (e.takeWhile (· ≠ 61)) (c :: v)
    refine ⟨?_, ?_, by simp⟩
    · have := List.takeWhile_append_dropWhile (p := fun c : UInt8 => decide (c ≠ 61)) (l := e)
      rw [hd, hx] at this
      simpa using this.symm
    · intro hm
      have := mem_takeWhile_true hm
      simp at this
  · rfl

theorem fieldLoop_nil (acc : List (Str × Str)) : fieldLoop [] acc = some (true, acc) := by rw [fieldLoop]; simp

theorem fieldLoop_cons {e : Str} {rest : List UInt8} {acc : List (Str × Str)} (h0 : 0 ∉ e) :
    fieldLoop (e ++ [0] ++ rest) acc =
      (match addField e with
       | none => some (false, acc)
       | some kv => fieldLoop rest (acc ++ [kv])) := by
  have hda := Util.takeWhile_all (p := fun c : UInt8 => decide (c ≠ 0)) (l := e)
    fun a h => by simp; intro h'; exact h0 (h' ▸ h)
  have h1 : (e ++ [0] ++ rest).takeWhile (· ≠ 0) = e := by
    rw [List.append_assoc, List.takeWhile_append, hda.1]; simp
  have h2 : (e ++ [0] ++ rest).dropWhile (· ≠ 0) = 0 :: rest := by
    rw [List.append_assoc, List.dropWhile_append, hda.2]; simp
  rw [fieldLoop, dif_neg (by simp), dif_pos (by simp), h1, h2]
  rfl

end Sid.Ifc
