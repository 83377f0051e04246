import Verif.Spec.FmtEnv
import Verif.Proof.Fmt
/-
C78: output as assignments.
-/
namespace Sid.Props
open Sid.Fmt Sid.Spec.FmtEnv
open Sid.Spec.Client (decimal)
open Sid.Ifc (txt)

theorem dec_eq_decimal (n : Nat) : dec n = decimal n := by
  induction n using Nat.strongRecOn with
  | ind n ih =>
    rw [dec, decimal]
    split
    · rfl
    · rename_i h; rw [ih (n / 10) (by omega)]

theorem decInt_eq_signed (v : Int) : decInt v = signed v := by
  cases v <;> simp [decInt, signed, dec_eq_decimal]

/-- an assignment as a line -/
def assignLine (a : Str × Str) : Str := a.1 ++ [61] ++ a.2 ++ [10]

theorem range_texts_from (vs : List Str) (g : Nat → Str) (ls : Nat → Int) (k : Nat) (hk : 0 < k)
    (hg : ∀ i, g (k + i) = vs.getD i []) :
    out .env ((List.range' k vs.length).map (fun i => Call.arrStr (ls i) (g i) (i ≠ 0))) = vs.flatMap fun v => 44 :: v := by
  induction vs generalizing k with
  | nil => rfl
  | cons v vs ih =>
    have e := ih (k + 1) (by omega) fun i => by
      have := hg (i + 1)
      rw [show k + (i + 1) = k + 1 + i by omega] at this
      simpa using this
    have e0 : g k = v := by simpa using hg 0
    have hk0 : k ≠ 0 := by omega
    simp only [out] at e ⊢
    rw [List.length_cons, List.range'_succ, List.map_cons, List.flatMap_cons, List.flatMap_cons, e, e0]
    simp [emit, arrStr, hk0]

theorem intercalate_cons (v : Str) (vs : List Str) : List.intercalate [44] (v :: vs) = v ++ vs.flatMap fun v => 44 :: v := by
  induction vs generalizing v with
  | nil => simp
  | cons w vs ih => simp [List.intercalate_cons_cons, ih]

theorem range_texts (vs : List Str) (ls : Nat → Int) :
    out .env ((List.range vs.length).map (fun i => Call.arrStr (ls i) (vs.getD i []) (i ≠ 0))) = List.intercalate [44] vs := by
  cases vs with
  | nil => rfl
  | cons v vs =>
    have e := range_texts_from vs (fun i => (v :: vs).getD i []) ls 1 (by omega) fun i => by
      rw [show 1 + i = i + 1 by omega]; simp
    rw [intercalate_cons, List.range_eq_range', List.length_cons, List.range'_succ]
    simp only [out] at e ⊢
    rw [List.map_cons, List.flatMap_cons, e]
    simp [emit, arrStr]

/-- the output of calls that say assignments is a line for each -/
theorem env_lines {calls : List Call} {as : List (Str × Str)} (h : Says calls as) (hf : ∀ c ∈ calls, match c with
    | .fldBin _ _ v _ => 4 * ((v.length + 2) / 3) + 1 < 2 ^ 64
    | _ => True) : out .env calls = as.flatMap assignLine := by
  induction h with
  | fldStr l n v c => simp [out, emit, fldStr, joinStr, assignLine, txt]
  | fldBin l n v c =>
    have := hf _ (List.mem_singleton.mpr rfl)
    simp [out, emit, fldBin, joinStr, assignLine, txt, binary_eq this]
  | fldUint l n v c => simp [out, emit, fldUint, joinStr, assignLine, txt, dec_eq_decimal]
  | fldInt l n v c => simp [out, emit, fldInt, joinStr, assignLine, txt, decInt_eq_signed]
  | fldBool l n v c => simp [out, emit, fldBool, assignLine, bit]
  | arr l l' n c vs ls =>
    have := range_texts vs ls
    simp only [out] at this ⊢
    rw [List.flatMap_append, List.flatMap_append, this]
    simp [emit, arrStart, arrEnd, assignLine, quoted]
  | nil => rfl
  | append h1 h2 ih1 ih2 =>
    have e1 := ih1 fun c hc => hf c (by simp [hc])
    have e2 := ih2 fun c hc => hf c (by simp [hc])
    simp only [out] at e1 e2 ⊢
    rw [List.flatMap_append, List.flatMap_append, e1, e2]
  | elm l l' c h ih =>
    have e := ih fun c hc => hf c (by simp [hc])
    simp only [out] at e ⊢
    rw [List.flatMap_append, List.flatMap_append, e]
    simp [emit, elmStart, elmEnd]
  | namedElm l l1 l' n c h ih =>
    have e := ih fun c hc => hf c (by simp [hc])
    simp only [out] at e ⊢
    rw [List.flatMap_append, List.flatMap_append, e]
    simp [emit, elmStart, elmEnd, elmName]
  | doc l l' h ih =>
    have e := ih fun c hc => hf c (by simp [hc])
    simp only [out] at e ⊢
    rw [List.flatMap_append, List.flatMap_append, e]
    simp [emit, docStart, docEnd]

theorem linesAux_line (cur l rest : Str) (h : 10 ∉ l) : linesAux cur (l ++ 10 :: rest) = (cur ++ l) :: linesAux [] rest := by
  induction l generalizing cur with
  | nil => simp [linesAux]
  | cons c l ih =>
    have hc : c ≠ 10 := fun e => h (by simp [e])
    rw [List.cons_append, linesAux, if_neg hc, ih _ fun m => h (by simp [m])]
    simp

theorem assignment_line {a : Str × Str} (h : 61 ∉ a.1) : assignment (a.1 ++ [61] ++ a.2) = a := by
  have key : ∀ (n v : Str), 61 ∉ n → (n ++ 61 :: v).takeWhile (· ≠ 61) = n ∧ (n ++ 61 :: v).dropWhile (· ≠ 61) = 61 :: v := by
    intro n v hn
    induction n with
    | nil => simp
    | cons c n ih =>
      have hc : c ≠ 61 := fun e => hn (by simp [e])
      have := ih fun m => hn (by simp [m])
      simp [hc] at this ⊢
      exact this
  have := key a.1 a.2 h
  simp only [assignment, List.append_assoc, List.singleton_append, this.1, this.2]
  rfl

theorem assignments_lines (as : List (Str × Str)) : (∀ a ∈ as, 61 ∉ a.1 ∧ 10 ∉ a.1 ∧ 10 ∉ a.2) → assignments (as.flatMap assignLine) = as := by
  induction as with
  | nil => intro _; rfl
  | cons a as ih =>
    intro hf
    obtain ⟨h1, h2, h3⟩ := hf a (by simp)
    have e : assignLine a ++ as.flatMap assignLine = (a.1 ++ [61] ++ a.2) ++ 10 :: as.flatMap assignLine := by
      simp [assignLine]
    rw [List.flatMap_cons, assignments, e, linesAux_line _ _ _ (by simp [h2, h3]), List.map_cons, List.nil_append,
      assignment_line h1]
    have := ih fun x hx => hf x (by simp [hx])
    rw [assignments] at this
    rw [this]

/-- C78 (partial: arrays are arrays of texts; see the counterexamples for arrays of numbers and of elements).  Whatever fields,
    texts in arrays, elements and documents are written, somebody who takes every line for an assignment reads exactly the
    fields, with their values, in the order they were written. -/
theorem C78_assignments_read_back_partial {calls : List Call} {as : List (Str × Str)} (h : Says calls as) (hf : Fine calls as) :
    assignments (out .env calls) = as := by
  rw [env_lines h hf.2]
  exact assignments_lines as hf.1

/-- C78: what is read does not depend on indentation and commas: two ways of writing the same assignments cannot be told
    apart. -/
theorem C78_same_output {calls calls' : List Call} {as : List (Str × Str)} (h : Says calls as) (hf : Fine calls as)
    (h' : Says calls' as) (hf' : Fine calls' as) : out .env calls = out .env calls' := by
  rw [env_lines h hf.2, env_lines h' hf'.2]

/-- C78 is false of arrays of numbers: the numbers are not written at all. -/
theorem C78_numbers_lost_counterexample (l l' : Int) (n : Str) (c : Bool) (vs : List (Int × Nat × Bool)) :
    out .env ([.arrStart l n c] ++ vs.map (fun v => .arrUint v.1 v.2.1 v.2.2) ++ [.arrEnd l']) =
      out .env [.arrStart l n c, .arrEnd l'] := by
  have : out .env (vs.map fun v => Call.arrUint v.1 v.2.1 v.2.2) = [] := by
    simp only [out, List.flatMap_eq_nil_iff, List.mem_map]
    rintro x ⟨v, -, rfl⟩
    rfl
  simp only [out] at this ⊢
  rw [List.flatMap_append, List.flatMap_append, this]
  simp

/-- C78 is false of arrays of elements: the first field of the first element is read as a part of the value of the array. -/
theorem C78_elements_counterexample (l l1 l2 : Int) (v : Str) (hv : 10 ∉ v) :
    assignments (out .env [.arrStart l (txt "list") false, .elmStart l1 false, .fldStr l2 (txt "a") v false, .elmEnd l1, .arrEnd l]) =
      [(txt "list", txt "\"a=" ++ v), (txt "\"", [])] := by
  have e : out .env [.arrStart l (txt "list") false, .elmStart l1 false, .fldStr l2 (txt "a") v false, .elmEnd l1, .arrEnd l] =
      (txt "list=\"a=" ++ v) ++ 10 :: (txt "\"" ++ [10]) := by
    simp [out, emit, arrStart, arrEnd, elmStart, elmEnd, fldStr, joinStr, txt]
  have hl : 10 ∉ txt "list=\"a=" ++ v := by
    simp only [List.mem_append, not_or]; exact ⟨by decide, hv⟩
  have h1 : assignment (txt "list=\"a=" ++ v) = (txt "list", txt "\"a=" ++ v) :=
    assignment_line (a := (txt "list", txt "\"a=" ++ v)) (show 61 ∉ txt "list" by decide)
  rw [assignments, e, linesAux_line _ _ _ hl, linesAux_line _ _ [] (by decide), List.map_cons, List.map_cons, List.nil_append, h1]
  rfl

/-- C78: fields in a table are lines with the name, a colon, a blank and the value. -/
theorem C78_table_fields (l : Int) (n v : Str) (k : Nat) (i : Int) (c : Bool)
    (hv : 4 * ((v.length + 2) / 3) + 1 < 2 ^ 64) :
    out .table [.fldStr l n v c] = n ++ txt ": " ++ v ++ txt "\n" ∧
    out .table [.fldUint l n k c] = n ++ txt ": " ++ decimal k ++ txt "\n" ∧
    out .table [.fldInt l n i c] = n ++ txt ": " ++ signed i ++ txt "\n" ∧
    out .table [.fldBin l n v c] = n ++ txt ": " ++ Spec.Base64.encode v ++ txt "\n" := by
  have e : txt "\n" = [10] := rfl
  refine ⟨?_, ?_, ?_, ?_⟩
  · simp [out, emit, fldStr, joinStr, e]
  · simp [out, emit, fldUint, joinStr, e, dec_eq_decimal]
  · simp [out, emit, fldInt, joinStr, e, decInt_eq_signed]
  · simp [out, emit, fldBin, joinStr, e, binary_eq hv]

/-- C78: the heading of a part of a table is its name and a colon on a line of its own, after an empty line if it is not the
    first. -/
theorem C78_table_headings (l l1 : Int) (n : Str) (c : Bool) :
    out .table [.elmName l n c, .elmStart l1 false] = (if c then txt "\n" else []) ++ n ++ txt ":\n" := by
  cases c <;> simp [out, emit, elmName, elmStart, txt]

/-- a document with an array of texts, a number and a truth value -/
example : ∃ calls as, Says calls as ∧ Fine calls as ∧ as = [(txt "n", txt "7"), (txt "l", txt "\"x,y\""), (txt "ok", txt "1")] := by
  refine ⟨_, _, .doc 0 0 (.append (.fldUint 1 (txt "n") 7 false) (.append (.arr 1 1 (txt "l") true [txt "x", txt "y"] (fun _ => 2))
    (.fldBool 1 (txt "ok") true true))), ⟨?_, ?_⟩, ?_⟩
  · decide +kernel
  · intro c hc
    simp only [List.mem_append, List.mem_map, List.mem_singleton] at hc
    rcases hc with (rfl | rfl | ((rfl | ⟨_, _, rfl⟩) | rfl) | rfl) | rfl <;> trivial
  · decide +kernel

end Sid.Props
