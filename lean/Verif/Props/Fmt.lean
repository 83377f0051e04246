import Verif.Proof.Fmt
/-
C52: the JSON output is JSON.
-/
namespace Sid.Props
open Sid.Fmt Sid.Spec.Json Sid.Spec.Fmt
open Sid.Ifc (txt)

/-- C52: whatever properly nested documents, arrays, elements and fields are written, to whatever depth and at whatever indentation, the
    JSON output is one JSON text, and it says what was written.  Missing: fields made by the function for truth values, for which this
    is false (`C52_counterexample_bool`); text that is not plain is not escaped (`C52_counterexample_quote`). -/
theorem C52_nested_partial (calls : List Call) (j : J) (h : Document calls j) (hp : PlainCalls calls) : Text (out .json calls) j :=
  document_text h hp

/-- C52: JSON output has one meaning only, so that what is read from it is what was written. -/
theorem C52_meaning (calls : List Call) (j j' : J) (h : Document calls j) (hp : PlainCalls calls) (hr : Text (out .json calls) j') :
    j' = j := hr.unique (document_text h hp)

/-- C52: two documents with the same output say the same. -/
theorem C52_injective (calls calls' : List Call) (j j' : J) (h : Document calls j) (hp : PlainCalls calls) (h' : Document calls' j')
    (hp' : PlainCalls calls') (he : out .json calls = out .json calls') : j = j' :=
  (document_text h hp).unique (he ▸ document_text h' hp')

/-- a document with a text, a number, an array of an element and an empty element, and a named element -/
def sampleDoc : List Call :=
  [.docStart 0, .fldStr 1 (txt "a") (txt "x y") false, .fldInt 1 (txt "n") (-20) true, .arrStart 1 (txt "l") true,
   .elmStart 2 false, .fldBin 3 (txt "b") [1, 2] false, .elmEnd 2, .elmStart 2 true, .elmEnd 2, .arrEnd 1,
   .elmName 1 (txt "e") true, .elmStart 1 false, .fldUint 2 (txt "u") 7 false, .elmEnd 1, .docEnd 0]

/-- what it says -/
def sampleJ : J :=
  .obj [(txt "a", .str (txt "x y")), (txt "n", .num (-20)), (txt "l", .arr [.obj [(txt "b", .str (Spec.Base64.encode [1, 2]))], .obj []]),
    (txt "e", .obj [(txt "u", .num 7)])]

theorem sampleDoc_document : Document sampleDoc sampleJ := by
  refine Document.doc 0 0 [([.fldStr 1 (txt "a") (txt "x y") false], txt "a", .str (txt "x y")),
    ([.fldInt 1 (txt "n") (-20) true], txt "n", .num (-20)),
    ([.arrStart 1 (txt "l") true] ++ [[.elmStart 2 false, .fldBin 3 (txt "b") [1, 2] false, .elmEnd 2], [.elmStart 2 true, .elmEnd 2]].flatten ++
      [.arrEnd 1], txt "l", .arr [.obj [(txt "b", .str (Spec.Base64.encode [1, 2]))], .obj []]),
    ([.elmName 1 (txt "e") true, .elmStart 1 false] ++ [[Call.fldUint 2 (txt "u") 7 false]].flatten ++ [.elmEnd 1], txt "e",
      .obj [(txt "u", .num 7)])] ?_
  intro i hi
  match i, hi with
  | 0, _ => exact .fldStr ..
  | 1, _ => exact .fldInt ..
  | 2, _ =>
    refine Part.arr 1 1 (txt "l") true [([.elmStart 2 false, .fldBin 3 (txt "b") [1, 2] false, .elmEnd 2], .obj [(txt "b", .str (Spec.Base64.encode [1, 2]))]),
      ([.elmStart 2 true, .elmEnd 2], .obj [])] ?_
    intro i hi
    match i, hi with
    | 0, _ =>
      refine Part.elm 2 2 false [([.fldBin 3 (txt "b") [1, 2] false], txt "b", .str (Spec.Base64.encode [1, 2]))] ?_
      intro i hi
      match i, hi with
      | 0, _ => exact .fldBin ..
    | 1, _ => exact Part.elm 2 2 true [] nofun
  | 3, _ =>
    refine Part.namedElm 1 1 1 (txt "e") true [([.fldUint 2 (txt "u") 7 false], txt "u", .num 7)] ?_
    intro i hi
    match i, hi with
    | 0, _ => exact .fldUint ..

theorem sampleDoc_plain : PlainCalls sampleDoc := by
  have key : ∀ c ∈ sampleDoc, (∀ t ∈ texts c, ∀ x ∈ t, 32 ≤ x ∧ x ≠ 34 ∧ x ≠ 92) := by decide +kernel
  intro c hc
  refine ⟨key c hc, ?_⟩
  simp only [sampleDoc, List.mem_cons, List.not_mem_nil, or_false] at hc
  rcases hc with rfl | rfl | rfl | rfl | rfl | rfl | rfl | rfl | rfl | rfl | rfl | rfl | rfl | rfl | rfl <;> simp [binFits]

example : Text (out .json sampleDoc) sampleJ := C52_nested_partial _ _ sampleDoc_document sampleDoc_plain

example : ∃ calls j, Document calls j ∧ PlainCalls calls ∧ 15 = calls.length := ⟨_, _, sampleDoc_document, sampleDoc_plain, by rfl⟩

/-- a document with a truth value in it -/
def boolDoc : List Call := [.docStart 0, .fldBool 1 (txt "a") true false, .docEnd 0]

/-- C52 fails for truth values: a document with one is no JSON, since the field itself is put into braces. -/
theorem C52_counterexample_bool : ¬ ∃ j, Text (out .json boolDoc) j := not_text (by decide +kernel)

/-- a document whose only field has a text with a quotation mark -/
def quoteDoc : List Call := [.docStart 0, .fldStr 1 (txt "a") (txt "say \"x\"") false, .docEnd 0]

/-- C52 needs plain text: nothing is escaped, a quotation mark in a text ends it. -/
theorem C52_counterexample_quote : (∃ j, Document quoteDoc j) ∧ ¬ ∃ j, Text (out .json quoteDoc) j := by
  refine ⟨⟨_, Document.doc 0 0 [([.fldStr 1 (txt "a") (txt "say \"x\"") false], txt "a", .str (txt "say \"x\""))] ?_⟩,
    not_text (by decide +kernel)⟩
  intro i hi
  match i, hi with
  | 0, _ => exact .fldStr ..

/-- a document of one field, the text of which looks like the end of the field and the beginning of another -/
def forgeDoc : List Call := [.docStart 0, .fldStr 1 (txt "a") (txt "x\", \"b\": \"y") false, .docEnd 0]

/-- C52 needs plain text: a text may even add a field to the document. -/
theorem C52_counterexample_forged : Text (out .json forgeDoc) (.obj [(txt "a", .str (txt "x")), (txt "b", .str (txt "y"))]) := by
  have pl : ∀ t ∈ [txt "a", txt "b", txt "x", txt "y"], Plain t := by unfold Plain; decide +kernel
  have := Text.members [] [⟨[10, 32, 32, 32, 32], txt "a", [], [32] ++ ([34] ++ txt "x" ++ [34]) ++ [], .str (txt "x")⟩,
    ⟨[32], txt "b", [], [32] ++ ([34] ++ txt "y" ++ [34]) ++ [10], .str (txt "y")⟩] [10] (by simp [Ws]) (by simp [Ws, IsWs]) (by simp)
    (by
      intro m hm
      simp only [List.mem_cons, List.not_mem_nil, or_false] at hm
      rcases hm with rfl | rfl
      · exact ⟨by simp [Ws, IsWs], by simp [Ws], pl _ (by simp)⟩
      · exact ⟨by simp [Ws, IsWs], by simp [Ws], pl _ (by simp)⟩)
    (by
      intro m hm
      simp only [List.mem_cons, List.not_mem_nil, or_false] at hm
      rcases hm with rfl | rfl
      · exact Text.str [32] _ [] (by simp [Ws, IsWs]) (by simp [Ws]) (pl _ (by simp))
      · exact Text.str [32] _ [10] (by simp [Ws, IsWs]) (by simp [Ws, IsWs]) (pl _ (by simp)))
  have e : out .json forgeDoc = [] ++ ([123] ++ List.intercalate [44] ([⟨[10, 32, 32, 32, 32], txt "a", [],
      [32] ++ ([34] ++ txt "x" ++ [34]) ++ [], .str (txt "x")⟩,
      ⟨[32], txt "b", [], [32] ++ ([34] ++ txt "y" ++ [34]) ++ [10], .str (txt "y")⟩].map Member.all) ++ [125]) ++ [10] := by
    decide +kernel
  rw [e]
  exact this

end Sid.Props
