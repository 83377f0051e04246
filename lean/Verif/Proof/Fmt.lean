import Verif.Proof.Json
import Verif.Spec.Fmt
import Verif.Props.Base64
/-
The JSON output of properly nested calls.
-/
namespace Sid.Fmt
open Sid.Spec.Json Sid.Spec.Fmt

theorem ws_nl : Ws [10] := by simp [Ws, IsWs]

theorem ws_indent (l : Int) : Ws (indent l) := by
  intro c hc
  rw [indent, List.mem_replicate] at hc
  exact .inl hc.2

theorem dec_digits (n : Nat) : ∃ ds, dec n = digitText ds ∧ Digits ds ∧ value ds = n ∧ (ds = [0] ∨ 0 < n) := by
  induction n using Nat.strongRecOn with
  | ind n ih =>
    rw [dec]
    split
    · next h =>
      refine ⟨[n], rfl, ⟨by simpa using h, by simp, by simp⟩, by simp [value], ?_⟩
      by_cases h0 : n = 0
      · exact .inl (by rw [h0])
      · exact .inr (by omega)
    · next h =>
      obtain ⟨ds, h1, h2, h3, h4⟩ := ih (n / 10) (by omega)
      refine ⟨ds ++ [n % 10], ?_, ⟨?_, by simp, ?_⟩, ?_, .inr (by omega)⟩
      · rw [h1]; simp [digitText]
      · intro d hd
        rcases List.mem_append.mp hd with hd | hd
        · exact h2.small d hd
        · simp at hd; omega
      · intro hh
        exfalso
        cases ds with
        | nil => exact h2.nonempty rfl
        | cons d ds =>
          simp at hh
          subst hh
          have := h2.noZero rfl
          rw [this] at h3
          simp [value] at h3
          omega
      · have : value (ds ++ [n % 10]) = 10 * value ds + n % 10 := by simp [value, List.foldl_append]
        rw [this, h3]; omega

theorem text_dec (n : Nat) (w : List UInt8) (hw : Ws w) : Text (w ++ dec n) (.num n) := by
  obtain ⟨ds, h1, h2, h3, -⟩ := dec_digits n
  rw [h1, ← h3]
  simpa using Text.num w ds [] hw (by simp [Ws]) h2

theorem text_decInt (i : Int) (w : List UInt8) (hw : Ws w) : Text (w ++ decInt i) (.num i) := by
  cases i with
  | ofNat n => exact text_dec n w hw
  | negSucc n =>
    obtain ⟨ds, h1, h2, h3, -⟩ := dec_digits (n + 1)
    have := Text.neg w ds [] hw (by simp [Ws]) h2
    rw [h3] at this
    have e : Int.negSucc n = -((n + 1 : Nat) : Int) := rfl
    rw [decInt, h1, e]
    simpa using this

theorem text_quoted (s w w' : List UInt8) (hw : Ws w) (hw' : Ws w') (hs : Plain s) : Text (w ++ ([34] ++ s ++ [34]) ++ w') (.str s) :=
  Text.str w s w' hw hw' hs

theorem binary_eq {v : List UInt8} (h : 4 * ((v.length + 2) / 3) + 1 < 2 ^ 64) (t : Str) : binary v t = Spec.Base64.encode v ++ t := by
  unfold binary
  by_cases hv : v = []
  · subst hv
    have e1 : Base64.encode (some []) ([] : List UInt8).length true (Base64.encodedLen ([] : List UInt8).length) = .written [0] := by
      decide +kernel
    have e2 : Spec.Base64.encode [] = [] := by decide +kernel
    rw [e1, e2]; rfl
  · rw [(Props.C01_base64_round_trip v hv h).1]
    simp

theorem base64_plain (v : List UInt8) (h : 4 * ((v.length + 2) / 3) + 1 < 2 ^ 64) : Plain (Spec.Base64.encode v) := by
  intro c hc
  by_cases hv : v = []
  · subst hv
    have e2 : Spec.Base64.encode [] = [] := by decide +kernel
    rw [e2] at hc; cases hc
  · obtain ⟨h1, -⟩ := (Props.C01_base64_round_trip v hv h).2.1 c hc
    have key : ∀ c ∈ Spec.Base64.alphabet, 32 ≤ c ∧ c ≠ 34 ∧ c ≠ 92 := by decide +kernel
    rcases h1 with h1 | rfl
    · exact key c h1
    · decide +kernel

/-- what a part appends: a comma if it is not the first, then an item or a member -/
def PartText (comma : Bool) (o : List UInt8) (name : Option (List UInt8)) (j : J) : Prop :=
  match name with
  | none => ∃ b, o = (if comma then [44] else []) ++ b ∧ Text b j
  | some n => ∃ w t, o = (if comma then [44] else []) ++ (w ++ quoted n ++ [58] ++ t) ∧ Ws w ∧ Plain n ∧ Text t j

theorem intercalate_flatten : ∀ (ps : List (List UInt8)),
    ((ps.mapIdx fun i b => (if decide (i ≠ 0) then [44] else []) ++ b)).flatten = List.intercalate [44] ps := by
  have aux : ∀ (ps : List (List UInt8)) (a : List UInt8), a ++ (ps.map fun b => [44] ++ b).flatten = List.intercalate [44] (a :: ps) := by
    intro ps
    induction ps with
    | nil => intro a; simp [List.intercalate]
    | cons b ps ih =>
      intro a
      rw [intercalate_cons₂, ← ih b]
      simp
  intro ps
  cases ps with
  | nil => rfl
  | cons a ps =>
    rw [← aux ps a, List.mapIdx_cons, List.flatten_cons]
    have e : List.mapIdx (fun i b => (if decide (i + 1 ≠ 0) then [44] else []) ++ b) ps = ps.map fun b => [44] ++ b := by
      apply List.ext_getElem
      · simp
      · intro i h1 h2; simp
    rw [e]
    simp

theorem out_append (f : Format) (a b : List Call) : out f (a ++ b) = out f a ++ out f b := by simp [out]

theorem out_flatten (f : Format) (l : List (List Call)) : out f l.flatten = (l.map (out f)).flatten := by
  induction l with
  | nil => rfl
  | cons a l ih => rw [List.flatten_cons, out_append, ih]; simp

theorem items_text (ps : List (List Call × J)) (h : ∀ i (h : i < ps.length), PartText (i ≠ 0) (out .json ps[i].1) none ps[i].2) :
    ∃ l : List (List UInt8 × J), out .json (ps.map (·.1)).flatten = List.intercalate [44] (l.map Prod.fst) ∧
      l.map Prod.snd = ps.map (·.2) ∧ ∀ x ∈ l, Text x.1 x.2 := by
  have hb : ∀ i : Fin ps.length, ∃ b, out .json ps[i].1 = (if decide (i.val ≠ 0) then [44] else []) ++ b ∧ Text b ps[i].2 := fun i => h i i.2
  have ⟨f, hf⟩ : ∃ f : Fin ps.length → List UInt8, ∀ i, out .json ps[i].1 = (if decide (i.val ≠ 0) then [44] else []) ++ f i ∧
      Text (f i) ps[i].2 := ⟨fun i => Classical.choose (hb i), fun i => Classical.choose_spec (hb i)⟩
  refine ⟨List.ofFn fun i => (f i, ps[i].2), ?_, ?_, ?_⟩
  · rw [out_flatten, ← intercalate_flatten]
    congr 1
    apply List.ext_getElem
    · simp
    · intro i h1 h2
      simp at h1
      simpa using (hf ⟨i, h1⟩).1
  · apply List.ext_getElem
    · simp
    · intro i h1 h2
      simp
  · intro x hx
    obtain ⟨i, hi⟩ := List.mem_ofFn.mp hx
    rw [← hi]
    exact (hf i).2

theorem members_text (ps : List (List Call × List UInt8 × J))
    (h : ∀ i (h : i < ps.length), PartText (i ≠ 0) (out .json ps[i].1) (some ps[i].2.1) ps[i].2.2) :
    ∃ l : List Member, out .json (ps.map (·.1)).flatten = List.intercalate [44] (l.map Member.all) ∧
      l.map (fun m => (m.name, m.val)) = ps.map (·.2) ∧ (∀ m ∈ l, Ws m.before ∧ Ws m.after ∧ Plain m.name) ∧
      ∀ m ∈ l, Text m.text m.val := by
  have hb : ∀ i : Fin ps.length, ∃ m : Member, out .json ps[i].1 = (if decide (i.val ≠ 0) then [44] else []) ++ m.all ∧
      (m.name, m.val) = ps[i].2 ∧ (Ws m.before ∧ Ws m.after ∧ Plain m.name) ∧ Text m.text m.val := by
    intro i
    obtain ⟨w, t, h1, h2, h3, h4⟩ := h i i.2
    exact ⟨⟨w, _, [], t, _⟩, h1.trans (by simp [Member.all]), rfl, ⟨h2, by simp [Ws], h3⟩, h4⟩
  have ⟨f, hf⟩ : ∃ f : Fin ps.length → Member, ∀ i, out .json ps[i].1 = (if decide (i.val ≠ 0) then [44] else []) ++ (f i).all ∧
      ((f i).name, (f i).val) = ps[i].2 ∧ (Ws (f i).before ∧ Ws (f i).after ∧ Plain (f i).name) ∧ Text (f i).text (f i).val :=
    ⟨fun i => Classical.choose (hb i), fun i => Classical.choose_spec (hb i)⟩
  refine ⟨List.ofFn f, ?_, ?_, ?_, ?_⟩
  · rw [out_flatten, ← intercalate_flatten]
    congr 1
    apply List.ext_getElem
    · simp
    · intro i h1 h2
      simp at h1
      simpa using (hf ⟨i, h1⟩).1
  · apply List.ext_getElem
    · simp
    · intro i h1 h2
      simp at h1
      simpa using (hf ⟨i, h1⟩).2.1
  · intro x hx
    obtain ⟨i, hi⟩ := List.mem_ofFn.mp hx
    rw [← hi]
    exact (hf i).2.2.1
  · intro x hx
    obtain ⟨i, hi⟩ := List.mem_ofFn.mp hx
    rw [← hi]
    exact (hf i).2.2.2

theorem intercalate_pad_last {l : List (List UInt8)} (hl : l ≠ []) (u : List UInt8) :
    List.intercalate [44] l ++ u = List.intercalate [44] (l.dropLast ++ [l.getLast hl ++ u]) := by
  induction l with
  | nil => exact absurd rfl hl
  | cons a l ih =>
    cases l with
    | nil => simp [List.intercalate]
    | cons b l =>
      rw [intercalate_cons₂]
      have := ih (by simp)
      rw [List.append_assoc, List.cons_append, this]
      simp only [List.dropLast_cons_cons, List.getLast_cons_cons, List.cons_append]
      cases hd : (b :: l).dropLast ++ [(b :: l).getLast (by simp) ++ u] with
      | nil => simp at hd
      | cons x y => rw [intercalate_cons₂]

/-- an array with its brackets -/
theorem arr_text (ps : List (List Call × J)) (h : ∀ i (h : i < ps.length), PartText (i ≠ 0) (out .json ps[i].1) none ps[i].2)
    (w u w' : List UInt8) (hw : Ws w) (hu : Ws u) (hw' : Ws w') :
    Text (w ++ ([91] ++ (out .json (ps.map (·.1)).flatten ++ u) ++ [93]) ++ w') (.arr (ps.map (·.2))) := by
  obtain ⟨l, h1, h2, h3⟩ := items_text ps h
  rw [h1, ← h2]
  by_cases hl : l = []
  · subst hl
    simpa [List.intercalate] using Text.noItems w u w' hw hu hw'
  · have hl' : l.map Prod.fst ≠ [] := by simpa using hl
    rw [intercalate_pad_last hl']
    have e1 : (l.map Prod.fst).dropLast ++ [(l.map Prod.fst).getLast hl' ++ u] =
        (l.dropLast ++ [((l.getLast hl).1 ++ u, (l.getLast hl).2)]).map Prod.fst := by simp [List.getLast_map]
    have e2 : l.map Prod.snd = (l.dropLast ++ [((l.getLast hl).1 ++ u, (l.getLast hl).2)]).map Prod.snd := by
      conv => lhs; rw [← List.dropLast_concat_getLast hl]
      simp
    rw [e1, e2]
    refine Text.items w _ w' hw hw' (by simp) ?_
    intro x hx
    rcases List.mem_append.mp hx with hx | hx
    · exact h3 x (List.dropLast_subset _ hx)
    · rw [List.mem_singleton.mp hx]
      simpa using (h3 _ (List.getLast_mem hl)).pad (u := []) (by simp [Ws]) hu

/-- an object with its braces -/
theorem obj_text (ps : List (List Call × List UInt8 × J))
    (h : ∀ i (h : i < ps.length), PartText (i ≠ 0) (out .json ps[i].1) (some ps[i].2.1) ps[i].2.2)
    (w u w' : List UInt8) (hw : Ws w) (hu : Ws u) (hw' : Ws w') :
    Text (w ++ ([123] ++ (out .json (ps.map (·.1)).flatten ++ u) ++ [125]) ++ w') (.obj (ps.map (·.2))) := by
  obtain ⟨l, h1, h2, h3, h4⟩ := members_text ps h
  rw [h1, ← h2]
  by_cases hl : l = []
  · subst hl
    simpa [List.intercalate] using Text.noMembers w u w' hw hu hw'
  · have hl' : l.map Member.all ≠ [] := by simpa using hl
    rw [intercalate_pad_last hl']
    have e1 : (l.map Member.all).dropLast ++ [(l.map Member.all).getLast hl' ++ u] =
        (l.dropLast ++ [{ l.getLast hl with text := (l.getLast hl).text ++ u }]).map Member.all := by
      simp [List.getLast_map, Member.all]
    have e2 : l.map (fun m => (m.name, m.val)) =
        (l.dropLast ++ [{ l.getLast hl with text := (l.getLast hl).text ++ u }]).map (fun m : Member => (m.name, m.val)) := by
      conv => lhs; rw [← List.dropLast_concat_getLast hl]
      simp
    rw [e1, e2]
    refine Text.members w _ w' hw hw' (by simp) ?_ ?_
    · intro x hx
      rcases List.mem_append.mp hx with hx | hx
      · exact h3 x (List.dropLast_subset _ hx)
      · rw [List.mem_singleton.mp hx]
        exact h3 (l.getLast hl) (List.getLast_mem hl)
    · intro x hx
      rcases List.mem_append.mp hx with hx | hx
      · exact h4 x (List.dropLast_subset _ hx)
      · rw [List.mem_singleton.mp hx]
        simpa using (h4 (l.getLast hl) (List.getLast_mem hl)).pad (u := []) (by simp [Ws]) hu

theorem PlainCalls.part {ps : List (List Call)} {a b : List Call} (h : PlainCalls (a ++ ps.flatten ++ b)) (i : Nat) (hi : i < ps.length) :
    PlainCalls ps[i] := by
  intro c hc
  refine h c ?_
  simp only [List.mem_append, List.mem_flatten]
  exact .inl (.inr ⟨ps[i], List.getElem_mem hi, hc⟩)

theorem PlainCalls.part' {α : Type} {ps : List (List Call × α)} {a b : List Call} (h : PlainCalls (a ++ (ps.map (·.1)).flatten ++ b)) {i : Nat}
    (hi : i < ps.length) : PlainCalls ps[i].1 := by
  have := PlainCalls.part h i (by simpa using hi)
  rwa [List.getElem_map] at this

theorem part_text {c : Bool} {calls : List Call} {name : Option (List UInt8)} {j : J} (h : Part c calls name j) :
    PlainCalls calls → PartText c (out .json calls) name j := by
  have ws32 : Ws [32] := by simp [Ws, IsWs]
  have ws0 : Ws [] := by simp [Ws]
  have wsi : ∀ l, Ws ([10] ++ indent l) := fun l => ws_nl.append (ws_indent l)
  induction h with
  | fldStr l n v c =>
    intro hp
    obtain ⟨ht, -⟩ := hp (.fldStr l n v c) (by simp)
    refine ⟨[10] ++ indent l, [32] ++ ([34] ++ v ++ [34]) ++ [], ?_, wsi l, ht n (by simp [texts]),
      text_quoted v [32] [] ws32 ws0 (ht v (by simp [texts]))⟩
    simp [out, emit, fldStr, commaNl, quoted]
  | fldBin l n v c =>
    intro hp
    obtain ⟨ht, hb⟩ := hp (.fldBin l n v c) (by simp)
    refine ⟨[10] ++ indent l, [32] ++ ([34] ++ Spec.Base64.encode v ++ [34]) ++ [], ?_, wsi l, ht n (by simp [texts]),
      text_quoted _ [32] [] ws32 ws0 (base64_plain v hb)⟩
    simp [out, emit, fldBin, commaNl, quoted, binary_eq hb]
  | fldUint l n v c =>
    intro hp
    obtain ⟨ht, -⟩ := hp (.fldUint l n v c) (by simp)
    refine ⟨[10] ++ indent l, [32] ++ dec v, ?_, wsi l, ht n (by simp [texts]), text_dec v [32] ws32⟩
    simp [out, emit, fldUint, commaNl, quoted]
  | fldInt l n v c =>
    intro hp
    obtain ⟨ht, -⟩ := hp (.fldInt l n v c) (by simp)
    refine ⟨[10] ++ indent l, [32] ++ decInt v, ?_, wsi l, ht n (by simp [texts]), text_decInt v [32] ws32⟩
    simp [out, emit, fldInt, commaNl, quoted]
  | arrUint l v c =>
    intro hp
    exact ⟨[10] ++ indent l ++ dec v, by simp [out, emit, arrUint, commaNl], text_dec v _ (wsi l)⟩
  | arrStr l v c =>
    intro hp
    obtain ⟨ht, -⟩ := hp (.arrStr l v c) (by simp)
    exact ⟨[10] ++ indent l ++ ([34] ++ v ++ [34]) ++ [], by simp [out, emit, arrStr, commaNl],
      text_quoted v _ [] (wsi l) ws0 (ht v (by simp [texts]))⟩
  | arrBin l v c =>
    intro hp
    obtain ⟨-, hb⟩ := hp (.arrBin l v c) (by simp)
    exact ⟨[10] ++ indent l ++ ([34] ++ Spec.Base64.encode v ++ [34]) ++ [], by simp [out, emit, arrBin, commaNl, binary_eq hb],
      text_quoted _ _ [] (wsi l) ws0 (base64_plain v hb)⟩
  | arr l l' n c ps hps ih =>
    intro hp
    obtain ⟨ht, -⟩ := hp (.arrStart l n c) (by simp)
    have hparts := fun i (hi : i < ps.length) => ih i hi (PlainCalls.part' hp hi)
    refine ⟨[10] ++ indent l, _, ?_, wsi l, ht n (by simp [texts]), arr_text ps hparts [32] ([10] ++ indent l') [] ws32 (wsi l') ws0⟩
    rw [out_append, out_append]
    simp [out, emit, arrStart, arrEnd, commaNl, quoted]
  | elm l l' c ps hps ih =>
    intro hp
    have hparts := fun i (hi : i < ps.length) => ih i hi (PlainCalls.part' hp hi)
    refine ⟨_, ?_, obj_text ps hparts ([10] ++ indent l) ([10] ++ indent l') [] (wsi l) (wsi l') ws0⟩
    rw [out_append, out_append]
    simp [out, emit, elmStart, elmEnd, commaNl]
  | namedElm l l1 l' n c ps hps ih =>
    intro hp
    obtain ⟨ht, -⟩ := hp (.elmName l n c) (by simp)
    have hparts := fun i (hi : i < ps.length) => ih i hi (PlainCalls.part' hp hi)
    refine ⟨[10] ++ indent l, _, ?_, wsi l, ht n (by simp [texts]), obj_text ps hparts ([10] ++ ([10] ++ indent l1)) ([10] ++ indent l') []
      (ws_nl.append (wsi l1)) (wsi l') ws0⟩
    rw [out_append, out_append]
    simp [out, emit, elmName, elmStart, elmEnd, commaNl, quoted]
  | namedDoc l l1 l' n c ps hps ih =>
    intro hp
    obtain ⟨ht, -⟩ := hp (.elmName l n c) (by simp)
    have hparts := fun i (hi : i < ps.length) => ih i hi (PlainCalls.part' hp hi)
    refine ⟨[10] ++ indent l, _, ?_, wsi l, ht n (by simp [texts]), obj_text ps hparts ([10] ++ indent l1) ([10] ++ indent l') [10]
      (wsi l1) (wsi l') ws_nl⟩
    rw [out_append, out_append]
    simp [out, emit, elmName, docStart, docEnd, commaNl, quoted]

theorem document_text {calls : List Call} {j : J} (h : Document calls j) (hp : PlainCalls calls) : Text (out .json calls) j := by
  have wsi : ∀ l, Ws ([10] ++ indent l) := fun l => ws_nl.append (ws_indent l)
  cases h with
  | doc l l' ps hps =>
    have hparts := fun i (hi : i < ps.length) => part_text (hps i hi) (PlainCalls.part' hp hi)
    have := obj_text ps hparts (indent l) ([10] ++ indent l') [10] (ws_indent l) (wsi l') ws_nl
    rw [out_append, out_append]
    simpa [out, emit, docStart, docEnd] using this

end Sid.Fmt
