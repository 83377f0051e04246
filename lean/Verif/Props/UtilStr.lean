import Verif.Proof.UtilStr
import Verif.Model.Ifc
/-
C48: vectors of strings, searching strings.  C70: lines with a key and a value.
-/
namespace Sid.Props
open Sid.UStr Sid.Spec.UStr
open Sid.Ifc (txt)

/-- the same for a text that may be missing -/
def WrittenO (d q : List UInt8) : Option Str → List Str → Prop
  | none, ws => ws = []
  | some s, ws => Written d q s ws

/-- a text without NUL, or none -/
def NoNul : Option Str → Prop
  | none => True
  | some s => (0 : UInt8) ∉ s

theorem iterTokens_written {s : Option Str} {d q : Option Str} {ws : List Str} (h : WrittenO (d.getD []) (q.getD []) s ws) :
    (iterTokens s d q).2 = true ∧ ∀ acc, (iterTokens s d q).1.foldl push acc = acc ++ ws := by
  cases s with
  | none => cases h; simp [iterTokens]
  | some s => exact written_tokens h

theorem iterTokens_ok {s : Option Str} {d q : Option Str} (h : (iterTokens s d q).2 = true) :
    ∃ ws, WrittenO (d.getD []) (q.getD []) s ws := by
  cases s with
  | none => exact ⟨[], rfl⟩
  | some s => exact tokens_written s.length s (Nat.le_refl _) h

theorem iterTokens_noNul {s : Option Str} {d q : Option Str} (h : NoNul s) : ∀ t ∈ (iterTokens s d q).1, (0 : UInt8) ∉ t.1 := by
  cases s with
  | none => simp [iterTokens]
  | some s => intro t ht h0; exact h (tokens_sub _ _ s.length s (Nat.le_refl _) false t ht 0 h0)

theorem iterTokens_head (s : Option Str) (d q : Option Str) : ∀ t ∈ (iterTokens s d q).1.head?, t.2 = false := by
  cases s with
  | none => simp [iterTokens]
  | some s => exact tokens_head _ _ s

/-- the vector made of tokens -/
theorem strings_of_tokens {l : List (Str × Bool)} (h0 : ∀ t ∈ l, (0 : UInt8) ∉ t.1) :
    (Strv.mk ((l.foldl copyToken ⟨[], []⟩).ptrs.map .ptr ++ [.null]) (l.foldl copyToken ⟨[], []⟩).area).strings =
      some (l.foldl push []) := by
  obtain ⟨h1, h2⟩ := foldl_rel l (c := ⟨[], []⟩) (acc := []) ⟨rfl, rfl⟩
  have hn := foldl_push_sub (P := fun w => (0 : UInt8) ∉ w) (fun a b ha hb => by simp [ha, hb]) l h0 (acc := []) (by simp)
  have := vread_pack (l.foldl push []) hn [] []
  simpa [Strv.strings, h1, h2] using this

/-- **C48.** A text (or up to three of them, as when a program's name and its arguments are given separately) is split into exactly the
    words it is a way of writing down: separated by any delimiters, with any characters in quotes, quoted and bare pieces next to each
    other forming one word. -/
theorem C48_words (pre s suf d q : Option Str) (h1 : NoNul pre) (h2 : NoNul s) (h3 : NoNul suf) (ws : List Str) :
    (∃ v, combToStrv none pre s suf d q = some v ∧ v.strings = some ws) ↔
      ∃ a b c, WrittenO (d.getD []) (q.getD []) pre a ∧ WrittenO (d.getD []) (q.getD []) s b ∧
        WrittenO (d.getD []) (q.getD []) suf c ∧ ws = a ++ b ++ c := by
  have h0 : ∀ t ∈ (iterTokens pre d q).1 ++ (iterTokens s d q).1 ++ (iterTokens suf d q).1, (0 : UInt8) ∉ t.1 := by
    intro t ht
    rcases List.mem_append.mp ht with ht | ht
    · rcases List.mem_append.mp ht with ht | ht
      · exact iterTokens_noNul h1 t ht
      · exact iterTokens_noNul h2 t ht
    · exact iterTokens_noNul h3 t ht
  have hs := strings_of_tokens h0
  constructor
  · rintro ⟨v, hv, hw⟩
    simp only [combToStrv] at hv
    split at hv
    · cases hv
    · next hok =>
      simp only [Bool.not_eq_true', Bool.not_eq_false, Bool.and_eq_true] at hok
      obtain ⟨⟨o1, o2⟩, o3⟩ := hok
      obtain ⟨a, ha⟩ := iterTokens_ok o1
      obtain ⟨b, hb⟩ := iterTokens_ok o2
      obtain ⟨c, hc⟩ := iterTokens_ok o3
      cases hv
      rw [hs, List.foldl_append, List.foldl_append, (iterTokens_written ha).2, (iterTokens_written hb).2,
        (iterTokens_written hc).2] at hw
      exact ⟨a, b, c, ha, hb, hc, by simpa using hw.symm⟩
  · rintro ⟨a, b, c, ha, hb, hc, rfl⟩
    refine ⟨_, ?_, hs.trans ?_⟩
    · simp only [combToStrv, (iterTokens_written ha).1, (iterTokens_written hb).1, (iterTokens_written hc).1]
      rfl
    · rw [List.foldl_append, List.foldl_append, (iterTokens_written ha).2, (iterTokens_written hb).2, (iterTokens_written hc).2]
      simp

/-- **C48.** There is never more than one list of words a text stands for, and splitting fails exactly for a text that stands for none
    (one with a quote that is not closed). -/
theorem C48_words_unique (d q s : Str) (ws ws' : List Str) (h : Written d q s ws) (h' : Written d q s ws') : ws = ws' :=
  written_unique h h'

/-- **C48.** Failing: see above. -/
theorem C48_words_fail (pre s suf d q : Option Str) :
    combToStrv none pre s suf d q = none ↔
      (¬ ∃ a, WrittenO (d.getD []) (q.getD []) pre a) ∨ (¬ ∃ b, WrittenO (d.getD []) (q.getD []) s b) ∨
      ¬ ∃ c, WrittenO (d.getD []) (q.getD []) suf c := by
  have key : ∀ x : Option Str, (iterTokens x d q).2 = true ↔ ∃ ws, WrittenO (d.getD []) (q.getD []) x ws :=
    fun x => ⟨iterTokens_ok, fun ⟨ws, h⟩ => (iterTokens_written h).1⟩
  simp only [combToStrv, ← key]
  cases (iterTokens pre d q).2 <;> cases (iterTokens s d q).2 <;> cases (iterTokens suf d q).2 <;> simp

/-- **C48.** An unclosed quote: a text ending in a word with a quote that does not occur again stands for nothing. -/
theorem C48_unclosed (d q : Str) (s : Str) (ws : List Str) (c : UInt8) (t : Str) (h : Written d q s ws)
    (hc : c ∈ q) (hd : c ∉ d) (ht : c ∉ t) (x : UInt8) (hx : x ∈ d) : ¬ ∃ ws, Written d q (s ++ x :: c :: t) ws := by
  rintro ⟨ws', h'⟩
  have key : ∀ {s : Str} {ws}, Written d q s ws → (tokens d q (s ++ x :: c :: t) false).2 = false := by
    intro s ws h
    induction h with
    | blank l hl =>
      rw [tokens_blank hl, tokens_delim hx, tokens_unclosed hd hc ht]
    | word lead ps rest ws hl hne hok hb _ ih =>
      have hb' : Boundary d (rest ++ x :: c :: t) := by
        cases rest with
        | nil => exact hx
        | cons y r => exact hb
      obtain ⟨t', tk, e1, -, -⟩ := tokens_pieces ps hne hok _ hb' false
      rw [List.append_assoc, List.append_assoc, tokens_blank hl, e1]
      exact ih
  have := key h
  rw [(written_tokens h').1] at this
  cases this

theorem written_join {d q : Str} {x : UInt8} (hx : x ∈ d) : ∀ ws : List Str, (∀ w ∈ ws, w ≠ [] ∧ ∀ c ∈ w, c ∉ d ∧ c ∉ q) →
    Written d q (List.intercalate [x] ws) ws := by
  intro ws
  have hp : ∀ w : Str, ((w.map Piece.bare).map Piece.text).flatten = w ∧ ((w.map Piece.bare).map Piece.value).flatten = w := by
    intro w
    induction w with
    | nil => simp
    | cons a w ih => simp [Piece.text, Piece.value] at ih ⊢; exact ⟨ih.1, ih.2⟩
  have one : ∀ (w : Str), (w ≠ [] ∧ ∀ c ∈ w, c ∉ d ∧ c ∉ q) → ∀ (lead rest : Str) (ws : List Str), (∀ c ∈ lead, c ∈ d) →
      Boundary d rest → Written d q rest ws → Written d q (lead ++ w ++ rest) (w :: ws) := by
    intro w hw lead rest ws hl hb h
    have := Written.word lead (w.map Piece.bare) rest ws hl (by simpa using hw.1) (by
      intro p hp
      obtain ⟨c, hc, rfl⟩ := List.mem_map.mp hp
      exact hw.2 c hc) hb h
    rwa [(hp w).1, (hp w).2] at this
  have gen : ∀ (ws : List Str), (∀ w ∈ ws, w ≠ [] ∧ ∀ c ∈ w, c ∉ d ∧ c ∉ q) → ∀ (w : Str), (w ≠ [] ∧ ∀ c ∈ w, c ∉ d ∧ c ∉ q) →
      ∀ lead : Str, (∀ c ∈ lead, c ∈ d) → Written d q (lead ++ List.intercalate [x] (w :: ws)) (w :: ws) := by
    intro ws
    induction ws with
    | nil =>
      intro _ w hw lead hl
      have := one w hw lead [] [] hl trivial (.blank [] (by simp))
      simpa [List.intercalate] using this
    | cons v ws ih =>
      intro hws w hw lead hl
      have h1 := ih (fun y hy => hws y (by simp [hy])) v (hws v (by simp)) [x] (by simpa using hx)
      have h2 := one w hw lead _ _ hl (by simpa [Boundary] using hx) h1
      simpa [List.intercalate, List.intersperse] using h2
  intro hws
  cases ws with
  | nil => exact .blank _ (by simp [List.intercalate])
  | cons w ws => simpa using gen ws (fun y hy => hws y (by simp [hy])) w (hws w (by simp)) [] (by simp)

/-- **C48.** In particular joining words (not empty, without delimiters and quotes) by a delimiter and splitting the result gives the
    words again. -/
theorem C48_join (d q : Str) (x : UInt8) (hx : x ∈ d) (ws : List Str) (h : ∀ w ∈ ws, w ≠ [] ∧ ∀ c ∈ w, c ∉ d ∧ c ∉ q)
    (h0 : ∀ w ∈ ws, (0 : UInt8) ∉ w) (hx0 : x ≠ 0) :
    ∃ v, combToStrv none none (some (List.intercalate [x] ws)) none (some d) (some q) = some v ∧ v.strings = some ws := by
  refine (C48_words none (some (List.intercalate [x] ws)) none (some d) (some q) trivial ?_ trivial ws).mpr
    ⟨[], ws, [], rfl, written_join hx ws h, rfl, by simp⟩
  have : ∀ ws : List Str, (∀ w ∈ ws, (0 : UInt8) ∉ w) → (0 : UInt8) ∉ List.intercalate [x] ws := by
    intro ws
    induction ws with
    | nil => intro _; simp [List.intercalate]
    | cons w ws ih =>
      intro h
      cases ws with
      | nil => simpa [List.intercalate] using h
      | cons v ws =>
        have := ih (fun y hy => h y (by simp [hy]))
        have h1 := h w (by simp)
        simp only [List.intercalate, List.intersperse, List.flatten_cons, List.mem_append, List.mem_singleton] at this ⊢
        rintro (h' | h' | h')
        · exact h1 h'
        · exact hx0 h'.symm
        · exact this h'
  exact this ws h0

/-- **C48.** The memory for the vector is neither overrun nor too small: it takes exactly the bytes computed beforehand, for its slots
    and the strings behind them; memory given by the caller is used only if that many bytes fit. -/
theorem C48_fits (size : Option Nat) (pre s suf d q : Option Str) (v : Strv) (h : combToStrv size pre s suf d q = some v) :
    v.slots.length * 8 + v.area.length =
      fullSize (countTokens ((iterTokens pre d q).1 ++ (iterTokens s d q).1 ++ (iterTokens suf d q).1)) ∧
    (∀ n, size = some n → v.slots.length * 8 + v.area.length ≤ n) ∧ combToStrv none pre s suf d q = some v := by
  generalize hl : (iterTokens pre d q).1 ++ (iterTokens s d q).1 ++ (iterTokens suf d q).1 = l
  have hhead : ∀ t ∈ l.head?, t.2 = false := by
    intro t ht
    rw [← hl, List.append_assoc, List.head?_append, List.head?_append] at ht
    have p1 := iterTokens_head pre d q
    have p2 := iterTokens_head s d q
    have p3 := iterTokens_head suf d q
    cases e1 : (iterTokens pre d q).1.head? with
    | some a => rw [e1] at ht p1; simp at ht; subst ht; exact p1 _ rfl
    | none =>
      rw [e1] at ht
      cases e2 : (iterTokens s d q).1.head? with
      | some a => rw [e2] at ht p2; simp at ht; subst ht; exact p2 _ rfl
      | none => rw [e2] at ht; exact p3 t (by simpa using ht)
  have hc := count_push l [] (0, 0) rfl rfl (.inr hhead)
  obtain ⟨r1, r2⟩ := foldl_rel l (c := ⟨[], []⟩) (acc := []) ⟨rfl, rfl⟩
  have hfull : (Strv.mk ((l.foldl copyToken ⟨[], []⟩).ptrs.map .ptr ++ [.null]) (l.foldl copyToken ⟨[], []⟩).area).slots.length * 8 +
      (Strv.mk ((l.foldl copyToken ⟨[], []⟩).ptrs.map .ptr ++ [.null]) (l.foldl copyToken ⟨[], []⟩).area).area.length =
      fullSize (countTokens l) := by
    simp only [r1, r2, fullSize, headerSize, countTokens, List.length_append, List.length_map, offs_length, List.length_singleton]
    rw [← hc.2, ← hc.1]
    omega
  simp only [combToStrv, hl] at h ⊢
  split at h
  · cases h
  · next hok =>
    rw [if_neg hok]
    cases size with
    | none => cases h; exact ⟨hfull, by simp, rfl⟩
    | some n =>
      simp only at h
      split at h
      · cases h
      · next hn =>
        cases h
        refine ⟨hfull, ?_, rfl⟩
        intro m hm
        cases hm
        omega

/-- **C48.** Memory given by the caller is used whenever the vector fits into it, also if exactly. -/
theorem C48_used_if_fits (n : Nat) (pre s suf d q : Option Str) (v : Strv) (h : combToStrv none pre s suf d q = some v)
    (hn : v.slots.length * 8 + v.area.length ≤ n) : combToStrv (some n) pre s suf d q = some v := by
  rw [(C48_fits none pre s suf d q v h).1] at hn
  simp only [combToStrv] at h ⊢
  split at h
  · cases h
  · next hok => rw [if_neg hok, if_neg (by omega)]; exact h

example : combToStrv (some 24) none (some [97, 98, 32, 99]) none (some [32]) none = none ∧
    (combToStrv (some 29) none (some [97, 98, 32, 99]) none (some [32]) none).isSome := by decide +kernel

/-- **C48 (copying, partial).** The copy of a vector has the strings in its slots, in memory of the size computed; but the end is not
    marked: the slot behind the last string is left as it was. -/
theorem C48_copy_partial (strv : List Str) (h0 : ∀ w ∈ strv, (0 : UInt8) ∉ w) :
    ∃ v, strvCopy none strv = some v ∧ v.slots.getLast? = some .junk ∧ v.slots.length = strv.length + 1 ∧
      (Strv.mk (v.slots.dropLast ++ [.null]) v.area).strings = some strv := by
  have hm : ∀ (l acc : List Str), (l.map fun s => (s, false)).foldl push acc = acc ++ l := by
    intro l
    induction l with
    | nil => simp
    | cons a l ih => intro acc; rw [List.map_cons, List.foldl_cons, push_new, ih]; simp
  have hs := strings_of_tokens (l := strv.map fun s => (s, false)) (by
    intro t ht
    obtain ⟨w, hw, rfl⟩ := List.mem_map.mp ht
    exact h0 w hw)
  obtain ⟨-, r2⟩ := foldl_rel (strv.map fun s => (s, false)) (c := ⟨[], []⟩) (acc := []) ⟨rfl, rfl⟩
  rw [hm] at hs r2
  refine ⟨_, rfl, by simp, ?_, ?_⟩
  · simp [r2, offs_length]
  · simpa using hs

theorem count_plain (l : List Str) (c : Nat × Nat) :
    (l.map fun s => (s, false)).foldl (fun (c : Nat × Nat) (t : Str × Bool) => (if t.2 then c.1 else c.1 + 1, c.2 + t.1.length)) c =
      (c.1 + l.length, c.2 + (l.map List.length).sum) := by
  induction l generalizing c with
  | nil => simp
  | cons a l ih =>
    rw [List.map_cons, List.foldl_cons, ih]
    simp only [Bool.false_eq_true, if_false, List.length_cons, List.map_cons, List.sum_cons]
    exact Prod.ext (by simp only; omega) (by simp only; omega)

/-- **C48 (copying into memory of the caller).** The copy is the same, if the memory has room for the vector and its end, and for the
    strings and their ends; otherwise it is refused. -/
theorem C48_copy_needs_room (strv : List Str) (n : Nat) :
    strvCopy (some n) strv =
      if 8 * (strv.length + 1) + ((strv.map List.length).sum + strv.length) ≤ n then strvCopy none strv else none := by
  have e : fullSize (countTokens (strv.map fun s => (s, false))) =
      8 * (strv.length + 1) + ((strv.map List.length).sum + strv.length) := by
    unfold countTokens
    rw [count_plain]
    simp only [fullSize, headerSize]
    omega
  simp only [strvCopy, e]
  by_cases h : 8 * (strv.length + 1) + ((strv.map List.length).sum + strv.length) ≤ n
  · rw [if_neg (by omega), if_pos h]
  · rw [if_pos (by omega), if_neg h]

/-- **C48.** So reading the copy as a vector is undefined, for every vector. -/
theorem C48_counterexample_copy (strv : List Str) (v : Strv) (h : strvCopy none strv = some v) : v.strings = none := by
  have hj : ∀ (l : List Nat) (area : List UInt8), vread area (l.map .ptr ++ [.junk]) = none := by
    intro l area
    induction l with
    | nil => rfl
    | cons a l ih =>
      simp only [List.map_cons, List.cons_append, vread, ih]
      cases cstrAt area a <;> rfl
  simp only [strvCopy] at h
  cases h
  exact hj _ _

/-- **C48.** A text is reported to have a prefix and a suffix (either may be missing, upper and lower case may be ignored) if and only
    if it consists of the prefix, something, and the suffix. -/
theorem C48_prefix_suffix (h : Str) (pre suf : Option Str) (ic : Bool) :
    (combstr h pre none suf ic = some 0 ↔ ∃ m, fold ic h = fold ic (pre.getD []) ++ m ++ fold ic (suf.getD [])) ∧
    (combstr h pre none suf ic = some 0 ∨ combstr h pre none suf ic = none) := by
  simp only [combstr, Option.getD_none, List.length_nil, Nat.add_zero]
  rw [← prefix_suffix_iff, fold_length, fold_length, fold_length]
  split
  · next hl => exact ⟨by simp; omega, .inr rfl⟩
  · next hl =>
    have h1 := pm_iff (ic := ic) (h := h) (p := pre.getD [])
    have h2 := sm_iff (ic := ic) (h := h) (s := suf.getD []) (by omega)
    split
    · next hb =>
      rw [Bool.and_eq_true, h1, h2] at hb
      exact ⟨⟨fun _ => ⟨by omega, hb⟩, fun _ => rfl⟩, .inl rfl⟩
    · next hb =>
      rw [Bool.and_eq_true, h1, h2] at hb
      exact ⟨⟨nofun, fun h => absurd h.2 hb⟩, .inr rfl⟩

/-- **C48.** With a text to be found between them, the result is the first place behind the prefix where it occurs. -/
theorem C48_needle (h : Str) (pre suf : Option Str) (n : Str) (ic : Bool) (i : Nat) (e : combstr h pre (some n) suf ic = some i) :
    (∃ m, fold ic h = fold ic (pre.getD []) ++ m ++ fold ic (suf.getD [])) ∧ (pre.getD []).length ≤ i ∧
    fold ic n <+: fold ic (h.drop i) ∧ ∀ j, (pre.getD []).length ≤ j → j < i → ¬ fold ic n <+: fold ic (h.drop j) := by
  simp only [combstr, Option.getD_some] at e
  split at e
  · cases e
  · next hl =>
    have h1 := pm_iff (ic := ic) (h := h) (p := pre.getD [])
    have h2 := sm_iff (ic := ic) (h := h) (s := suf.getD []) (by omega)
    split at e
    · next k hk =>
      split at e
      · next hb =>
        cases e
        rw [Bool.and_eq_true, h1, h2] at hb
        obtain ⟨-, k2, k3⟩ := strstr_some.mp hk
        rw [List.drop_drop] at k2
        refine ⟨prefix_suffix_iff.mp ⟨by rw [fold_length, fold_length, fold_length]; omega, hb⟩, Nat.le_add_right _ _, k2, ?_⟩
        intro j hj1 hj2
        have := k3 (j - (pre.getD []).length) (by omega)
        rwa [List.drop_drop, Nat.add_sub_cancel' hj1] at this
      · cases e
    · cases e

/-- **C48.** But what is found between prefix and suffix may reach into the suffix: "pab" is reported to be "p", something with "xa",
    and "ab". -/
theorem C48_counterexample_overlap :
    combstr (txt "pxxxab") (some (txt "p")) (some (txt "xa")) (some (txt "ab")) false = some 3 ∧
    ¬ ∃ a b, txt "pxxxab" = txt "p" ++ a ++ txt "xa" ++ b ++ txt "ab" := by
  refine ⟨by decide +kernel, ?_⟩
  rintro ⟨a, b, h⟩
  have hl := congrArg List.length h
  have h6 : (txt "pxxxab").length = 6 := by decide +kernel
  have h1 : (txt "p").length = 1 := by decide +kernel
  have h2 : (txt "xa").length = 2 := by decide +kernel
  have h3 : (txt "ab").length = 2 := by decide +kernel
  rw [h6] at hl
  simp only [List.length_append, h1, h2, h3] at hl
  have e : txt "pxxxab" = [112, 120, 120, 120, 97, 98] := by decide +kernel
  have e1 : txt "p" = [112] := by decide +kernel
  have e2 : txt "xa" = [120, 97] := by decide +kernel
  have e3 : txt "ab" = [97, 98] := by decide +kernel
  rw [e, e1, e2, e3] at h
  have hab : a.length + b.length = 1 := by omega
  cases a with
  | nil => simp at h
  | cons x a =>
    have : a = [] := List.eq_nil_of_length_eq_zero (by simp at hab; omega)
    have : b = [] := List.eq_nil_of_length_eq_zero (by simp at hab; omega)
    subst_vars
    simp at h

/-- **C48 (search from the end, partial).** The place found is the last one where the text occurs, and nothing is found only if it
    occurs nowhere — but for the very beginning, which is never looked at. -/
theorem C48_last_occurrence_partial (h n : Str) :
    (∀ p, rstr h n = some p → 0 < p ∧ n <+: h.drop p ∧ ∀ p', p < p' → p' ≤ h.length → ¬ n <+: h.drop p') ∧
    (rstr h n = none → ∀ p, 0 < p → p ≤ h.length → ¬ n <+: h.drop p) := by
  have far : ∀ p, h.length - n.length < p → p ≤ h.length → ¬ n <+: h.drop p := by
    intro p h1 h2 hp
    have := hp.length_le
    simp at this
    omega
  unfold rstr
  split
  · next hl =>
    refine ⟨by simp, fun _ p h1 h2 hp => ?_⟩
    have := hp.length_le
    simp at this
    omega
  · constructor
    · intro p e
      obtain ⟨h1, h2, h3, h4⟩ := rstrFrom_some e
      refine ⟨h1, h3, fun p' h5 h6 => ?_⟩
      by_cases hm : p' ≤ h.length - n.length
      · exact h4 p' h5 hm
      · exact far p' (by omega) h6
    · intro e p h1 h2
      by_cases hm : p ≤ h.length - n.length
      · exact rstrFrom_none e p h1 hm
      · exact far p (by omega) h2

/-- **C48.** A text occurring only at the beginning is not found — not even in itself. -/
theorem C48_counterexample_beginning (n : Str) : n <+: n.drop 0 ∧ rstr n n = none := by
  refine ⟨List.prefix_rfl, ?_⟩
  simp [rstr, rstrFrom]

/-- **C48.** Copies: of the first characters, of a part of a text, of three texts one after the other; refused if the given memory does
    not hold the copy with its NUL, or the part does not lie within the text. -/
theorem C48_copies (s : Str) (off len n : Nat) (pre str suf : Option Str) (ho : off + len < 2 ^ 64) (hn : len ≤ 2147483647) :
    (copyLen s len none = some (s.take len)) ∧
    (copyLen s len (some n) = if len + 1 ≤ n then some (s.take len) else none) ∧
    (copySubstr none s off len = if off + len ≤ s.length then some ((s.drop off).take len) else none) ∧
    (copySubstr (some n) s off len = if off + len ≤ s.length ∧ len + 1 ≤ n then some ((s.drop off).take len) else none) ∧
    (combToStr none pre str suf = some (pre.getD [] ++ str.getD [] ++ suf.getD [])) ∧
    (combToStr (some n) pre str suf = if (pre.getD [] ++ str.getD [] ++ suf.getD []).length + 1 ≤ n
      then some (pre.getD [] ++ str.getD [] ++ suf.getD []) else none) := by
  have hm : (off + len) % 2 ^ 64 = off + len := Nat.mod_eq_of_lt ho
  have hn' : ¬ len > 2147483647 := by omega
  refine ⟨by simp only [copyLen, if_neg hn'], ?_, ?_, ?_, rfl, ?_⟩
  · simp only [copyLen, if_neg hn']
    by_cases h : len + 1 ≤ n
    · rw [if_neg (by omega), if_pos h]
    · rw [if_pos (by omega), if_neg h]
  · simp only [copySubstr, hm]
    by_cases h : off + len ≤ s.length
    · rw [if_neg (by omega), if_pos h]
    · rw [if_pos (by omega), if_neg h]
  · simp only [copySubstr, hm]
    by_cases h : off + len ≤ s.length
    · rw [if_neg (by omega)]
      by_cases h' : len + 1 ≤ n
      · rw [if_neg (by omega), if_pos ⟨h, h'⟩]
      · rw [if_pos (by omega), if_neg (by omega)]
    · rw [if_pos (by omega), if_neg (by omega)]
  · simp only [combToStr]
    by_cases h : (pre.getD [] ++ str.getD [] ++ suf.getD []).length + 1 ≤ n
    · rw [if_neg (by omega), if_pos h]
    · rw [if_pos (by omega), if_neg h]

theorem begins_iff {text key r : Str} : Begins text key r ↔ ∃ s1 s2, Blank s1 ∧ Blank s2 ∧
    (key ≠ [] ∧ ∀ c ∈ key, c ∉ ([32, 9, 13, 10, 11, 12] : List UInt8) ∧ c ≠ 61) ∧ text = s1 ++ key ++ s2 ++ 61 :: r := by
  constructor
  · rintro ⟨s1, s2, h1, h2, h3, h4, h5⟩
    exact ⟨s1, s2, h1, h2, ⟨h3, fun c hc => keyChar_iff.mp (h4 c hc)⟩, h5⟩
  · rintro ⟨s1, s2, h1, h2, ⟨h3, h4⟩, h5⟩
    exact ⟨s1, s2, h1, h2, h3, fun c hc => keyChar_iff.mpr (h4 c hc), h5⟩

/-- **C70.** A line yields a key and a value if and only if it is a way of writing down that key and value. -/
theorem C70_key_value (text key val : Str) : getKv (some text) = some (.pair key val) ↔ KeyVal text key val := by
  have hv : ∀ c, valChar c = true ↔ c ∉ ([32, 9, 13, 10, 11, 12] : List UInt8) ∧ c ∉ ([34, 39] : List UInt8) := fun c => valChar_iff
  constructor
  · intro h
    rcases getKv_cases text with ⟨-, e⟩ | ⟨-, -, e⟩ | ⟨-, k, r, hb⟩
    · rw [e] at h; cases h
    · rw [e] at h; cases h
    · rw [getKv_begins hb, kvValue_pair] at h
      obtain ⟨rfl, s3, v, s4, h3, h4, rfl, hval⟩ := h
      obtain ⟨s1, s2, h1, h2, hk, rfl⟩ := begins_iff.mp hb
      refine ⟨s1, s2, s3, s4, v, h1, h2, h3, h4, rfl, hk, ?_⟩
      rcases hval with ⟨a, b, c⟩ | h
      · exact .inl ⟨a, b, fun x hx => (hv x).mp (c x hx)⟩
      · exact .inr h
  · rintro ⟨s1, s2, s3, s4, v, h1, h2, h3, h4, rfl, hk, hval⟩
    rw [getKv_begins (begins_iff.mpr ⟨s1, s2, h1, h2, hk, rfl⟩), kvValue_pair]
    refine ⟨rfl, s3, v, s4, h3, h4, rfl, ?_⟩
    rcases hval with ⟨a, b, c⟩ | h
    · exact .inl ⟨a, b, fun x hx => (hv x).mpr (c x hx)⟩
    · exact .inr h

/-- **C70.** A line is reported as empty if and only if it consists of blanks. -/
theorem C70_nodata (text : Str) : getKv (some text) = some .nodata ↔ Blank text := by
  constructor
  · intro h
    rcases getKv_cases text with ⟨hb, -⟩ | ⟨-, -, e⟩ | ⟨-, k, r, hb⟩
    · exact hb
    · rw [e] at h; cases h
    · exfalso
      rw [getKv_begins hb, kvValue] at h
      split at h
      · cases h
      · split at h
        · simp only [kvQuoted, Option.some.injEq] at h
          split at h
          · cases h
          · split at h <;> cases h
        · simp only [kvPlain, Option.some.injEq] at h
          split at h
          · cases h
          · split at h
            · cases h
            · split at h <;> cases h
  · intro hb
    simp only [getKv, dropWhile_blank.mpr hb]

/-- **C70.** The counterexample: a line with a key and an equals sign, and nothing but blanks after it, is the one case in which the
    code reads behind the end of the line. -/
theorem C70_counterexample_no_value (text : Str) : getKv (some text) = none ↔ NoValue text := by
  constructor
  · intro h
    rcases getKv_cases text with ⟨-, e⟩ | ⟨-, -, e⟩ | ⟨-, k, r, hb⟩
    · rw [e] at h; cases h
    · rw [e] at h; cases h
    · rw [getKv_begins hb, kvValue_none] at h
      obtain ⟨s1, s2, h1, h2, hk, rfl⟩ := begins_iff.mp hb
      exact ⟨s1, k, s2, r, h1, h2, h, rfl, hk⟩
  · rintro ⟨s1, k, s2, r, h1, h2, h3, rfl, hk⟩
    rw [getKv_begins (begins_iff.mpr ⟨s1, s2, h1, h2, hk, rfl⟩), kvValue_none]
    exact h3

/-- **C70 (partial).** So every line but these is either a key with its value, or blank, or refused. -/
theorem C70_refused_partial (text : Str) (h : ¬ NoValue text) :
    getKv (some text) = some .inval ↔ (¬ Blank text ∧ ∀ k v, ¬ KeyVal text k v) := by
  constructor
  · intro e
    refine ⟨fun hb => ?_, fun k v hk => ?_⟩
    · rw [(C70_nodata text).mpr hb] at e; cases e
    · rw [(C70_key_value text k v).mpr hk] at e; cases e
  · rintro ⟨h1, h2⟩
    cases e : getKv (some text) with
    | none => exact absurd ((C70_counterexample_no_value text).mp e) h
    | some x =>
      cases x with
      | pair k v => exact absurd ((C70_key_value text k v).mp e) (h2 k v)
      | nodata => exact absurd ((C70_nodata text).mp e) h1
      | inval => rfl

namespace UStrExample

/-- a program with its arguments -/
example : (combToStrv none (some (txt "/bin/ls")) (some (txt " -l \"a b\"c '' d")) none (some defDelims) (some defQuotes)).bind Strv.strings =
    some [txt "/bin/ls", txt "-l", txt "a bc", [], txt "d"] := by decide +kernel

/-- the same as a way of writing down three words -/
example : Written defDelims defQuotes (txt "-l \"a b\"c ''") [txt "-l", txt "a bc", []] := by
  have h3 : Written defDelims defQuotes [32, 39, 39] [[]] := by
    have := Written.word (delims := defDelims) (quotes := defQuotes) [32] [.quoted 39 []] [] [] (by decide) (by simp)
      (by simp [Piece.Ok, defQuotes, defDelims]) trivial (.blank [] (by simp))
    simpa [Piece.text, Piece.value] using this
  have h2 := Written.word (delims := defDelims) (quotes := defQuotes) [32] [.quoted 34 [97, 32, 98], .bare 99] [32, 39, 39] [[]] (by decide)
    (by simp) (by simp [Piece.Ok, defQuotes, defDelims]) (by simp [Boundary, defDelims]) h3
  have h1 := Written.word (delims := defDelims) (quotes := defQuotes) [] [.bare 45, .bare 108] _ _ (by decide)
    (by simp) (by simp [Piece.Ok, defQuotes, defDelims]) (by simp [Boundary, defDelims]) h2
  simpa [Piece.text, Piece.value, txt] using h1

example : combToStrv none none (some (txt "a \"b")) none (some defDelims) (some defQuotes) = none := by decide +kernel

example : combstr (txt "libDM.SO") (some (txt "lib")) none (some (txt ".so")) true = some 0 := by decide +kernel

example : rstr (txt "/devices/block/sda") (txt "/") = some 14 := by decide +kernel

example : getKv (some (txt " LVM_VG = 'my vg' \n")) = some (.pair (txt "LVM_VG") (txt "my vg")) := by decide +kernel

example : getKv (some (txt "KEY=")) = none := by decide +kernel

example : (combToStrv (some 34) none (some (txt "ab c")) none (some defDelims) none).isSome ∧
    (combToStrv (some 28) none (some (txt "ab c")) none (some defDelims) none) = none := by decide +kernel

end UStrExample
end Sid.Props
