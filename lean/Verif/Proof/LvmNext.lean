import Verif.Model.LvmNext
import Verif.Spec.LvmNext
import Verif.Proof.UtilStr
import Verif.Props.UtilStr
/-
Lemmas for C95.
-/
namespace Sid.LvmNext
open Sid (Str)
open Sid.Ifc (txt)
open Sid.UStr Sid.Spec.UStr Sid.Spec.LvmNext

theorem pieces_ne (s : Str) : pieces s ≠ [] := by
  cases s with
  | nil => simp [pieces]
  | cons c l =>
    simp only [pieces]
    split
    · simp
    · split <;> simp

theorem pieces_plain {a : Str} (h : (10 : UInt8) ∉ a) : pieces a = [a] := by
  induction a with
  | nil => rfl
  | cons c a ih =>
    rw [pieces, if_neg (by rintro rfl; simp at h), ih (fun x => h (by simp [x]))]

theorem pieces_app {a : Str} (h : (10 : UInt8) ∉ a) (b : Str) : pieces (a ++ 10 :: b) = a :: pieces b := by
  induction a with
  | nil => simp [pieces]
  | cons c a ih =>
    rw [List.cons_append, pieces, if_neg (by rintro rfl; simp at h), ih (fun x => h (by simp [x]))]

theorem lines_nl (s : Str) : lines (10 :: s) = lines s := by
  simp [lines, pieces]

/-- the tokens of the output are its lines -/
theorem tokens_lines (s : Str) (mb : Bool) : ((tokens [10] [] s mb).1.map Prod.fst) = lines s := by
  generalize hn : s.length = n
  induction n using Nat.strongRecOn generalizing s mb with
  | ind n ih =>
    cases s with
    | nil => rw [tokens_nil]; rfl
    | cons c t =>
      by_cases hc : c = 10
      · subst hc
        rw [tokens_delim (by simp), lines_nl]
        exact ih t.length (by rw [← hn]; simp) t mb rfl
      · rw [tokens_cons (by simpa using hc), tokStep, if_neg (by simp)]
        simp only [List.nil_append, List.map_cons]
        have hp : ∀ x : UInt8, (!([10] : List UInt8).contains x) = decide (x ≠ 10) := by intro x; by_cases h : x = 10 <;> simp [h]
        simp only [hp]
        have hsplit := List.takeWhile_append_dropWhile (p := fun x : UInt8 => decide (x ≠ 10)) (l := t)
        have hpre : (10 : UInt8) ∉ t.takeWhile fun x => decide (x ≠ 10) := by
          intro hm
          have := List.all_takeWhile (p := fun x : UInt8 => decide (x ≠ 10)) (l := t)
          rw [List.all_eq_true] at this
          simpa using this 10 hm
        have hpre' : (10 : UInt8) ∉ c :: t.takeWhile fun x => decide (x ≠ 10) := by
          simp only [List.mem_cons, not_or]; exact ⟨fun h => hc h.symm, hpre⟩
        have hlen : (t.dropWhile fun x : UInt8 => decide (x ≠ 10)).length < n := by
          rw [← hn, List.length_cons]
          exact Nat.lt_succ_of_le (List.dropWhile_sublist _).length_le
        rw [ih _ hlen _ _ rfl]
        cases hd : t.dropWhile fun x : UInt8 => decide (x ≠ 10) with
        | nil =>
          rw [hd, List.append_nil] at hsplit
          rw [hsplit] at hpre' ⊢
          rw [show lines (c :: t) = [c :: t] by rw [lines, pieces_plain hpre']; rfl]
          rfl
        | cons x r =>
          have hx : x = 10 := by
            have := List.head?_dropWhile_not (fun x : UInt8 => decide (x ≠ 10)) t
            rw [hd] at this
            simpa using this
          subst hx
          rw [hd] at hsplit
          have e : c :: t = (c :: t.takeWhile fun x => decide (x ≠ 10)) ++ 10 :: r := by rw [List.cons_append, hsplit]
          rw [e, lines, lines, pieces_app hpre']
          simp [pieces]

theorem stdoutRecv_lines (b : Bool) (f : Str → Str → Bool) (rs : Records) (out : Str) :
    stdoutRecv b f rs out = outLines b f rs (lines out) := by
  rw [stdoutRecv, iterTokens]
  exact congrArg _ (tokens_lines out false)

theorem outLines_off (f : Str → Str → Bool) (ls : List Str) (rs : Records) : outLines false f rs ls = some rs := by
  induction ls with
  | nil => rfl
  | cons l ls ih => simp only [outLines, outLine]; exact ih

/-- what one usual line does -/
theorem outLine_usual {f : Str → Str → Bool} {l : Str} (hf : ∀ k v, KeyVal l k v → f k v = true) (h : Usual l) (rs : Records) :
    ∃ rs', outLine true f rs l = some (.next rs') ∧
      ((∃ k v, KeyVal l k v ∧ rs' = store rs k (some v)) ∨ ((∀ k v, ¬ KeyVal l k v) ∧ rs' = rs)) := by
  obtain ⟨hl, hv⟩ := h
  have h1 : ¬ l.length > lineMax - 1 := by simp [lineMax]; omega
  simp only [outLine, Bool.not_true, Bool.false_eq_true, if_false, if_neg h1]
  cases e : getKv (some l) with
  | none => exact absurd ((Sid.Props.C70_counterexample_no_value l).mp e) hv
  | some x =>
    cases x with
    | pair k v =>
      have hk := (Sid.Props.C70_key_value l k v).mp e
      exact ⟨store rs k (some v), by simp [storeKv, hf k v hk], .inl ⟨k, v, hk, rfl⟩⟩
    | nodata =>
      refine ⟨rs, rfl, .inr ⟨fun k v hk => ?_, rfl⟩⟩
      rw [(Sid.Props.C70_key_value l k v).mpr hk] at e; cases e
    | inval =>
      refine ⟨rs, rfl, .inr ⟨fun k v hk => ?_, rfl⟩⟩
      rw [(Sid.Props.C70_key_value l k v).mpr hk] at e; cases e

theorem keyVal_unique {l k v k' v' : Str} (h : KeyVal l k v) (h' : KeyVal l k' v') : k = k' ∧ v = v' := by
  rw [← Sid.Props.C70_key_value] at h h'
  rw [h] at h'
  cases h'
  exact ⟨rfl, rfl⟩

theorem says_cons {l : Str} {ls : List Str} {k v : Str} :
    Says (l :: ls) k v ↔ Says ls k v ∨ (Silent ls k ∧ KeyVal l k v) := by
  constructor
  · rintro ⟨a, x, b, h, hk, hs⟩
    cases a with
    | nil =>
      simp only [List.nil_append, List.cons.injEq] at h
      obtain ⟨rfl, rfl⟩ := h
      exact .inr ⟨hs, hk⟩
    | cons y a =>
      simp only [List.cons_append, List.cons.injEq] at h
      exact .inl ⟨a, x, b, h.2, hk, hs⟩
  · rintro (⟨a, x, b, rfl, hk, hs⟩ | ⟨hs, hk⟩)
    · exact ⟨l :: a, x, b, rfl, hk, hs⟩
    · exact ⟨[], l, ls, rfl, hk, hs⟩

theorem silent_cons {l : Str} {ls : List Str} {k : Str} : Silent (l :: ls) k ↔ (∀ v, ¬ KeyVal l k v) ∧ Silent ls k := by
  simp [Silent]

theorem says_or_silent (ls : List Str) (k : Str) : Silent ls k ∨ ∃ v, Says ls k v := by
  induction ls with
  | nil => left; simp [Silent]
  | cons l ls ih =>
    rcases ih with h | ⟨v, h⟩
    · by_cases hk : ∃ v, KeyVal l k v
      · obtain ⟨v, hk⟩ := hk
        exact .inr ⟨v, says_cons.mpr (.inr ⟨h, hk⟩)⟩
      · exact .inl (silent_cons.mpr ⟨fun v hv => hk ⟨v, hv⟩, h⟩)
    · exact .inr ⟨v, says_cons.mpr (.inl h)⟩

theorem outLines_usual {f : Str → Str → Bool} (ls : List Str) (hf : ∀ l ∈ ls, ∀ k v, KeyVal l k v → f k v = true)
    (h : ∀ l ∈ ls, Usual l) (rs : Records) :
    ∃ rs', outLines true f rs ls = some rs' ∧
      ∀ k, (∀ v, Says ls k v → rs' k = some v) ∧ (Silent ls k → rs' k = rs k) := by
  induction ls generalizing rs with
  | nil => exact ⟨rs, rfl, fun k => ⟨by rintro v ⟨a, l, b, h, -⟩; simp at h, fun _ => rfl⟩⟩
  | cons l ls ih =>
    obtain ⟨r1, h1, hc⟩ := outLine_usual (hf l (by simp)) (h l (by simp)) rs
    obtain ⟨r2, h2, hk⟩ := ih (fun x hx => hf x (by simp [hx])) (fun x hx => h x (by simp [hx])) r1
    refine ⟨r2, by rw [outLines, h1]; exact h2, fun k => ⟨fun v hs => ?_, fun hs => ?_⟩⟩
    · rcases says_cons.mp hs with hs | ⟨hs, hkv⟩
      · exact (hk k).1 v hs
      · rw [(hk k).2 hs]
        rcases hc with ⟨k', v', hkv', rfl⟩ | ⟨hn, -⟩
        · obtain ⟨rfl, rfl⟩ := keyVal_unique hkv hkv'
          simp [store]
        · exact absurd hkv (hn k v)
    · obtain ⟨hn, hs⟩ := silent_cons.mp hs
      rw [(hk k).2 hs]
      rcases hc with ⟨k', v', hkv', rfl⟩ | ⟨-, rfl⟩
      · have : k ≠ k' := by rintro rfl; exact hn _ hkv'
        simp [store, this]
      · rfl

theorem outLines_prefix {f : Str → Str → Bool} (a b : List Str) (rs rs' : Records)
    (h : outLines true f rs a = some rs') (hn : ∀ l ∈ a, Usual l)
    (hf : ∀ l ∈ a, ∀ k v, KeyVal l k v → f k v = true) :
    outLines true f rs (a ++ b) = outLines true f rs' b := by
  induction a generalizing rs with
  | nil => cases h; rfl
  | cons l a ih =>
    rw [List.cons_append, outLines]
    rw [outLines] at h
    cases e : outLine true f rs l with
    | none => rw [e] at h; cases h
    | some x =>
      obtain ⟨r, hr, -⟩ := outLine_usual (hf l (by simp)) (hn l (by simp)) rs
      rw [e] at hr
      cases hr
      rw [e] at h
      exact ih r h (fun y hy => hn y (by simp [hy])) (fun y hy => hf y (by simp [hy]))

/-- words separated by blanks are the arguments -/
theorem argv_words {bin args : Str} (hb : Word bin) (ws : List Str) (h : Written defDelims defQuotes args ws) (h0 : (0 : UInt8) ∉ args) :
    argv bin args = some (bin :: ws) := by
  have hw : Written defDelims defQuotes bin [bin] := by
    have := Sid.Props.written_join (d := defDelims) (q := defQuotes) (x := 32) (by decide) [bin] (by
      intro w hm
      rw [List.mem_singleton] at hm
      subst hm
      exact ⟨hb.1, fun c hc => ⟨(hb.2 c hc).1, (hb.2 c hc).2.1⟩⟩)
    simpa [List.intercalate] using this
  have hb0 : (0 : UInt8) ∉ bin := fun hm => (hb.2 0 hm).2.2 rfl
  obtain ⟨v, hv, hs⟩ := (Sid.Props.C48_words (some bin) (some args) none (some defDelims) (some defQuotes) hb0 h0 trivial
    (bin :: ws)).mpr ⟨[bin], ws, [], hw, h, rfl, by simp⟩
  rw [argv, hv]
  exact hs

/-- words joined by a blank are the arguments -/
theorem argv_join {bin : Str} (hb : Word bin) {ws : List Str} (h : ∀ w ∈ ws, Word w) :
    argv bin (List.intercalate [32] ws) = some (bin :: ws) := by
  refine argv_words hb ws (Sid.Props.written_join (by decide) ws fun w hw =>
    ⟨(h w hw).1, fun c hc => ⟨((h w hw).2 c hc).1, ((h w hw).2 c hc).2.1⟩⟩) ?_
  induction ws with
  | nil => simp [List.intercalate]
  | cons w ws ih =>
    have hw : (0 : UInt8) ∉ w := fun hm => ((h w (by simp)).2 0 hm).2.2 rfl
    cases ws with
    | nil => simpa [List.intercalate] using hw
    | cons v ws =>
      have := ih (fun y hy => h y (by simp [hy]))
      simp only [List.intercalate, List.intersperse, List.flatten_cons, List.mem_append, List.mem_singleton] at this ⊢
      rintro (h' | h' | h')
      · exact hw h'
      · exact absurd h' (by decide)
      · exact this h'

/-- `Word` can be computed for a literal -/
theorem word_of {v : Str} (h1 : v.isEmpty = false)
    (h2 : (v.all fun c => !(defDelims ++ defQuotes ++ [0]).contains c) = true) : Word v := by
  refine ⟨by rintro rfl; simp at h1, fun c hc => ?_⟩
  have := List.all_eq_true.mp h2 c hc
  simp only [Bool.not_eq_true', List.contains_eq_mem, decide_eq_false_iff_not, List.mem_append, not_or, List.mem_singleton] at this
  exact ⟨this.1.1, this.1.2, this.2⟩

theorem word_append {a b : Str} (ha : Word a) (hb : Word b) : Word (a ++ b) :=
  ⟨by simp [ha.1], fun c hc => (List.mem_append.mp hc).elim (ha.2 c) (hb.2 c)⟩

end Sid.LvmNext
