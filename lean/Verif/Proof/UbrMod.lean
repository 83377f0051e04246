import Verif.Model.UbrMod
import Verif.Spec.UbrMod
import Verif.Proof.Ifc
import Verif.Proof.UbrPerm
/-
The table of drivers.
-/
namespace Sid.Mod
open Sid.Spec.Mod
open Sid.Spec.Client (decimal)
open Sid.Util (isSpace isDigit digitsVal takeSign)

theorem fgets_line (n : Nat) (l rest : List UInt8) (h : 10 ∉ l) (hn : l.length < n) :
    fgets n (l ++ 10 :: rest) = (l ++ [10], rest) := by
  induction l generalizing n with
  | nil => obtain ⟨n, rfl⟩ : ∃ k, n = k + 1 := ⟨n - 1, by simp at hn; omega⟩; simp [fgets]
  | cons c l ih =>
    obtain ⟨n, rfl⟩ : ∃ k, n = k + 1 := ⟨n - 1, by simp at hn; omega⟩
    have hc : c ≠ 10 := fun e => h (by simp [e])
    simp only [List.cons_append, fgets, if_neg hc, ih n (fun m => h (by simp [m])) (by simpa using hn)]

theorem fgets_prefix (n : Nat) (a s : List UInt8) (h : 10 ∉ a) (hn : a.length ≤ n) :
    (fgets n (a ++ s)).1 = a ++ (fgets (n - a.length) s).1 := by
  induction a generalizing n with
  | nil => simp
  | cons c a ih =>
    obtain ⟨n, rfl⟩ : ∃ k, n = k + 1 := ⟨n - 1, by simp at hn; omega⟩
    have hc : c ≠ 10 := fun e => h (by simp [e])
    simp only [List.cons_append, fgets, if_neg hc, ih n (fun m => h (by simp [m])) (by simpa using hn), List.length_cons,
      Nat.add_sub_add_right]

theorem scan_line (major : BitVec 32) (l rest : List UInt8) (h : 10 ∉ l) (hn : l.length < 79) :
    scanLines major true (l ++ 10 :: rest) =
      (match blockLine major (l ++ [10]) with
        | .skip => scanLines major true rest
        | x => x) ∧
    scanLines major false (l ++ 10 :: rest) = scanLines major ((l ++ [10]).head? == some 66) rest := by
  constructor
  · rw [scanLines, dif_neg (by simp), fgets_line 79 l rest h hn]
    simp only [if_true]
    split <;> simp_all
  · rw [scanLines, dif_neg (by simp), fgets_line 79 l rest h hn]
    simp

theorem decimal_length (k : Nat) : ∀ n, n < 10 ^ (k + 1) → (decimal n).length ≤ k + 1 := by
  induction k with
  | zero => intro n h; rw [decimal, if_pos (by omega)]; simp
  | succ k ih =>
    intro n h
    rw [decimal]
    split
    · simp
    · have := ih (n / 10) (by rw [Nat.div_lt_iff_lt_mul (by omega)]; rw [Nat.pow_succ] at h; omega)
      simp only [List.length_append, List.length_singleton]
      omega

theorem digit_facts {c : UInt8} (h : isDigit c = true) : c ≠ 10 ∧ c ≠ 58 ∧ isSpace c = false ∧ c ≠ 66 ∧ c ≠ 45 ∧ c ≠ 43 := by
  simp only [isDigit, Bool.and_eq_true, decide_eq_true_eq, UInt8.le_iff_toNat_le] at h
  have e1 : (48 : UInt8).toNat = 48 := rfl
  have e2 : (57 : UInt8).toNat = 57 := rfl
  rw [e1, e2] at h
  refine ⟨?_, ?_, ?_, ?_, ?_, ?_⟩
  any_goals (rintro rfl; revert h; decide)
  simp only [isSpace, Bool.or_eq_false_iff, beq_eq_false_iff_ne, Bool.and_eq_false_iff, decide_eq_false_iff_not,
    UInt8.le_iff_toNat_le]
  refine ⟨?_, .inr ?_⟩
  · rintro rfl; revert h; decide
  · have e3 : (13 : UInt8).toNat = 13 := rfl
    rw [e3]; omega

theorem print_facts {c : UInt8} (h : 32 ≤ c.toNat ∧ c.toNat ≤ 126) : c ≠ 10 ∧ isPrint c = true := by
  refine ⟨by rintro rfl; revert h; decide, ?_⟩
  simp only [isPrint, Bool.and_eq_true, decide_eq_true_eq, UInt8.le_iff_toNat_le]
  exact h

/-- a line of a driver without its newline -/
def lineBody (d : Driver) : List UInt8 := List.replicate (3 - (decimal d.1).length) 32 ++ decimal d.1 ++ 32 :: d.2

theorem driverLine_body (d : Driver) : driverLine d = lineBody d ++ [10] := by
  simp only [driverLine, lineBody, show ascii " " = [32] from rfl, show ascii "\n" = [10] from rfl, List.append_assoc]
  rfl

theorem lineBody_facts {d : Driver} (h : Proper d) : 10 ∉ lineBody d ∧ (lineBody d).length < 79 ∧
    ((lineBody d ++ [10]).head? == some 66) = false := by
  obtain ⟨h1, h2, h3⟩ := h
  have hd := Util.decimal_spec d.1
  have hlen := decimal_length 9 d.1 (by omega)
  refine ⟨?_, ?_, ?_⟩
  · simp only [lineBody, List.mem_append, List.mem_cons, List.mem_replicate, not_or]
    exact ⟨⟨fun x => absurd x.2 (by decide), fun x => (digit_facts (hd.2.1 10 x)).1 rfl⟩, by decide, fun x => (print_facts (h3 10 x)).1 rfl⟩
  · simp only [lineBody, List.length_append, List.length_cons, List.length_replicate]
    omega
  · simp only [lineBody]
    cases e : 3 - (decimal d.1).length with
    | zero =>
      obtain ⟨c, t, ht⟩ := List.exists_cons_of_ne_nil hd.1
      have := (digit_facts (hd.2.1 c (by simp [ht]))).2.2.2.1
      simp [ht, this]
    | succ k => simp [List.replicate_succ]

theorem takeWhile_append {p : UInt8 → Bool} {a b : List UInt8} (ha : ∀ c ∈ a, p c = true) (hb : ∀ c, b.head? = some c → p c = false) :
    (a ++ b).takeWhile p = a ∧ (a ++ b).dropWhile p = b := by
  induction a with
  | nil =>
    cases b with
    | nil => simp
    | cons c b => have := hb c rfl; simp [this]
  | cons c a ih =>
    have := ih fun x hx => ha x (by simp [hx])
    simp [ha c (by simp), this.1, this.2]

theorem toInt_digits {n : Nat} (h : n < 2 ^ 31) : toInt false (decimal n) = BitVec.ofNat 32 n := by
  simp only [toInt, (Util.decimal_spec n).2.2, Bool.false_eq_true, if_false]
  rw [Nat.min_eq_left (by omega)]

theorem ofNat_inj {a b : Nat} (ha : a < 2 ^ 31) (hb : b < 2 ^ 31) : BitVec.ofNat 32 a = BitVec.ofNat 32 b ↔ a = b := by
  constructor
  · intro h
    have := congrArg BitVec.toNat h
    simp only [BitVec.toNat_ofNat] at this
    rwa [Nat.mod_eq_of_lt (by omega), Nat.mod_eq_of_lt (by omega)] at this
  · rintro rfl; rfl

theorem blockLine_body {d : Driver} (h : Proper d) {m : Nat} (hm : 0 < m) (hm' : m < 2 ^ 31) :
    blockLine (BitVec.ofNat 32 m) (lineBody d ++ [10]) = if d.1 = m then .found (d.2 ++ [10]) else .skip := by
  obtain ⟨h1, h2, h3⟩ := h
  have hd := Util.decimal_spec d.1
  have hdrop : (lineBody d ++ [10]).dropWhile isSpace = decimal d.1 ++ (32 :: d.2 ++ [10]) := by
    have : lineBody d ++ [10] = List.replicate (3 - (decimal d.1).length) 32 ++ (decimal d.1 ++ (32 :: d.2 ++ [10])) := by
      simp [lineBody]
    rw [this]
    refine (takeWhile_append (p := isSpace) ?_ ?_).2
    · intro c hc; rw [List.mem_replicate] at hc; rw [hc.2]; rfl
    · intro c hc
      obtain ⟨x, t, ht⟩ := List.exists_cons_of_ne_nil hd.1
      rw [ht] at hc
      simp only [List.cons_append, List.head?_cons, Option.some.injEq] at hc
      subst hc
      exact (digit_facts (hd.2.1 x (by simp [ht]))).2.2.1
  have ht := takeWhile_append (p := isDigit) (a := decimal d.1) (b := 32 :: d.2 ++ [10]) hd.2.1 (by
    intro c hc; simp only [List.cons_append, List.head?_cons, Option.some.injEq] at hc; subst hc; rfl)
  simp only [blockLine, hdrop, ht.1, ht.2, if_neg hd.1, toInt_digits h1]
  have e0 : (BitVec.ofNat 32 d.1 = 0) ↔ d.1 = 0 := ofNat_inj h1 (b := 0) (by omega)
  simp only [e0, ofNat_inj h1 hm']
  by_cases e : d.1 = m
  · rw [if_neg (by omega), if_pos e, if_pos e]; rfl
  · rw [if_neg e, if_neg e]; simp

theorem scan_blocks {m : Nat} (hm : 0 < m) (hm' : m < 2 ^ 31) : ∀ {blocks : List Driver}, (∀ d ∈ blocks, Proper d) →
    scanLines (BitVec.ofNat 32 m) true (blocks.flatMap driverLine) =
      match driverOf blocks m with
      | none => .skip
      | some n => .found (n ++ [10])
  | [], _ => by rw [List.flatMap_nil, scanLines, dif_pos rfl]; rfl
  | d :: blocks, h => by
    have hb := lineBody_facts (h d (by simp))
    rw [List.flatMap_cons, driverLine_body, List.append_assoc, List.singleton_append, (scan_line _ _ _ hb.1 hb.2.1).1,
      blockLine_body (h d (by simp)) hm hm']
    by_cases e : d.1 = m
    · simp [driverOf, e]
    · rw [if_neg e]
      simp only
      rw [scan_blocks hm hm' fun x hx => h x (by simp [hx])]
      simp [driverOf, e]

theorem scan_chars (major : BitVec 32) (rest : List UInt8) : ∀ {chars : List Driver}, (∀ d ∈ chars, Proper d) →
    scanLines major false (chars.flatMap driverLine ++ rest) = scanLines major false rest
  | [], _ => rfl
  | d :: chars, h => by
    have hb := lineBody_facts (h d (by simp))
    rw [List.flatMap_cons, driverLine_body, List.append_assoc, List.append_assoc, List.singleton_append,
      (scan_line _ _ _ hb.1 hb.2.1).2, hb.2.2]
    exact scan_chars major rest fun x hx => h x (by simp [hx])

theorem scan_proc {m : Nat} (hm : 0 < m) (hm' : m < 2 ^ 31) {chars blocks : List Driver} (hc : ∀ d ∈ chars, Proper d)
    (hb : ∀ d ∈ blocks, Proper d) : scanLines (BitVec.ofNat 32 m) false (procDevices chars blocks) =
      match driverOf blocks m with
      | none => .skip
      | some n => .found (n ++ [10]) := by
  have e1 : ascii "Character devices:\n" = ascii "Character devices:" ++ [10] := by decide
  have e2 : ascii "\nBlock devices:\n" = [] ++ 10 :: (ascii "Block devices:" ++ [10]) := by decide
  have c1 : ((ascii "Character devices:" ++ [10] : List UInt8).head? == some 66) = false := by decide
  have c2 : (([] ++ [10] : List UInt8).head? == some 66) = false := by decide
  have c3 : ((ascii "Block devices:" ++ [10] : List UInt8).head? == some 66) = true := by decide
  have s1 := (scan_line (BitVec.ofNat 32 m) (ascii "Character devices:") (chars.flatMap driverLine ++ (ascii "\nBlock devices:\n" ++
    blocks.flatMap driverLine)) (by decide) (by decide)).2
  have s2 := (scan_line (BitVec.ofNat 32 m) [] ((ascii "Block devices:" ++ [10]) ++ blocks.flatMap driverLine) (by decide) (by decide)).2
  have s3 := (scan_line (BitVec.ofNat 32 m) (ascii "Block devices:") (blocks.flatMap driverLine) (by decide) (by decide)).2
  have e3 : procDevices chars blocks = ascii "Character devices:" ++ 10 :: (chars.flatMap driverLine ++ (ascii "\nBlock devices:\n" ++
    blocks.flatMap driverLine)) := by
    rw [procDevices, e1, List.append_assoc, List.append_assoc, List.append_assoc]; rfl
  have e4 : (ascii "Block devices:" ++ [10]) ++ blocks.flatMap driverLine = ascii "Block devices:" ++ 10 :: blocks.flatMap driverLine := by
    simp
  rw [e3, s1, c1, scan_chars _ _ hc, e2, List.nil_append, List.cons_append]
  rw [List.nil_append] at s2
  rw [s2, c2, e4, s3, c3]
  exact scan_blocks hm hm' hb

theorem name_printed {n : Str} (h : ∀ c ∈ n, 32 ≤ c.toNat ∧ c.toNat ≤ 126) : (n ++ [10]).takeWhile isPrint = n :=
  (takeWhile_append (fun c hc => (print_facts (h c hc)).2) (by intro c hc; simp at hc; subst hc; rfl)).1

theorem driverOf_proper {blocks : List Driver} (hb : ∀ d ∈ blocks, Proper d) {m : Nat} {n : Str} (h : driverOf blocks m = some n) :
    ∀ c ∈ n, 32 ≤ c.toNat ∧ c.toNat ≤ 126 := by
  simp only [driverOf, Option.map_eq_some_iff] at h
  obtain ⟨d, h1, rfl⟩ := h
  exact (hb d (List.mem_of_find?_eq_some h1)).2.2

theorem atoi_decimal {n : Nat} (h : n < 2 ^ 31) : atoi (decimal n) = BitVec.ofNat 32 n := by
  have hd := Util.decimal_spec n
  obtain ⟨x, t, ht⟩ := List.exists_cons_of_ne_nil hd.1
  have hx := digit_facts (hd.2.1 x (by simp [ht]))
  have h1 : (decimal n).dropWhile isSpace = decimal n := by rw [ht]; simp [hx.2.2.1]
  have h2 : takeSign (decimal n) = (false, decimal n) := by
    rw [ht]; unfold takeSign
    split
    · rename_i e; exact absurd (by simpa using (List.cons.inj e).1) hx.2.2.2.2.1
    · rename_i e; exact absurd (by simpa using (List.cons.inj e).1) hx.2.2.2.2.2
    · rfl
  have h3 := (takeWhile_append (p := isDigit) (a := decimal n) (b := []) hd.2.1 (by simp)).1
  rw [List.append_nil] at h3
  simp only [atoi, h1, h2, h3, toInt_digits h]

theorem wholeMajor_dev {sys : Sys} {ma mi : Nat} (h0 : 0 < ma) (h : ma < 2 ^ 31) (hs : sys.wholeDev = some (devFile ma mi)) :
    wholeMajor sys = some (BitVec.ofNat 32 ma) := by
  have hd := Util.decimal_spec ma
  have hlen := decimal_length 9 ma (by omega)
  have e : devFile ma mi = (decimal ma ++ [58]) ++ (decimal mi ++ ascii "\n") := by
    simp only [devFile, show ascii ":" = [58] from rfl, List.append_assoc]
  have h10 : 10 ∉ decimal ma ++ [58] := by
    simp only [List.mem_append, List.mem_singleton, not_or]
    exact ⟨fun x => (digit_facts (hd.2.1 10 x)).1 rfl, by decide⟩
  have hf := fgets_prefix 15 (decimal ma ++ [58]) (decimal mi ++ ascii "\n") h10 (by simp; omega)
  obtain ⟨x, hx⟩ : ∃ x, sysfsGet 15 sys.wholeDev = some (decimal ma ++ [58] ++ x) := by
    rw [hs, sysfsGet, Option.bind_some, if_neg (by rw [e]; simp), e]
    simp only [hf]
    generalize (fgets (15 - (decimal ma ++ [58]).length) (decimal mi ++ ascii "\n")).1 = y
    split
    · rename_i hl
      cases hy : y.reverse with
      | nil =>
        have : y = [] := by simpa using hy
        subst this
        simp at hl
      | cons z t =>
        have : y = t.reverse ++ [z] := by rw [← List.reverse_reverse y, hy]; simp
        exact ⟨t.reverse, by rw [this, ← List.append_assoc, List.dropLast_concat]⟩
    · exact ⟨y, rfl⟩
  have ht : (decimal ma ++ [58] ++ x).takeWhile (· ≠ 58) = decimal ma := by
    rw [List.append_assoc]
    refine (takeWhile_append (p := (· ≠ 58)) ?_ ?_).1
    · intro c hc; simpa using (digit_facts (hd.2.1 c hc)).2.1
    · intro c hc; simp at hc; simp [← hc]
  simp only [wholeMajor, hx, Option.bind_some]
  rw [if_pos (by simp), ht, atoi_decimal h, if_neg]
  have := (ofNat_inj h (b := 0) (by omega)).mp
  intro e
  exact absurd (this e) (by omega)

/-! ### remembering -/

open Sid.Ubr

/-- where the module of a device is kept -/
def modKey (c : Ctx) : Str := (composeKey (setSpec c core none .device keyMod)).drop 1

theorem modKey_get (c : Ctx) : Kvs.canon (composeKey (getSpec c core none .device keyMod none none 0)) = modKey c := by
  have : modKey c = Kvs.canon (composeKey (setSpec c core none .device keyMod)) := by
    rw [modKey, canon_compose _ (Or.inl rfl), compose_glue]; rfl
  rw [this, canon_compose _ (Or.inr (Or.inl rfl)), canon_compose _ (Or.inl rfl)]
  rfl

theorem modKey_head (c : Ctx) : (modKey c).head? ≠ some 126 := by
  rw [modKey, compose_glue]
  simp [setSpec, glue, Spec.UbrKey.opLetter, join]

theorem remembered_some {db : Db} {c : Ctx} {r : Rec} (h : db.recs (modKey c) = some r) : remembered db c = valueText r := by
  have : rdAllowed r core = true := by simp [rdAllowed, modMatch]
  simp only [remembered, doKvGet, getRec, modKey_get, h, this, if_true]

theorem remembered_iff {db : Db} {c : Ctx} {m : Str} (h : remembered db c = some m) :
    ∃ r, db.recs (modKey c) = some r ∧ valueText r = some m := by
  cases e : db.recs (modKey c) with
  | none => simp [remembered, doKvGet, getRec, modKey_get, e] at h
  | some r => exact ⟨r, rfl, by rw [← remembered_some e]; exact h⟩

theorem canonMod_noNul {m : Str} (h : 0 ∉ m) : 0 ∉ canonMod m := by
  simp only [canonMod, List.mem_map, not_exists, not_and]
  intro x hx e
  split at e
  · cases e
  · exact h (e ▸ hx)

theorem printed_noNul (s : Str) : 0 ∉ s.takeWhile isPrint := by
  intro h
  have : isPrint 0 = true := by
    have key : ∀ (s : Str), 0 ∈ s.takeWhile isPrint → isPrint 0 = true := by
      intro s
      induction s with
      | nil => intro h; simp at h
      | cons c s ih =>
        intro h
        rw [List.takeWhile_cons] at h
        split at h
        · rename_i hc
          rcases List.mem_cons.mp h with h | h
          · rw [h]; exact hc
          · exact ih h
        · simp at h
    exact key s h
  exact absurd this (by decide)

theorem lookup_noNul {sys : Sys} {name : Option Str} {type : Event.DevType} {m : Str} : ∀ (depth : Nat) {major : BitVec 32},
    lookup sys name type depth major = some (some m) → 0 ∉ m
  | 0, _, h => by cases h
  | depth + 1, major, h => by
    rw [lookup.eq_def] at h
    simp only at h
    split at h
    · cases h
    · cases h
    · split at h
      · cases type with
        | unknown => cases h
        | disk =>
          cases hn : isNvme name with
          | none => simp [hn] at h
          | some b =>
            cases b
            · simp [hn] at h
            · simp [hn] at h; rw [← h]; decide
        | partition =>
          cases hn : isNvme name with
          | none => simp [hn] at h
          | some b =>
            cases b
            · simp only [hn, Option.bind_some, Bool.false_eq_true, if_false] at h
              split at h
              · cases h
              · rename_i m' _
                cases hl : lookup sys name .partition depth m' with
                | none => simp [hl] at h
                | some o =>
                  simp only [hl, Option.map_some, Option.some.injEq] at h
                  cases o with
                  | none => cases h
                  | some x =>
                    simp only [unlessOther] at h
                    split at h
                    · cases h
                    · cases h
                      exact lookup_noNul depth hl
            · simp [hn] at h; rw [← h]; decide
      · simp only [Option.some.injEq] at h
        rw [← h]
        exact canonMod_noNul (printed_noNul _)

theorem valueText_stored {c : Ctx} {owner m : Str} {ns : Ns} {key : Str} {flags : Flags} (h : 0 ∉ m) :
    valueText (setRec c owner ⟨ns, key, some (m ++ [0]), flags⟩) = some m := by
  have : (m ++ [0]).takeWhile (· ≠ 0) = m := by
    refine (takeWhile_append (p := (· ≠ 0)) ?_ ?_).1
    · intro c hc; simp only [ne_eq, decide_eq_true_eq]; rintro rfl; exact h hc
    · intro c hc; simp at hc; simp [← hc]
  simp only [valueText, setRec, Option.getD_some]
  split
  · rename_i e; simp at e
  · rename_i e; simp only [Value.scalar.injEq] at e; rw [← e, this]
  · rename_i e; cases e

theorem core_set {db db' : Db} {c : Ctx} {v : Option (List UInt8)} {f : Flags} {ret : Int}
    (h : doKvSet db c core none ⟨.device, keyMod, v, f⟩ = some (ret, db')) :
    ret = 0 ∧ db' = writeRec db (modKey c) (setRec c core ⟨.device, keyMod, v, f⟩) := by
  unfold doKvSet at h
  simp only [reduceCtorEq, false_and, if_false] at h
  cases hg : globalRs db core none .device keyMod with
  | none => simp [hg] at h
  | some g =>
    have g0 : ¬ g < 0 := by
      intro hlt
      unfold globalRs at hg
      split at hg
      · cases hg; exact absurd hlt (by decide)
      · split at hg
        · cases hg; exact absurd hlt (by decide)
        · split at hg
          · cases hg
          · split at hg
            · simp only [Option.some.injEq] at hg
              have hp : ∀ (f : Flags) (m : Match), ¬ rsAllows f m < 0 := by
                intro f m
                cases m <;> simp only [rsAllows] <;> omega
              rw [← hg] at hlt
              exact hp _ _ hlt
            · cases hg; exact absurd hlt (by decide)
    simp only [hg, Option.bind_some, if_neg g0] at h
    have hw : ∀ o, ¬ wrAllowed o core < 0 := by
      intro o
      cases o with
      | none => simp [wrAllowed]
      | some o => simp [wrAllowed, modMatch]
    rw [if_neg (hw _)] at h
    simp only [Option.some.injEq, Prod.mk.injEq] at h
    exact ⟨h.1.symm, h.2.symm⟩

end Sid.Mod
