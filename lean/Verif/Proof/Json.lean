import Verif.Spec.Json
/-
A JSON reader, and that it reads every text as the grammar of Spec/Json says: texts have only one meaning.
-/
namespace Sid.Spec.Json

def isWs (c : UInt8) : Bool := c == 32 || c == 9 || c == 10 || c == 13
def isDig (c : UInt8) : Bool := 48 ≤ c && c ≤ 57
def skip (b : List UInt8) : List UInt8 := b.dropWhile isWs

def pNum (b : List UInt8) : Option (Nat × List UInt8) :=
  let ds := b.takeWhile isDig
  if ds = [] then none else some (value (ds.map fun c => c.toNat - 48), b.dropWhile isDig)

def pStr (b : List UInt8) : Option (List UInt8 × List UInt8) :=
  match b.dropWhile (· ≠ 34) with
  | [] => none
  | _ :: r => some (b.takeWhile (· ≠ 34), r)

mutual
def pVal : Nat → List UInt8 → Option (J × List UInt8)
  | 0, _ => none
  | n + 1, b =>
    match skip b with
    | [] => none
    | c :: t =>
      if c = 34 then (pStr t).map fun x => (.str x.1, skip x.2)
      else if c = 91 then
        match skip t with
        | [] => none
        | d :: r => if d = 93 then some (.arr [], skip r) else (pItems n t).map fun x => (.arr x.1, skip x.2)
      else if c = 123 then
        match skip t with
        | [] => none
        | d :: r => if d = 125 then some (.obj [], skip r) else (pMembers n t).map fun x => (.obj x.1, skip x.2)
      else if c = 45 then (pNum t).map fun x => (.num (-(x.1 : Int)), skip x.2)
      else if c = 116 then if t.take 3 = [114, 117, 101] then some (.bool true, skip (t.drop 3)) else none
      else if c = 102 then if t.take 4 = [97, 108, 115, 101] then some (.bool false, skip (t.drop 4)) else none
      else (pNum (c :: t)).map fun x => (.num x.1, skip x.2)
def pItems : Nat → List UInt8 → Option (List J × List UInt8)
  | 0, _ => none
  | n + 1, b =>
    match pVal n b with
    | none => none
    | some (_, []) => none
    | some (j, c :: r) =>
      if c = 44 then (pItems n r).map fun x => (j :: x.1, x.2) else if c = 93 then some ([j], r) else none
def pMembers : Nat → List UInt8 → Option (List (List UInt8 × J) × List UInt8)
  | 0, _ => none
  | n + 1, b =>
    match skip b with
    | [] => none
    | q :: t =>
      if q ≠ 34 then none
      else
        match pStr t with
        | none => none
        | some (k, r) =>
          match skip r with
          | [] => none
          | c :: v =>
            if c ≠ 58 then none
            else
              match pVal n v with
              | none => none
              | some (_, []) => none
              | some (j, c :: r) =>
                if c = 44 then (pMembers n r).map fun x => ((k, j) :: x.1, x.2) else if c = 125 then some ([(k, j)], r) else none
end

theorem isWs_iff (c : UInt8) : isWs c = true ↔ IsWs c := by simp [isWs, IsWs, or_assoc]

theorem skip_ws {w : List UInt8} (h : Ws w) (r : List UInt8) : skip (w ++ r) = skip r := by
  induction w with
  | nil => rfl
  | cons c w ih =>
    have hc : isWs c = true := (isWs_iff c).mpr (h c (by simp))
    rw [List.cons_append, skip, List.dropWhile_cons, if_pos hc]
    exact ih fun x hx => h x (by simp [hx])

theorem skip_cons {c : UInt8} (h : isWs c = false) (r : List UInt8) : skip (c :: r) = c :: r := by
  rw [skip, List.dropWhile_cons, h]; rfl

/-- what may follow a value -/
def Stop (r : List UInt8) : Prop := r = [] ∨ ∃ t, r = 44 :: t ∨ r = 93 :: t ∨ r = 125 :: t

theorem Stop.skip {r : List UInt8} (h : Stop r) : skip r = r := by
  rcases h with rfl | ⟨t, rfl | rfl | rfl⟩
  · rfl
  all_goals exact skip_cons (by decide) t

theorem pStr_quoted {s : List UInt8} (h : Plain s) (r : List UInt8) : pStr (s ++ 34 :: r) = some (s, r) := by
  have h1 : ∀ x ∈ s, (x ≠ 34) := fun x hx => (h x hx).2.1
  have hd : (s ++ 34 :: r).dropWhile (fun x => decide (x ≠ 34)) = 34 :: r := by
    rw [List.dropWhile_append_of_pos (by simpa using h1)]; simp
  have ht : (s ++ 34 :: r).takeWhile (fun x => decide (x ≠ 34)) = s := by
    rw [List.takeWhile_append_of_pos (by simpa using h1)]; simp
  simp only [pStr]
  rw [hd, ht]

theorem isDig_ofNat {d : Nat} (h : d < 10) : isDig (UInt8.ofNat (48 + d)) = true ∧ (UInt8.ofNat (48 + d)).toNat - 48 = d := by
  have : d = 0 ∨ d = 1 ∨ d = 2 ∨ d = 3 ∨ d = 4 ∨ d = 5 ∨ d = 6 ∨ d = 7 ∨ d = 8 ∨ d = 9 := by omega
  rcases this with rfl | rfl | rfl | rfl | rfl | rfl | rfl | rfl | rfl | rfl <;> decide

/-- no digit follows -/
def NoDig (r : List UInt8) : Prop := ∀ c t, r = c :: t → isDig c = false

theorem Stop.noDig {r : List UInt8} (h : Stop r) {w : List UInt8} (hw : Ws w) : NoDig (w ++ r) := by
  intro c t e
  cases w with
  | nil =>
    rcases h with rfl | ⟨t', rfl | rfl | rfl⟩
    · cases e
    all_goals cases e; rfl
  | cons a w =>
    cases e
    have := hw c (by simp)
    rcases this with rfl | rfl | rfl | rfl <;> rfl

theorem pNum_digits {ds : List Nat} (h : Digits ds) {r : List UInt8} (hr : NoDig r) : pNum (digitText ds ++ r) = some (value ds, r) := by
  have h1 : ∀ x ∈ digitText ds, isDig x = true := by
    intro x hx
    obtain ⟨d, hd, rfl⟩ := List.mem_map.mp hx
    exact (isDig_ofNat (h.small d hd)).1
  have hne : digitText ds ≠ [] := by simp [digitText, h.nonempty]
  have ht : (digitText ds ++ r).takeWhile isDig = digitText ds := by
    rw [List.takeWhile_append_of_pos h1]
    cases r with
    | nil => simp
    | cons c t => rw [List.takeWhile_cons, hr c t rfl]; simp
  have hd : (digitText ds ++ r).dropWhile isDig = r := by
    rw [List.dropWhile_append_of_pos h1]
    cases r with
    | nil => simp
    | cons c t => rw [List.dropWhile_cons, hr c t rfl]; simp
  have hm : (digitText ds).map (fun c => c.toNat - 48) = ds := by
    rw [digitText, List.map_map]
    conv => rhs; rw [← List.map_id ds]
    apply List.map_congr_left
    intro d hd
    exact (isDig_ofNat (h.small d hd)).2
  simp only [pNum]
  rw [ht, hd, hm, if_neg hne]

theorem dig_char {d : Nat} (h : d < 10) : ∀ c, c = UInt8.ofNat (48 + d) →
    isWs c = false ∧ c ≠ 34 ∧ c ≠ 91 ∧ c ≠ 123 ∧ c ≠ 45 ∧ c ≠ 116 ∧ c ≠ 102 ∧ c ≠ 93 ∧ c ≠ 125 := by
  rintro c rfl
  have : d = 0 ∨ d = 1 ∨ d = 2 ∨ d = 3 ∨ d = 4 ∨ d = 5 ∨ d = 6 ∨ d = 7 ∨ d = 8 ∨ d = 9 := by omega
  rcases this with rfl | rfl | rfl | rfl | rfl | rfl | rfl | rfl | rfl | rfl <;> decide

/-- a text begins with white space and a character that begins a value -/
theorem Text.begins {b : List UInt8} {j : J} (h : Text b j) (r : List UInt8) : ∃ c t, skip (b ++ r) = c :: t ∧ c ≠ 93 ∧ c ≠ 125 := by
  cases h with
  | str w s w' hw hw' hs => rw [List.append_assoc, List.append_assoc, skip_ws hw]; exact ⟨34, _, skip_cons (by decide) _, by decide, by decide⟩
  | num w ds w' hw hw' hd =>
    rw [List.append_assoc, List.append_assoc, skip_ws hw]
    cases ds with
    | nil => exact absurd rfl hd.nonempty
    | cons d ds =>
      have := dig_char (hd.small d (by simp)) _ rfl
      exact ⟨_, _, skip_cons this.1 _, this.2.2.2.2.2.2.2⟩
  | neg w ds w' hw hw' hd => rw [List.append_assoc, List.append_assoc, skip_ws hw]; exact ⟨45, _, skip_cons (by decide) _, by decide, by decide⟩
  | isTrue w w' hw hw' => rw [List.append_assoc, List.append_assoc, skip_ws hw]; exact ⟨116, _, skip_cons (by decide) _, by decide, by decide⟩
  | isFalse w w' hw hw' => rw [List.append_assoc, List.append_assoc, skip_ws hw]; exact ⟨102, _, skip_cons (by decide) _, by decide, by decide⟩
  | noItems w u w' hw hu hw' => rw [List.append_assoc, List.append_assoc, skip_ws hw]; exact ⟨91, _, skip_cons (by decide) _, by decide, by decide⟩
  | items w l w' hw hw' hl hx => rw [List.append_assoc, List.append_assoc, skip_ws hw]; exact ⟨91, _, skip_cons (by decide) _, by decide, by decide⟩
  | noMembers w u w' hw hu hw' => rw [List.append_assoc, List.append_assoc, skip_ws hw]; exact ⟨123, _, skip_cons (by decide) _, by decide, by decide⟩
  | members w l w' hw hw' hl hp hx => rw [List.append_assoc, List.append_assoc, skip_ws hw]; exact ⟨123, _, skip_cons (by decide) _, by decide, by decide⟩

theorem Text.nonempty {b : List UInt8} {j : J} (h : Text b j) : b ≠ [] := by
  rintro rfl
  obtain ⟨c, t, e, -⟩ := h.begins []
  cases e

theorem intercalate_cons₂ (a b : List UInt8) (l : List (List UInt8)) :
    List.intercalate [44] (a :: b :: l) = a ++ 44 :: List.intercalate [44] (b :: l) := by
  simp [List.intercalate, List.intersperse]

theorem intercalate_one (a : List UInt8) : List.intercalate [44] [a] = a := by simp [List.intercalate]

theorem pItems_all (l : List (List UInt8 × J)) (hne : l ≠ [])
    (h : ∀ x ∈ l, ∀ n, x.1.length ≤ n → ∀ r, Stop r → pVal n (x.1 ++ r) = some (x.2, r)) (n : Nat)
    (hn : (List.intercalate [44] (l.map Prod.fst)).length + 1 ≤ n) (r : List UInt8) :
    pItems n (List.intercalate [44] (l.map Prod.fst) ++ 93 :: r) = some (l.map Prod.snd, r) := by
  induction l generalizing n with
  | nil => exact absurd rfl hne
  | cons x l ih =>
    obtain ⟨n, rfl⟩ : ∃ k, n = k + 1 := ⟨n - 1, by omega⟩
    cases l with
    | nil =>
      simp only [List.map_cons, List.map_nil, intercalate_one] at hn ⊢
      rw [pItems, h x (by simp) n (by omega) _ (.inr ⟨r, .inr (.inl rfl)⟩)]
      simp
    | cons y l =>
      simp only [List.map_cons, intercalate_cons₂, List.length_append, List.length_cons] at hn ⊢
      rw [List.append_assoc, List.cons_append, pItems, h x (by simp) n (by omega) _ (.inr ⟨_, .inl rfl⟩)]
      have := ih (by simp) (fun z hz => h z (by simp [hz])) n (by simp only [List.map_cons]; omega)
      simp only [List.map_cons] at this
      simp [this]

theorem pMembers_all (l : List Member) (hne : l ≠ []) (hp : ∀ m ∈ l, Ws m.before ∧ Ws m.after ∧ Plain m.name)
    (h : ∀ m ∈ l, ∀ n, m.text.length ≤ n → ∀ r, Stop r → pVal n (m.text ++ r) = some (m.val, r)) (n : Nat)
    (hn : (List.intercalate [44] (l.map Member.all)).length + 1 ≤ n) (r : List UInt8) :
    pMembers n (List.intercalate [44] (l.map Member.all) ++ 125 :: r) = some (l.map (fun m => (m.name, m.val)), r) := by
  have one : ∀ (m : Member) (n : Nat) (r : List UInt8), m ∈ l → m.text.length ≤ n → Stop r →
      pMembers (n + 1) (m.all ++ r) =
        match r with
        | [] => none
        | c :: r =>
          if c = 44 then (pMembers n r).map fun x => ((m.name, m.val) :: x.1, x.2)
          else if c = 125 then some ([(m.name, m.val)], r) else none := by
    intro m n r hm hl hr
    obtain ⟨h1, h2, h3⟩ := hp m hm
    have e : m.all ++ r = m.before ++ 34 :: (m.name ++ 34 :: (m.after ++ 58 :: (m.text ++ r))) := by simp [Member.all, quoted]
    rw [e, pMembers, skip_ws h1, skip_cons (by decide)]
    simp only [ne_eq, not_true_eq_false, if_false]
    rw [pStr_quoted h3]
    simp only
    rw [skip_ws h2, skip_cons (by decide)]
    simp only [ne_eq, not_true_eq_false, if_false]
    rw [h m hm n hl r hr]
    cases r <;> rfl
  clear h
  induction l generalizing n with
  | nil => exact absurd rfl hne
  | cons x l ih =>
    obtain ⟨n, rfl⟩ : ∃ k, n = k + 1 := ⟨n - 1, by omega⟩
    have hall : x.text.length ≤ x.all.length := by simp [Member.all]; omega
    cases l with
    | nil =>
      simp only [List.map_cons, List.map_nil, intercalate_one] at hn ⊢
      rw [one x n _ (by simp) (by omega) (.inr ⟨r, .inr (.inr rfl)⟩)]
      simp
    | cons y l =>
      simp only [List.map_cons, intercalate_cons₂, List.length_append, List.length_cons] at hn ⊢
      rw [List.append_assoc, List.cons_append, one x n _ (by simp) (by omega) (.inr ⟨_, .inl rfl⟩)]
      have := ih (by simp) (fun z hz => hp z (by simp [hz])) n (by simp only [List.map_cons]; omega)
        (fun m n r hm => one m n r (by simp [hm]))
      simp only [List.map_cons] at this
      simp [this]

/-- The reader reads every text as the grammar says. -/
theorem Text.reads {b : List UInt8} {j : J} (h : Text b j) : ∀ n, b.length ≤ n → ∀ r, Stop r → pVal n (b ++ r) = some (j, r) := by
  induction h with
  | str w s w' hw hw' hs =>
    intro n hn r hr
    obtain ⟨n, rfl⟩ : ∃ k, n = k + 1 := ⟨n - 1, by simp [quoted] at hn; omega⟩
    have e : w ++ quoted s ++ w' ++ r = w ++ 34 :: (s ++ 34 :: (w' ++ r)) := by simp [quoted]
    rw [e, pVal, skip_ws hw, skip_cons (by decide)]
    simp only [if_true]
    rw [pStr_quoted hs]
    simp [skip_ws hw', hr.skip]
  | num w ds w' hw hw' hd =>
    intro n hn r hr
    cases ds with
    | nil => exact absurd rfl hd.nonempty
    | cons d ds =>
      obtain ⟨n, rfl⟩ : ∃ k, n = k + 1 := ⟨n - 1, by simp [digitText] at hn; omega⟩
      have hc := dig_char (hd.small d (by simp)) _ rfl
      have hp := pNum_digits hd (hr.noDig hw')
      rw [List.append_assoc, List.append_assoc, pVal, skip_ws hw]
      rw [digitText, List.map_cons, List.cons_append] at hp ⊢
      rw [skip_cons hc.1]
      simp only
      rw [if_neg hc.2.1, if_neg hc.2.2.1, if_neg hc.2.2.2.1, if_neg hc.2.2.2.2.1, if_neg hc.2.2.2.2.2.1, if_neg hc.2.2.2.2.2.2.1, hp]
      simp [skip_ws hw', hr.skip]
  | neg w ds w' hw hw' hd =>
    intro n hn r hr
    obtain ⟨n, rfl⟩ : ∃ k, n = k + 1 := ⟨n - 1, by simp at hn; omega⟩
    have hp := pNum_digits hd (hr.noDig hw')
    have e : w ++ ([45] ++ digitText ds) ++ w' ++ r = w ++ 45 :: (digitText ds ++ (w' ++ r)) := by simp
    rw [e, pVal, skip_ws hw, skip_cons (by decide)]
    simp only
    rw [if_neg (by decide), if_neg (by decide), if_neg (by decide), if_pos trivial, hp]
    simp [skip_ws hw', hr.skip]
  | isTrue w w' hw hw' =>
    intro n hn r hr
    obtain ⟨n, rfl⟩ : ∃ k, n = k + 1 := ⟨n - 1, by simp at hn; omega⟩
    rw [List.append_assoc, List.append_assoc, pVal, skip_ws hw, List.cons_append, skip_cons (by decide)]
    simp [skip_ws hw', hr.skip]
  | isFalse w w' hw hw' =>
    intro n hn r hr
    obtain ⟨n, rfl⟩ : ∃ k, n = k + 1 := ⟨n - 1, by simp at hn; omega⟩
    rw [List.append_assoc, List.append_assoc, pVal, skip_ws hw, List.cons_append, skip_cons (by decide)]
    simp [skip_ws hw', hr.skip]
  | noItems w u w' hw hu hw' =>
    intro n hn r hr
    obtain ⟨n, rfl⟩ : ∃ k, n = k + 1 := ⟨n - 1, by simp at hn; omega⟩
    have e : w ++ ([91] ++ u ++ [93]) ++ w' ++ r = w ++ 91 :: (u ++ 93 :: (w' ++ r)) := by simp
    rw [e, pVal, skip_ws hw, skip_cons (by decide)]
    simp only
    rw [if_neg (by decide), if_pos trivial, skip_ws hu, skip_cons (by decide)]
    simp [skip_ws hw', hr.skip]
  | items w l w' hw hw' hl hx ih =>
    intro n hn r hr
    simp only [List.length_append, List.length_cons, List.length_nil] at hn
    obtain ⟨n, rfl⟩ : ∃ k, n = k + 1 := ⟨n - 1, by omega⟩
    have e : w ++ ([91] ++ List.intercalate [44] (l.map Prod.fst) ++ [93]) ++ w' ++ r =
        w ++ 91 :: (List.intercalate [44] (l.map Prod.fst) ++ 93 :: (w' ++ r)) := by simp
    rw [e, pVal, skip_ws hw, skip_cons (by decide)]
    simp only
    rw [if_neg (by decide), if_pos trivial, pItems_all l hl ih n (by omega)]
    have hb : ∃ c t, skip (List.intercalate [44] (l.map Prod.fst) ++ 93 :: (w' ++ r)) = c :: t ∧ c ≠ 93 := by
      cases l with
      | nil => exact absurd rfl hl
      | cons x l =>
        have hx0 := hx x (by simp)
        cases l with
        | nil =>
          obtain ⟨c, t, h1, h2, -⟩ := hx0.begins (93 :: (w' ++ r))
          exact ⟨c, t, by simpa [intercalate_one] using h1, h2⟩
        | cons y l =>
          obtain ⟨c, t, h1, h2, -⟩ := hx0.begins (44 :: (List.intercalate [44] ((y :: l).map Prod.fst) ++ 93 :: (w' ++ r)))
          refine ⟨c, t, ?_, h2⟩
          rw [← h1]
          simp only [List.map_cons, intercalate_cons₂, List.append_assoc, List.cons_append]
    obtain ⟨c, t, h1, h2⟩ := hb
    rw [h1]
    simp [h2, skip_ws hw', hr.skip]
  | noMembers w u w' hw hu hw' =>
    intro n hn r hr
    obtain ⟨n, rfl⟩ : ∃ k, n = k + 1 := ⟨n - 1, by simp at hn; omega⟩
    have e : w ++ ([123] ++ u ++ [125]) ++ w' ++ r = w ++ 123 :: (u ++ 125 :: (w' ++ r)) := by simp
    rw [e, pVal, skip_ws hw, skip_cons (by decide)]
    simp only
    rw [if_neg (by decide), if_neg (by decide), if_pos trivial, skip_ws hu, skip_cons (by decide)]
    simp [skip_ws hw', hr.skip]
  | members w l w' hw hw' hl hp hx ih =>
    intro n hn r hr
    simp only [List.length_append, List.length_cons, List.length_nil] at hn
    obtain ⟨n, rfl⟩ : ∃ k, n = k + 1 := ⟨n - 1, by omega⟩
    have e : w ++ ([123] ++ List.intercalate [44] (l.map Member.all) ++ [125]) ++ w' ++ r =
        w ++ 123 :: (List.intercalate [44] (l.map Member.all) ++ 125 :: (w' ++ r)) := by simp
    rw [e, pVal, skip_ws hw, skip_cons (by decide)]
    simp only
    rw [if_neg (by decide), if_neg (by decide), if_pos trivial, pMembers_all l hl hp ih n (by omega)]
    have hb : ∃ t, skip (List.intercalate [44] (l.map Member.all) ++ 125 :: (w' ++ r)) = 34 :: t := by
      cases l with
      | nil => exact absurd rfl hl
      | cons x l =>
        obtain ⟨h1, -, -⟩ := hp x (by simp)
        cases l with
        | nil =>
          simp only [List.map_cons, List.map_nil, intercalate_one, Member.all, List.append_assoc, quoted]
          rw [skip_ws h1]
          exact ⟨_, skip_cons (by decide) _⟩
        | cons y l =>
          simp only [List.map_cons, intercalate_cons₂]
          simp only [Member.all, List.append_assoc, quoted]
          rw [skip_ws h1]
          exact ⟨_, skip_cons (by decide) _⟩
    obtain ⟨t, h1⟩ := hb
    rw [h1]
    simp [skip_ws hw', hr.skip]

/-- A text has only one meaning. -/
theorem Text.unique {b : List UInt8} {j j' : J} (h : Text b j) (h' : Text b j') : j = j' := by
  have h1 := h.reads b.length (Nat.le_refl _) [] (.inl rfl)
  have h2 := h'.reads b.length (Nat.le_refl _) [] (.inl rfl)
  rw [h1] at h2
  cases h2; rfl

/-- No JSON if the reader cannot read all of it. -/
theorem not_text {b : List UInt8} (h : ((pVal b.length b).map fun x => x.2.isEmpty) ≠ some true) : ¬ ∃ j, Text b j := by
  rintro ⟨j, hj⟩
  have := hj.reads b.length (Nat.le_refl _) [] (.inl rfl)
  rw [List.append_nil] at this
  rw [this] at h
  exact h rfl

theorem Ws.append {a b : List UInt8} (ha : Ws a) (hb : Ws b) : Ws (a ++ b) := by
  intro c hc
  rcases List.mem_append.mp hc with h | h
  · exact ha c h
  · exact hb c h

/-- white space may be added around a text -/
theorem Text.pad {b : List UInt8} {j : J} (h : Text b j) {u v : List UInt8} (hu : Ws u) (hv : Ws v) : Text (u ++ b ++ v) j := by
  have e : ∀ w m w' : List UInt8, u ++ (w ++ m ++ w') ++ v = (u ++ w) ++ m ++ (w' ++ v) := by intros; simp
  cases h with
  | str w s w' hw hw' hs => rw [e]; exact .str _ _ _ (hu.append hw) (hw'.append hv) hs
  | num w ds w' hw hw' hd => rw [e]; exact .num _ _ _ (hu.append hw) (hw'.append hv) hd
  | neg w ds w' hw hw' hd => rw [e]; exact .neg _ _ _ (hu.append hw) (hw'.append hv) hd
  | isTrue w w' hw hw' => rw [e]; exact .isTrue _ _ (hu.append hw) (hw'.append hv)
  | isFalse w w' hw hw' => rw [e]; exact .isFalse _ _ (hu.append hw) (hw'.append hv)
  | noItems w x w' hw hx hw' => rw [e]; exact .noItems _ _ _ (hu.append hw) hx (hw'.append hv)
  | items w l w' hw hw' hl hx => rw [e]; exact .items _ _ _ (hu.append hw) (hw'.append hv) hl hx
  | noMembers w x w' hw hx hw' => rw [e]; exact .noMembers _ _ _ (hu.append hw) hx (hw'.append hv)
  | members w l w' hw hw' hl hp hx => rw [e]; exact .members _ _ _ (hu.append hw) (hw'.append hv) hl hp hx

end Sid.Spec.Json
