import Verif.Model.UtilStr
import Verif.Spec.UtilStr
/-
Lemmas for C48 and C70.
-/
namespace Sid.UStr
open Sid.Spec.UStr

theorem takeWhile_all {p : UInt8 → Bool} {t : Str} (ht : ∀ x ∈ t, p x = true) (l : Str) :
    (t ++ l).takeWhile p = t ++ l.takeWhile p := by
  induction t with
  | nil => rfl
  | cons a t ih =>
    rw [List.cons_append, List.takeWhile_cons, if_pos (ht a (by simp)), ih (fun x hx => ht x (by simp [hx]))]; rfl

theorem dropWhile_all {p : UInt8 → Bool} {t : Str} (ht : ∀ x ∈ t, p x = true) (l : Str) :
    (t ++ l).dropWhile p = l.dropWhile p := by
  induction t with
  | nil => rfl
  | cons a t ih => rw [List.cons_append, List.dropWhile_cons, if_pos (ht a (by simp)), ih (fun x hx => ht x (by simp [hx]))]

theorem mergeNext_boundary {d : Str} {rest : Str} (h : Boundary d rest) : mergeNext d rest = false := by
  cases rest with
  | nil => rfl
  | cons c r => simpa [mergeNext, Boundary] using h

/-- one round of the loop, after the delimiters -/
def tokStep (d q : Str) (l : Str) (mb : Bool) : List (Str × Bool) × Bool :=
  match l with
  | [] => ([], true)
  | c :: t =>
    if q.contains c then
      match t.dropWhile (· ≠ c) with
      | [] => ([], false)
      | _ :: rest =>
        let r := tokens d q rest (mergeNext d rest)
        ((t.takeWhile (· ≠ c), mb) :: r.1, r.2)
    else
      let rest := t.dropWhile fun x => !(q ++ d).contains x
      let r := tokens d q rest (mergeNext d rest)
      ((c :: t.takeWhile fun x => !(q ++ d).contains x, mb) :: r.1, r.2)

theorem tokens_eq (d q s : Str) (mb : Bool) : tokens d q s mb = tokStep d q (s.dropWhile d.contains) mb := by
  rw [tokens]
  split
  · next h => rw [h]; rfl
  · next c t h =>
    rw [h]
    simp only [tokStep]
    split
    · split <;> (rename_i h2; rw [h2])
    · rfl

theorem tokens_nil (d q : Str) (mb : Bool) : tokens d q [] mb = ([], true) := by
  rw [tokens_eq]; rfl

theorem tokens_delim {d q : Str} {c : UInt8} (h : c ∈ d) (s : Str) (mb : Bool) : tokens d q (c :: s) mb = tokens d q s mb := by
  rw [tokens_eq, tokens_eq d q s, List.dropWhile_cons, if_pos (by simpa using h)]

theorem tokens_blank {d q l : Str} (h : ∀ c ∈ l, c ∈ d) (s : Str) (mb : Bool) : tokens d q (l ++ s) mb = tokens d q s mb := by
  induction l with
  | nil => rfl
  | cons c l ih => rw [List.cons_append, tokens_delim (h c (by simp)), ih (fun x hx => h x (by simp [hx]))]

theorem tokens_cons {d q : Str} {c : UInt8} (h : c ∉ d) (t : Str) (mb : Bool) :
    tokens d q (c :: t) mb = tokStep d q (c :: t) mb := by
  rw [tokens_eq, List.dropWhile_cons, if_neg (by simpa using h)]

theorem tokens_quoted {d q : Str} {c : UInt8} (h : c ∉ d) (hq : c ∈ q) {t : Str} (ht : c ∉ t) (rest : Str) (mb : Bool) :
    tokens d q (c :: (t ++ c :: rest)) mb =
      ((t, mb) :: (tokens d q rest (mergeNext d rest)).1, (tokens d q rest (mergeNext d rest)).2) := by
  have hp : ∀ x ∈ t, decide (x ≠ c) = true := fun x hx => by simp; rintro rfl; exact ht hx
  rw [tokens_cons h, tokStep, if_pos (by simpa using hq), dropWhile_all hp, takeWhile_all hp]
  simp

theorem tokens_unclosed {d q : Str} {c : UInt8} (h : c ∉ d) (hq : c ∈ q) {t : Str} (ht : c ∉ t) (mb : Bool) :
    tokens d q (c :: t) mb = ([], false) := by
  have hp : ∀ x ∈ t, decide (x ≠ c) = true := fun x hx => by simp; rintro rfl; exact ht hx
  have := dropWhile_all hp []
  rw [List.append_nil] at this
  rw [tokens_cons h, tokStep, if_pos (by simpa using hq), this]
  rfl

theorem tokens_bare_stop {d q : Str} {c : UInt8} (h : c ∉ d) (hq : c ∉ q) {rest : Str}
    (hr : rest = [] ∨ ∃ x r, rest = x :: r ∧ (x ∈ d ∨ x ∈ q)) (mb : Bool) :
    tokens d q (c :: rest) mb =
      (([c], mb) :: (tokens d q rest (mergeNext d rest)).1, (tokens d q rest (mergeNext d rest)).2) := by
  rw [tokens_cons h, tokStep, if_neg (by simpa using hq)]
  rcases hr with rfl | ⟨x, r, rfl, hx⟩
  · rfl
  · have : (!(q ++ d).contains x) = false := by
      rcases hx with hx | hx <;> simp [hx]
    rw [List.takeWhile_cons, List.dropWhile_cons, this]
    simp

theorem tokens_bare_more {d q : Str} {c x : UInt8} (h : c ∉ d) (hq : c ∉ q) (hx : x ∉ d) (hxq : x ∉ q) {r : Str} {mb : Bool} {u : Str}
    {tk : List (Str × Bool)} {ok : Bool} (ht : tokens d q (x :: r) mb = ((u, mb) :: tk, ok)) :
    tokens d q (c :: x :: r) mb = ((c :: u, mb) :: tk, ok) := by
  rw [tokens_cons hx, tokStep, if_neg (by simpa using hxq)] at ht
  rw [tokens_cons h, tokStep, if_neg (by simpa using hq)]
  have : (!(q ++ d).contains x) = true := by simp [hx, hxq]
  rw [List.takeWhile_cons, List.dropWhile_cons, this]
  simp only [Prod.mk.injEq, List.cons.injEq] at ht
  obtain ⟨⟨⟨h1, -⟩, h2⟩, h3⟩ := ht
  simp only [if_true, h1, h2, h3]

theorem tokens_ok_mb (d q : Str) (s : Str) (mb : Bool) : (tokens d q s mb).2 = (tokens d q s false).2 := by
  rw [tokens_eq, tokens_eq d q s false]
  unfold tokStep
  split
  · rfl
  · split
    · split <;> rfl
    · rfl

/-- The first piece of a word is read as a token or the beginning of one, the others are merged with it. -/
theorem tokens_pieces {d q : Str} : ∀ (ps : List Piece), ps ≠ [] → (∀ p ∈ ps, p.Ok d q) → ∀ (rest : Str), Boundary d rest → ∀ mb : Bool,
    ∃ t tk, tokens d q ((ps.map Piece.text).flatten ++ rest) mb =
        ((t, mb) :: (tk ++ (tokens d q rest false).1), (tokens d q rest false).2) ∧
      (∀ x ∈ tk, x.2 = true) ∧ t ++ (tk.map Prod.fst).flatten = (ps.map Piece.value).flatten := by
  intro ps
  induction ps with
  | nil => intro h; exact absurd rfl h
  | cons p ps ih =>
    intro _ hok rest hb mb
    have hp := hok p (by simp)
    by_cases hps : ps = []
    · subst hps
      refine ⟨p.value, [], ?_, by simp, by simp⟩
      cases p with
      | bare c =>
        obtain ⟨h1, h2⟩ := hp
        have := tokens_bare_stop (mb := mb) h1 h2 (rest := rest) (by
          cases rest with
          | nil => exact .inl rfl
          | cons x r => exact .inr ⟨x, r, rfl, .inl hb⟩)
        rw [mergeNext_boundary hb] at this
        simpa [Piece.text, Piece.value] using this
      | quoted c t =>
        obtain ⟨h1, h2, h3⟩ := hp
        have := tokens_quoted h2 h1 h3 rest mb
        rw [mergeNext_boundary hb] at this
        simpa [Piece.text, Piece.value] using this
    · have IH := ih hps (fun x hx => hok x (by simp [hx])) rest hb
      obtain ⟨p', ps', rfl⟩ : ∃ a b, ps = a :: b := by
        cases ps with
        | nil => exact absurd rfl hps
        | cons a b => exact ⟨a, b, rfl⟩
      have hp' := hok p' (by simp)
      have hhead : ∃ x r, ((p' :: ps').map Piece.text).flatten ++ rest = x :: r ∧ x ∉ d ∧
          ((p' = .bare x ∧ x ∉ q) ∨ x ∈ q) := by
        cases p' with
        | bare x => exact ⟨x, (ps'.map Piece.text).flatten ++ rest, by simp [Piece.text], hp'.1, .inl ⟨rfl, hp'.2⟩⟩
        | quoted x t => exact ⟨x, t ++ [x] ++ (ps'.map Piece.text).flatten ++ rest, by simp [Piece.text], hp'.2.1, .inr hp'.1⟩
      obtain ⟨x, r, hx, hxd, hxq⟩ := hhead
      have hmn : mergeNext d (((p' :: ps').map Piece.text).flatten ++ rest) = true := by
        rw [hx]; simpa [mergeNext] using hxd
      cases p with
      | quoted c t =>
        obtain ⟨h1, h2, h3⟩ := hp
        obtain ⟨t', tk, e1, e2, e3⟩ := IH true
        refine ⟨t, (t', true) :: tk, ?_, ?_, ?_⟩
        · have := tokens_quoted h2 h1 h3 (((p' :: ps').map Piece.text).flatten ++ rest) mb
          rw [hmn, e1] at this
          rw [List.map_cons, List.flatten_cons, Piece.text]
          simpa using this
        · simpa using e2
        · rw [List.map_cons (f := Piece.value), List.flatten_cons, ← e3]; simp [Piece.value]
      | bare c =>
        obtain ⟨h1, h2⟩ := hp
        rcases hxq with ⟨-, hxq⟩ | hxq
        · obtain ⟨t', tk, e1, e2, e3⟩ := IH mb
          refine ⟨c :: t', tk, ?_, e2, ?_⟩
          · rw [hx] at e1
            rw [List.map_cons, List.flatten_cons, Piece.text, List.append_assoc, hx]
            exact tokens_bare_more h1 h2 hxd hxq e1
          · rw [List.map_cons (f := Piece.value), List.flatten_cons, ← e3]; simp [Piece.value]
        · obtain ⟨t', tk, e1, e2, e3⟩ := IH true
          refine ⟨[c], (t', true) :: tk, ?_, ?_, ?_⟩
          · have := tokens_bare_stop (mb := mb) h1 h2 (rest := ((p' :: ps').map Piece.text).flatten ++ rest) (.inr ⟨x, r, hx, .inr hxq⟩)
            rw [hmn, e1] at this
            rw [List.map_cons, List.flatten_cons, Piece.text]
            simpa using this
          · simpa using e2
          · rw [List.map_cons (f := Piece.value), List.flatten_cons, ← e3]; simp [Piece.value]

/-- what the copier makes of tokens: words -/
def push (acc : List Str) (t : Str × Bool) : List Str :=
  if t.2 && acc.length != 0 then acc.dropLast ++ [acc.getLastD [] ++ t.1] else acc ++ [t.1]

theorem push_merge (acc : List Str) (w t : Str) : push (acc ++ [w]) (t, true) = acc ++ [w ++ t] := by
  simp [push]

theorem push_new (acc : List Str) (t : Str) : push acc (t, false) = acc ++ [t] := by simp [push]

theorem foldl_push_merge (acc : List Str) (w : Str) (tk : List (Str × Bool)) (h : ∀ x ∈ tk, x.2 = true) :
    tk.foldl push (acc ++ [w]) = acc ++ [w ++ (tk.map Prod.fst).flatten] := by
  induction tk generalizing w with
  | nil => simp
  | cons x tk ih =>
    obtain ⟨t, b⟩ := x
    have hb : b = true := h (t, b) (by simp)
    subst hb
    rw [List.foldl_cons, push_merge, ih _ (fun y hy => h y (by simp [hy]))]
    simp

theorem written_tokens {d q s : Str} {ws : List Str} (h : Written d q s ws) :
    (tokens d q s false).2 = true ∧ ∀ acc, (tokens d q s false).1.foldl push acc = acc ++ ws := by
  induction h with
  | blank l hl =>
    have := tokens_blank hl [] (q := q) false
    rw [List.append_nil, tokens_nil] at this
    rw [this]; simp
  | word lead ps rest ws hl hne hok hb _ ih =>
    obtain ⟨t, tk, e1, e2, e3⟩ := tokens_pieces ps hne hok rest hb false
    rw [List.append_assoc, tokens_blank hl, e1]
    refine ⟨ih.1, fun acc => ?_⟩
    rw [List.foldl_cons, push_new, List.foldl_append, foldl_push_merge _ _ _ e2, e3, ih.2]
    simp

theorem written_head {d q : Str} {c : UInt8} {s : Str} {ws : List Str} (h : Written d q (c :: s) ws) (hc : c ∉ d) :
    ∃ ps rest ws', ps ≠ [] ∧ (∀ p ∈ ps, p.Ok d q) ∧ Boundary d rest ∧ Written d q rest ws' ∧
      c :: s = (ps.map Piece.text).flatten ++ rest := by
  generalize hs : c :: s = l at h
  cases h with
  | blank _ h => subst hs; exact absurd (h c (by simp)) hc
  | word lead ps rest ws' hl hne hok hb hw =>
    cases lead with
    | nil => exact ⟨ps, rest, ws', hne, hok, hb, hw, by simp⟩
    | cons a lead =>
      simp at hs
      exact absurd (hl a (by simp)) (hs.1 ▸ hc)

theorem forall_cons {α : Type} {P : α → Prop} {a : α} {l : List α} (h : P a) (hl : ∀ x ∈ l, P x) : ∀ x ∈ a :: l, P x := by
  intro x hx
  rcases List.mem_cons.mp hx with rfl | hx
  · exact h
  · exact hl x hx

theorem written_cons_piece {d q : Str} {p : Piece} (hp : p.Ok d q) {rest : Str} {ws : List Str} (h : Written d q rest ws) :
    ∃ ws', Written d q (p.text ++ rest) ws' := by
  by_cases hb : Boundary d rest
  · exact ⟨_, by simpa using Written.word [] [p] rest ws (by simp) (by simp) (by simpa using hp) hb h⟩
  · cases rest with
    | nil => exact absurd trivial hb
    | cons c s =>
      obtain ⟨ps, rest, ws', hne, hok, hb', hw, e⟩ := written_head h hb
      refine ⟨((p :: ps).map Piece.value).flatten :: ws', ?_⟩
      rw [e]
      have := Written.word (delims := d) (quotes := q) [] (p :: ps) rest ws' (by simp) (by simp)
        (forall_cons hp hok) hb' hw
      simpa using this

theorem split_at {c : UInt8} : ∀ {t : Str}, c ∈ t → ∃ a b, t = a ++ c :: b ∧ c ∉ a := by
  intro t ht
  induction t with
  | nil => cases ht
  | cons x t ih =>
    by_cases hx : x = c
    · exact ⟨[], t, by simp [hx], by simp⟩
    · obtain ⟨a, b, e, h⟩ := ih (by simpa [Ne.symm hx] using ht)
      exact ⟨x :: a, b, by simp [e], by simp [h, Ne.symm hx]⟩

theorem tokens_written {d q : Str} : ∀ (n : Nat) (s : Str), s.length ≤ n → (tokens d q s false).2 = true → ∃ ws, Written d q s ws := by
  intro n
  induction n with
  | zero =>
    intro s hs _
    have : s = [] := List.eq_nil_of_length_eq_zero (by omega)
    subst this
    exact ⟨[], .blank [] (by simp)⟩
  | succ n ih =>
    intro s hs hok
    cases s with
    | nil => exact ⟨[], .blank [] (by simp)⟩
    | cons c t =>
      have hlen : t.length ≤ n := by simpa using hs
      by_cases hc : c ∈ d
      · rw [tokens_delim hc] at hok
        obtain ⟨ws, h⟩ := ih t hlen hok
        cases h with
        | blank _ h => exact ⟨[], .blank _ (forall_cons hc h)⟩
        | word lead ps rest ws hl hne hps hb hw =>
          exact ⟨_, by
            simpa using Written.word (c :: lead) ps rest ws
              (forall_cons hc hl) hne hps hb hw⟩
      · by_cases hq : c ∈ q
        · by_cases ht : c ∈ t
          · obtain ⟨a, b, rfl, ha⟩ := split_at ht
            rw [tokens_quoted hc hq ha, ] at hok
            simp only [tokens_ok_mb d q b (mergeNext d b)] at hok
            obtain ⟨ws, h⟩ := ih b (by simp at hlen; omega) hok
            obtain ⟨ws', h'⟩ := written_cons_piece (p := .quoted c a) ⟨hq, hc, ha⟩ h
            exact ⟨ws', by simpa [Piece.text] using h'⟩
          · rw [tokens_unclosed hc hq ht] at hok; cases hok
        · have hrest : (tokens d q t false).2 = true := by
            by_cases hst : t = [] ∨ ∃ x r, t = x :: r ∧ (x ∈ d ∨ x ∈ q)
            · rw [tokens_bare_stop hc hq hst] at hok
              simpa only [tokens_ok_mb d q t (mergeNext d t)] using hok
            · cases t with
              | nil => exact absurd (.inl rfl) hst
              | cons x r =>
                have hx : x ∉ d ∧ x ∉ q :=
                  ⟨fun h => hst (.inr ⟨x, r, rfl, .inl h⟩), fun h => hst (.inr ⟨x, r, rfl, .inr h⟩)⟩
                rw [tokens_cons hc, tokStep, if_neg (by simpa using hq)] at hok
                rw [tokens_cons hx.1, tokStep, if_neg (by simpa using hx.2)]
                have : (!(q ++ d).contains x) = true := by simp [hx]
                rw [List.dropWhile_cons, this] at hok
                exact hok
          obtain ⟨ws, h⟩ := ih t hlen hrest
          obtain ⟨ws', h'⟩ := written_cons_piece (p := .bare c) ⟨hc, hq⟩ h
          exact ⟨ws', by simpa [Piece.text] using h'⟩

/-- a text is written in one way at most as far as the words are concerned -/
theorem written_unique {d q s : Str} {ws ws' : List Str} (h : Written d q s ws) (h' : Written d q s ws') : ws = ws' := by
  have h1 := (written_tokens h).2 []
  have h2 := (written_tokens h').2 []
  rw [h1] at h2
  simpa using h2

/-! The vector -/

def pack (acc : List Str) : List UInt8 := (acc.map (· ++ [0])).flatten

def offs (n : Nat) : List Str → List Nat
  | [] => []
  | w :: ws => n :: offs (n + w.length + 1) ws

theorem pack_snoc (acc : List Str) (w : Str) : pack (acc ++ [w]) = pack acc ++ w ++ [0] := by simp [pack]

theorem offs_snoc (n : Nat) (acc : List Str) (w : Str) : offs n (acc ++ [w]) = offs n acc ++ [n + (pack acc).length] := by
  induction acc generalizing n with
  | nil => simp [offs, pack]
  | cons a acc ih =>
    rw [List.cons_append, offs, ih]
    simp [offs, pack]; omega

theorem offs_length (n : Nat) (acc : List Str) : (offs n acc).length = acc.length := by
  induction acc generalizing n with
  | nil => rfl
  | cons a acc ih => simp [offs, ih]

def Rel (c : Copier) (acc : List Str) : Prop := c.area = pack acc ∧ c.ptrs = offs 0 acc

theorem copyToken_rel {c : Copier} {acc : List Str} (h : Rel c acc) (t : Str × Bool) : Rel (copyToken c t) (push acc t) := by
  obtain ⟨h1, h2⟩ := h
  have hl : c.ptrs.length = acc.length := by rw [h2, offs_length]
  unfold copyToken push
  rw [hl]
  split
  · next hb =>
    have hne : acc ≠ [] := by
      intro h; subst h; simp at hb
    rcases List.eq_nil_or_concat acc with rfl | ⟨init, w, rfl⟩
    · exact absurd rfl hne
    · rw [List.concat_eq_append] at *
      refine ⟨?_, ?_⟩
      · simp only [h1, pack_snoc, List.dropLast_concat, List.getLastD_concat]; simp
      · simp only [h2, offs_snoc, List.dropLast_concat]
  · refine ⟨?_, ?_⟩
    · simp only [h1, pack_snoc]
    · simp only [h1, h2, offs_snoc]; simp

theorem foldl_rel (l : List (Str × Bool)) {c : Copier} {acc : List Str} (h : Rel c acc) :
    Rel (l.foldl copyToken c) (l.foldl push acc) := by
  induction l generalizing c acc with
  | nil => exact h
  | cons t l ih => exact ih (copyToken_rel h t)

theorem vread_pack (acc : List Str) (h0 : ∀ w ∈ acc, (0 : UInt8) ∉ w) (pre : List UInt8) (tail : List Slot) :
    vread (pre ++ pack acc) ((offs pre.length acc).map .ptr ++ .null :: tail) = some acc := by
  induction acc generalizing pre with
  | nil => rfl
  | cons w acc ih =>
    have hw : (0 : UInt8) ∉ w := h0 w (by simp)
    have e : pre ++ pack (w :: acc) = (pre ++ w ++ [0]) ++ pack acc := by simp [pack]
    have hd : (pre ++ pack (w :: acc)).drop pre.length = w ++ 0 :: pack acc := by simp [pack]
    have hc : cstrAt (pre ++ pack (w :: acc)) pre.length = some w := by
      rw [cstrAt, hd, if_pos (by simp), takeWhile_all (fun x hx => by
        simp; rintro rfl; exact hw hx)]
      simp
    have := ih (fun x hx => h0 x (by simp [hx])) (pre ++ w ++ [0])
    rw [List.length_append, List.length_append, List.length_singleton, ← e] at this
    simp only [offs, List.map_cons, List.cons_append, vread, hc, this]

theorem takeWhile_sub {p : UInt8 → Bool} {l : Str} {x : UInt8} (h : x ∈ l.takeWhile p) : x ∈ l :=
  (List.takeWhile_sublist p).subset h

theorem dropWhile_sub {p : UInt8 → Bool} {l : Str} {x : UInt8} (h : x ∈ l.dropWhile p) : x ∈ l :=
  (List.dropWhile_sublist p).subset h

theorem tokens_sub (d q : Str) (n : Nat) : ∀ (s : Str), s.length ≤ n → ∀ mb, ∀ t ∈ (tokens d q s mb).1, ∀ x ∈ t.1, x ∈ s := by
  induction n with
  | zero =>
    intro s hs mb t ht
    have : s = [] := List.eq_nil_of_length_eq_zero (by omega)
    subst this
    rw [tokens_nil] at ht; cases ht
  | succ n ih =>
    intro s hs mb t ht x hx
    cases s with
    | nil => rw [tokens_nil] at ht; cases ht
    | cons c r =>
      have hlen : r.length ≤ n := by simpa using hs
      by_cases hc : c ∈ d
      · rw [tokens_delim hc] at ht
        exact List.mem_cons_of_mem _ (ih r hlen mb t ht x hx)
      · rw [tokens_cons hc, tokStep] at ht
        split at ht
        · split at ht
          · cases ht
          · next y rest he =>
            rcases List.mem_cons.mp ht with rfl | ht
            · exact List.mem_cons_of_mem _ (takeWhile_sub hx)
            · have hl := length_drop_le (p := fun y => decide (y ≠ c)) r
              rw [he, List.length_cons] at hl
              have := ih rest (by omega) _ t ht x hx
              refine List.mem_cons_of_mem _ (dropWhile_sub (p := fun y => decide (y ≠ c)) ?_)
              rw [he]; exact List.mem_cons_of_mem _ this
        · rcases List.mem_cons.mp ht with rfl | ht
          · rcases List.mem_cons.mp hx with rfl | hx
            · exact List.mem_cons_self
            · exact List.mem_cons_of_mem _ (takeWhile_sub hx)
          · have hl := length_drop_le (p := fun x => !(q ++ d).contains x) r
            exact List.mem_cons_of_mem _ (dropWhile_sub (ih _ (by omega) _ t ht x hx))

theorem push_sub {P : Str → Prop} (hP : ∀ a b, P a → P b → P (a ++ b)) {acc : List Str} (h : ∀ w ∈ acc, P w) {t : Str × Bool}
    (ht : P t.1) : ∀ w ∈ push acc t, P w := by
  intro w hw
  unfold push at hw
  split at hw
  · next hb =>
    have hne : acc ≠ [] := by
      intro h; subst h; simp at hb
    rcases List.eq_nil_or_concat acc with rfl | ⟨init, v, rfl⟩
    · exact absurd rfl hne
    · rw [List.concat_eq_append] at *
      simp only [List.dropLast_concat, List.getLastD_concat, List.mem_append, List.mem_singleton] at hw
      rcases hw with hw | rfl
      · exact h w (by simp [hw])
      · exact hP _ _ (h v (by simp)) ht
  · rcases List.mem_append.mp hw with hw | hw
    · exact h w hw
    · rw [List.mem_singleton.mp hw]; exact ht

theorem foldl_push_sub {P : Str → Prop} (hP : ∀ a b, P a → P b → P (a ++ b)) (l : List (Str × Bool)) (hl : ∀ t ∈ l, P t.1)
    {acc : List Str} (h : ∀ w ∈ acc, P w) : ∀ w ∈ l.foldl push acc, P w := by
  induction l generalizing acc with
  | nil => exact h
  | cons t l ih => exact ih (fun x hx => hl x (by simp [hx])) (push_sub hP h (hl t (by simp)))

/-- the sizes counted are the sizes written -/
theorem count_push (l : List (Str × Bool)) : ∀ (acc : List Str) (c : Nat × Nat), c.1 = acc.length → c.2 + c.1 = (pack acc).length →
    (acc ≠ [] ∨ ∀ t ∈ l.head?, t.2 = false) →
    (l.foldl (fun c t => (if t.2 then c.1 else c.1 + 1, c.2 + t.1.length)) c).1 = (l.foldl push acc).length ∧
    (l.foldl (fun c t => (if t.2 then c.1 else c.1 + 1, c.2 + t.1.length)) c).2 +
      (l.foldl (fun c t => (if t.2 then c.1 else c.1 + 1, c.2 + t.1.length)) c).1 = (pack (l.foldl push acc)).length := by
  induction l with
  | nil => intro acc c h1 h2 _; exact ⟨h1, h2⟩
  | cons t l ih =>
    intro acc c h1 h2 h3
    rw [List.foldl_cons, List.foldl_cons]
    obtain ⟨t, b⟩ := t
    cases b with
    | false =>
      refine ih _ _ ?_ ?_ (.inl ?_)
      · simp [push_new, h1]
      · rw [push_new, pack_snoc]; simp; omega
      · rw [push_new]; simp
    | true =>
      rcases h3 with h3 | h3
      · rcases List.eq_nil_or_concat acc with rfl | ⟨init, w, rfl⟩
        · exact absurd rfl h3
        · rw [List.concat_eq_append] at *
          refine ih _ _ ?_ ?_ (.inl ?_)
          · rw [push_merge]; simpa using h1
          · rw [push_merge, pack_snoc]; rw [pack_snoc] at h2; simp at h2 ⊢; omega
          · rw [push_merge]; simp
      · have := h3 (t, true) (by simp); cases this

theorem tokens_head (d q s : Str) : ∀ t ∈ (tokens d q s false).1.head?, t.2 = false := by
  intro t ht
  rw [tokens_eq, tokStep.eq_def] at ht
  split at ht
  · simp at ht
  · split at ht
    · split at ht
      · simp at ht
      · simp at ht; rw [← ht]
    · simp at ht; rw [← ht]

/-! A key with its value -/

theorem span_split (p : UInt8 → Bool) (l : Str) : l = l.takeWhile p ++ l.dropWhile p ∧ (∀ x ∈ l.takeWhile p, p x = true) ∧
    ∀ c ∈ (l.dropWhile p).head?, p c = false := by
  induction l with
  | nil => simp
  | cons a l ih =>
    rw [List.takeWhile_cons, List.dropWhile_cons]
    split
    · next h =>
      refine ⟨by simp [← ih.1], ?_, ih.2.2⟩
      intro x hx
      rcases List.mem_cons.mp hx with rfl | hx
      · exact h
      · exact ih.2.1 x hx
    · next h => exact ⟨rfl, by simp, by simpa using h⟩

theorem blank_iff {l : Str} : Blank l ↔ ∀ x ∈ l, defDelims.contains x = true := by
  simp only [Blank, defDelims, List.contains_iff_mem]

theorem dropWhile_blank {l : Str} : l.dropWhile defDelims.contains = [] ↔ Blank l := by
  rw [blank_iff]
  constructor
  · intro h x hx
    have := span_split defDelims.contains l
    rw [h, List.append_nil] at this
    rw [this.1] at hx
    exact this.2.1 x hx
  · intro h
    simpa using dropWhile_all h []

theorem dropWhile_head {p : UInt8 → Bool} {c : UInt8} {l : Str} (h : p c = false) : (c :: l).dropWhile p = c :: l := by
  rw [List.dropWhile_cons, if_neg (by simp [h])]

theorem takeWhile_head {p : UInt8 → Bool} {c : UInt8} {l : Str} (h : p c = false) : (c :: l).takeWhile p = [] := by
  rw [List.takeWhile_cons, if_neg (by simp [h])]

/-- the characters of a key -/
def keyChar (x : UInt8) : Bool := !(defDelims ++ [61]).contains x

/-- the characters of an unquoted value -/
def valChar (c : UInt8) : Bool := !(defDelims ++ defQuotes).contains c

theorem keyChar_iff {x : UInt8} : keyChar x = true ↔ x ∉ ([32, 9, 13, 10, 11, 12] : List UInt8) ∧ x ≠ 61 := by
  simp [keyChar, defDelims]; grind

theorem valChar_iff {x : UInt8} : valChar x = true ↔ x ∉ ([32, 9, 13, 10, 11, 12] : List UInt8) ∧ x ∉ ([34, 39] : List UInt8) := by
  simp [valChar, defDelims, defQuotes]; grind

theorem keyChar_not_delim {x : UInt8} (h : keyChar x = true) : defDelims.contains x = false := by
  simp [keyChar] at h; simp [h]

theorem valChar_not_delim {x : UInt8} (h : valChar x = true) : defDelims.contains x = false := by
  simp [valChar] at h; simp [h]

theorem keyChar_delim {x : UInt8} (h : defDelims.contains x = true) : keyChar x = false := by
  simp at h; simp [keyChar, h]

/-- the text begins with a key and an equals sign -/
def Begins (text key r : Str) : Prop :=
  ∃ s1 s2, Blank s1 ∧ Blank s2 ∧ key ≠ [] ∧ (∀ c ∈ key, keyChar c = true) ∧ text = s1 ++ key ++ s2 ++ 61 :: r

theorem getKv_begins {text key r : Str} (h : Begins text key r) : getKv (some text) = kvValue key r := by
  obtain ⟨s1, s2, h1, h2, h3, h4, rfl⟩ := h
  obtain ⟨c, t, rfl⟩ : ∃ c t, key = c :: t := by
    cases key with
    | nil => exact absurd rfl h3
    | cons c t => exact ⟨c, t, rfl⟩
  have hc := h4 c (by simp)
  have e1 : (s1 ++ (c :: t) ++ s2 ++ 61 :: r).dropWhile defDelims.contains = c :: (t ++ s2 ++ 61 :: r) := by
    rw [List.append_assoc, List.append_assoc, dropWhile_all (blank_iff.mp h1), List.cons_append,
      dropWhile_head (keyChar_not_delim hc), List.append_assoc]
  have hstop : ∀ x ∈ (s2 ++ 61 :: r).head?, keyChar x = false := by
    cases s2 with
    | nil => intro x hx; simp at hx; subst hx; decide
    | cons a s2 => intro x hx; simp at hx; subst hx; exact keyChar_delim (blank_iff.mp h2 a (by simp))
  have hstop' : ((s2 ++ 61 :: r).dropWhile keyChar = s2 ++ 61 :: r) ∧ ((s2 ++ 61 :: r).takeWhile keyChar = []) := by
    generalize s2 ++ 61 :: r = l at hstop
    cases l with
    | nil => exact ⟨rfl, rfl⟩
    | cons x l => exact ⟨dropWhile_head (hstop x (by simp)), takeWhile_head (hstop x (by simp))⟩
  have e2 : (c :: (t ++ s2 ++ 61 :: r)).takeWhile keyChar = c :: t := by
    rw [List.append_assoc, ← List.cons_append, takeWhile_all h4, hstop'.2, List.append_nil]
  have e3 : ((c :: (t ++ s2 ++ 61 :: r)).dropWhile keyChar).dropWhile defDelims.contains = 61 :: r := by
    rw [List.append_assoc, ← List.cons_append, dropWhile_all h4, hstop'.1, dropWhile_all (blank_iff.mp h2),
      dropWhile_head (by decide)]
  have hne : ¬ c = 61 := (keyChar_iff.mp hc).2
  have f : (fun x => !(defDelims ++ [61]).contains x) = keyChar := rfl
  simp only [getKv, e1, f, if_neg hne, e2, e3, if_true]

theorem getKv_cases (text : Str) :
    (Blank text ∧ getKv (some text) = some .nodata) ∨ (¬ Blank text ∧ (∀ key r, ¬ Begins text key r) ∧ getKv (some text) = some .inval) ∨
    (¬ Blank text ∧ ∃ key r, Begins text key r) := by
  by_cases hb : Blank text
  · left
    exact ⟨hb, by simp only [getKv, dropWhile_blank.mpr hb]⟩
  · right
    by_cases hbe : ∃ key r, Begins text key r
    · exact .inr ⟨hb, hbe⟩
    · left
      refine ⟨hb, fun key r h => hbe ⟨key, r, h⟩, ?_⟩
      obtain ⟨e, hs, hh⟩ := span_split defDelims.contains text
      have f : (fun x => !(defDelims ++ [61]).contains x) = keyChar := rfl
      simp only [getKv, f]
      split
      · next h => exact absurd (dropWhile_blank.mp h) hb
      · next c t h =>
        rw [h] at e hh
        split
        · rfl
        · next hne =>
          split
          · rfl
          · next y r h2 =>
            split
            · next hy =>
              subst hy
              exfalso
              apply hbe
              obtain ⟨e1, hs1, -⟩ := span_split keyChar (c :: t)
              obtain ⟨e2, hs2, -⟩ := span_split defDelims.contains ((c :: t).dropWhile keyChar)
              rw [h2] at e2
              have hkc : keyChar c = true := by
                have := hh c (by simp)
                simp at this
                simp [keyChar, this, hne]
              refine ⟨(c :: t).takeWhile keyChar, r, text.takeWhile defDelims.contains,
                ((c :: t).dropWhile keyChar).takeWhile defDelims.contains, blank_iff.mpr hs, blank_iff.mpr hs2, ?_, hs1, ?_⟩
              · rw [List.takeWhile_cons, if_pos hkc]; simp
              · rw [List.append_assoc, List.append_assoc, ← e2, ← e1]; exact e
            · rfl

theorem kvValue_pair {k r key val : Str} : kvValue k r = some (.pair key val) ↔ k = key ∧ ∃ s3 v s4, Blank s3 ∧ Blank s4 ∧ r = s3 ++ v ++ s4 ∧
    ((v = val ∧ val ≠ [] ∧ ∀ c ∈ val, valChar c = true) ∨ (∃ q ∈ ([34, 39] : List UInt8), v = q :: (val ++ [q]) ∧ q ∉ val)) := by
  obtain ⟨e, hs, hh⟩ := span_split defDelims.contains r
  constructor
  · intro h
    rw [kvValue] at h
    split at h
    · cases h
    · next c t hd =>
      rw [hd] at e
      split at h
      · next hq =>
        simp only [Option.some.injEq, kvQuoted] at h
        obtain ⟨e1, hs1, hh1⟩ := span_split (· ≠ c) t
        split at h
        · cases h
        · next y l hl =>
          rw [hl] at e1 hh1
          have hy : y = c := by simpa using hh1 y (by simp)
          subst hy
          split at h
          · next hb =>
            cases h
            refine ⟨rfl, r.takeWhile defDelims.contains, y :: (t.takeWhile (· ≠ y) ++ [y]), l, blank_iff.mpr hs, dropWhile_blank.mp hb, ?_,
              .inr ⟨y, by simpa [defQuotes] using hq, rfl, ?_⟩⟩
            · rw [List.append_assoc, List.cons_append, List.append_assoc, List.singleton_append, ← e1]; exact e
            · intro hm; simpa using hs1 y hm
          · cases h
      · next hq =>
        simp only [Option.some.injEq, kvPlain] at h
        have f : (fun c => !(defDelims ++ defQuotes).contains c) = valChar := rfl
        simp only [f] at h
        obtain ⟨e1, hs1, hh1⟩ := span_split valChar (c :: t)
        have hvc : valChar c = true := by
          have := hh c (by rw [hd]; simp)
          simp only [List.contains_iff_mem, Bool.not_eq_true] at this hq
          simp [valChar, defDelims, defQuotes] at *
          grind
        have hne : (c :: t).takeWhile valChar ≠ [] := by rw [List.takeWhile_cons, if_pos hvc]; simp
        split at h
        · next hl =>
          cases h
          rw [hl, List.append_nil] at e1
          exact ⟨rfl, _, (c :: t).takeWhile valChar, [], blank_iff.mpr hs, by simp [Blank], by rw [List.append_nil, ← e1]; exact e,
            .inl ⟨rfl, hne, hs1⟩⟩
        · next y l hl =>
          split at h
          · cases h
          · split at h
            · next hb =>
              cases h
              rw [hl] at e1
              exact ⟨rfl, _, (c :: t).takeWhile valChar, y :: l, blank_iff.mpr hs, dropWhile_blank.mp hb,
                by rw [List.append_assoc, ← e1]; exact e, .inl ⟨rfl, hne, hs1⟩⟩
            · cases h
  · rintro ⟨rfl, s3, v, s4, h3, h4, rfl, hv⟩
    rcases hv with ⟨rfl, hne, hval⟩ | ⟨q, hq, rfl, hqv⟩
    · obtain ⟨c, t, rfl⟩ : ∃ c t, v = c :: t := by
        cases v with
        | nil => exact absurd rfl hne
        | cons c t => exact ⟨c, t, rfl⟩
      have hc := hval c (by simp)
      have e1 : (s3 ++ (c :: t) ++ s4).dropWhile defDelims.contains = c :: (t ++ s4) := by
        rw [List.append_assoc, dropWhile_all (blank_iff.mp h3), List.cons_append, dropWhile_head (valChar_not_delim hc)]
      have hcq : defQuotes.contains c = false := by simp [valChar] at hc; simp [hc]
      rw [kvValue, e1]
      simp only [hcq, Bool.false_eq_true, if_false, Option.some.injEq, kvPlain]
      have f : (fun c => !(defDelims ++ defQuotes).contains c) = valChar := rfl
      simp only [f, ← List.cons_append]
      rw [dropWhile_all hval, takeWhile_all hval]
      cases s4 with
      | nil => simp
      | cons b s4 =>
        have hb := blank_iff.mp h4 b (by simp)
        have hvb : valChar b = false := by simp at hb; simp [valChar, hb]
        have hqb : defQuotes.contains b = false := by
          simp [defDelims] at hb
          rcases hb with rfl | rfl | rfl | rfl | rfl | rfl <;> decide
        rw [dropWhile_head hvb, takeWhile_head hvb]
        simp only [hqb, Bool.false_eq_true, if_false, dropWhile_blank.mpr h4, if_true, List.append_nil]
    · have hqd : defDelims.contains q = false := by
        simp at hq; rcases hq with rfl | rfl <;> decide
      have e1 : (s3 ++ (q :: (val ++ [q])) ++ s4).dropWhile defDelims.contains = q :: (val ++ q :: s4) := by
        rw [List.append_assoc, dropWhile_all (blank_iff.mp h3), List.cons_append, dropWhile_head hqd]; simp
      have hqq : defQuotes.contains q = true := by simpa [defQuotes] using hq
      have hp : ∀ x ∈ val, decide (x ≠ q) = true := fun x hx => by simp; rintro rfl; exact hqv hx
      rw [kvValue, e1]
      simp only [hqq, if_true, Option.some.injEq, kvQuoted]
      rw [dropWhile_all hp, takeWhile_all hp]
      simp [dropWhile_blank.mpr h4]

theorem kvValue_none {k r : Str} : kvValue k r = none ↔ Blank r := by
  rw [← dropWhile_blank, kvValue]
  split
  · next h => simp [h]
  · next c t h => rw [h]; split <;> simp

/-! Searching -/

theorem rstrFrom_some {h n : Str} {m p : Nat} (e : rstrFrom h n m = some p) :
    0 < p ∧ p ≤ m ∧ n <+: h.drop p ∧ ∀ p', p < p' → p' ≤ m → ¬ n <+: h.drop p' := by
  induction m with
  | zero => cases e
  | succ m ih =>
    rw [rstrFrom] at e
    split at e
    · next hp =>
      cases e
      exact ⟨Nat.succ_pos _, Nat.le_refl _, List.prefix_iff_eq_take.mpr hp.symm, fun p' h1 h2 => by omega⟩
    · next hp =>
      obtain ⟨h1, h2, h3, h4⟩ := ih e
      refine ⟨h1, by omega, h3, fun p' h5 h6 => ?_⟩
      by_cases hm : p' = m + 1
      · subst hm; exact fun hh => hp (List.prefix_iff_eq_take.mp hh).symm
      · exact h4 p' h5 (by omega)

theorem rstrFrom_none {h n : Str} {m : Nat} (e : rstrFrom h n m = none) : ∀ p, 0 < p → p ≤ m → ¬ n <+: h.drop p := by
  induction m with
  | zero => intro p h1 h2; omega
  | succ m ih =>
    rw [rstrFrom] at e
    split at e
    · cases e
    · next hp =>
      intro p h5 h6
      by_cases hm : p = m + 1
      · subst hm; exact fun hh => hp (List.prefix_iff_eq_take.mp hh).symm
      · exact ih e p h5 (by omega)

/-- the text compared -/
def fold (ic : Bool) (s : Str) : Str := if ic then lowered s else s

theorem lower_eq (c : UInt8) : lower c = if 65 ≤ c ∧ c ≤ 90 then c + 32 else c := by
  unfold lower
  by_cases h : 65 ≤ c ∧ c ≤ 90 <;> simp [h]

theorem fold_length (ic : Bool) (s : Str) : (fold ic s).length = s.length := by
  cases ic <;> simp [fold, lowered]

theorem fold_append (ic : Bool) (a b : Str) : fold ic (a ++ b) = fold ic a ++ fold ic b := by
  cases ic <;> simp [fold, lowered]

theorem fold_drop (ic : Bool) (a : Str) (n : Nat) : fold ic (a.drop n) = (fold ic a).drop n := by
  cases ic <;> simp [fold, lowered]

theorem sameN_iff {ic : Bool} {a b : Str} : sameN ic a b = true ↔ fold ic b <+: fold ic a := by
  have hl : (fun c => if 65 ≤ c ∧ c ≤ 90 then c + 32 else c) = lower := funext fun c => (lower_eq c).symm
  rw [List.prefix_iff_eq_take, fold_length]
  cases ic
  · simp [sameN, fold]; exact eq_comm
  · simp only [sameN, fold, lowered, if_true, hl, beq_iff_eq, List.map_take]; exact eq_comm

theorem strstr_some {ic : Bool} {n : Str} : ∀ {h : Str} {i : Nat}, strstr ic n h = some i ↔
    i ≤ h.length ∧ fold ic n <+: fold ic (h.drop i) ∧ ∀ j < i, ¬ fold ic n <+: fold ic (h.drop j) := by
  intro h
  induction h with
  | nil =>
    intro i
    simp only [strstr, sameN_iff, List.length_nil, Nat.le_zero_eq, List.drop_nil]
    constructor
    · intro h
      split at h
      · next hp => cases h; exact ⟨rfl, hp, fun j hj => by omega⟩
      · cases h
    · rintro ⟨rfl, h, -⟩; rw [if_pos h]
  | cons c h ih =>
    intro i
    simp only [strstr, sameN_iff]
    constructor
    · intro e
      split at e
      · next hp => cases e; exact ⟨Nat.zero_le _, by simpa using hp, fun j hj => by omega⟩
      · next hp =>
        obtain ⟨k, hk, rfl⟩ := Option.map_eq_some_iff.mp e
        obtain ⟨h1, h2, h3⟩ := ih.mp hk
        refine ⟨by simpa using h1, by simpa using h2, fun j hj => ?_⟩
        cases j with
        | zero => simpa using hp
        | succ j => simpa using h3 j (by omega)
    · rintro ⟨h1, h2, h3⟩
      cases i with
      | zero => rw [if_pos (by simpa using h2)]
      | succ i =>
        rw [if_neg (by simpa using h3 0 (by omega)), ih.mpr ⟨by simpa using h1, by simpa using h2, fun j hj => by
          simpa using h3 (j + 1) (by omega)⟩]
        rfl

theorem strstr_none {ic : Bool} {n : Str} : ∀ {h : Str}, strstr ic n h = none →
    ∀ j, ¬ fold ic n <+: fold ic (h.drop j) := by
  intro h
  induction h with
  | nil =>
    intro e j
    simp only [strstr, sameN_iff] at e
    split at e
    · cases e
    · next hp => simpa using hp
  | cons c h ih =>
    intro e j
    simp only [strstr, sameN_iff] at e
    split at e
    · cases e
    · next hp =>
      cases j with
      | zero => simpa using hp
      | succ j => simpa using ih (by simpa using e) j

theorem prefix_suffix_iff {a p s : Str} : p.length + s.length ≤ a.length ∧ p <+: a ∧ s <:+ a ↔ ∃ m, a = p ++ m ++ s := by
  constructor
  · rintro ⟨h1, ⟨t, rfl⟩, ⟨u, hu⟩⟩
    have hl : s.length ≤ t.length := by simpa using h1
    have hu' : u.length = p.length + (t.length - s.length) := by
      have := congrArg List.length hu; simp at this; omega
    refine ⟨t.take (t.length - s.length), ?_⟩
    have e := congrArg (List.drop u.length) hu
    rw [List.drop_left, hu', List.drop_length_add_append] at e
    generalize t.length - s.length = k at e
    rw [List.append_assoc, e, List.take_append_drop]
  · rintro ⟨m, rfl⟩
    refine ⟨by simp only [List.length_append]; omega, ⟨m ++ s, by simp⟩, ⟨p ++ m, rfl⟩⟩

theorem sm_iff {ic : Bool} {h s : Str} (hl : s.length ≤ h.length) :
    (s.length == 0 || sameN ic (h.drop (h.length - s.length)) s) = true ↔ fold ic s <:+ fold ic h := by
  have e : fold ic (h.drop (h.length - s.length)) = (fold ic h).drop ((fold ic h).length - (fold ic s).length) := by
    rw [fold_drop, fold_length, fold_length]
  rw [Bool.or_eq_true, sameN_iff, e]
  constructor
  · rintro (h0 | h1)
    · have : s = [] := by simpa using h0
      subst this
      cases ic <;> exact List.nil_suffix
    · have hlen : ((fold ic h).drop ((fold ic h).length - (fold ic s).length)).length = (fold ic s).length := by
        simp [fold_length]; omega
      have := h1.eq_of_length hlen.symm
      rw [this]; exact List.drop_suffix _ _
  · intro hs
    right
    have := List.suffix_iff_eq_drop.mp hs
    rw [← this]; exact List.prefix_rfl

theorem pm_iff {ic : Bool} {h p : Str} : (p.length == 0 || sameN ic h p) = true ↔ fold ic p <+: fold ic h := by
  rw [Bool.or_eq_true, sameN_iff]
  constructor
  · rintro (h0 | h1)
    · have : p = [] := by simpa using h0
      subst this
      cases ic <;> exact List.nil_prefix
    · exact h1
  · exact .inr

end Sid.UStr
