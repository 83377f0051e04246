import Verif.Proof.Fmt
import Verif.Proof.UbrKey
import Verif.Spec.Listing
/-
The listings consist of properly nested calls.
-/
namespace Sid.Listing
open Sid.Fmt Sid.Spec.Json Sid.Spec.Fmt Sid.Spec.Listing
open Sid.Ifc (txt)

/-- a part given plain text -/
def Good (c : Bool) (calls : List Call) (n : Option (List UInt8)) (j : J) : Prop := Part c calls n j ∧ PlainCalls calls

def plainB (s : List UInt8) : Bool := s.all fun c => 32 ≤ c && c != 34 && c != 92

theorem plain_of {s : List UInt8} (h : plainB s = true) : Plain s := by
  intro c hc
  have := List.all_eq_true.mp h c hc
  simpa [and_assoc] using this

theorem _root_.Sid.Spec.Fmt.PlainCalls.nil : PlainCalls [] := nofun

theorem _root_.Sid.Spec.Fmt.PlainCalls.cons {c : Call} {l : List Call} (h : (∀ t ∈ texts c, Plain t) ∧ binFits c) (hl : PlainCalls l) : PlainCalls (c :: l) := by
  intro x hx
  rcases List.mem_cons.mp hx with rfl | hx
  · exact h
  · exact hl x hx

theorem _root_.Sid.Spec.Fmt.PlainCalls.append {a b : List Call} (ha : PlainCalls a) (hb : PlainCalls b) : PlainCalls (a ++ b) := by
  intro x hx
  rcases List.mem_append.mp hx with hx | hx
  · exact ha x hx
  · exact hb x hx

theorem _root_.Sid.Spec.Fmt.PlainCalls.flat {l : List (List Call)} (h : ∀ x ∈ l, PlainCalls x) : PlainCalls l.flatten := by
  intro c hc
  obtain ⟨x, hx, hc⟩ := List.mem_flatten.mp hc
  exact h x hx c hc

theorem _root_.Sid.Spec.Fmt.PlainCalls.one {c : Call} (h : (∀ t ∈ texts c, Plain t) ∧ binFits c) : PlainCalls [c] := .cons h .nil

theorem Good.fldUint (l : Int) {n : List UInt8} (v : Nat) (c : Bool) (hn : Plain n) : Good c [.fldUint l n v c] (some n) (.num v) :=
  ⟨.fldUint .., .one (by simpa [texts, binFits] using hn)⟩

theorem Good.fldInt (l : Int) {n : List UInt8} (v : Int) (c : Bool) (hn : Plain n) : Good c [.fldInt l n v c] (some n) (.num v) :=
  ⟨.fldInt .., .one (by simpa [texts, binFits] using hn)⟩

theorem Good.fldStr (l : Int) {n v : List UInt8} (c : Bool) (hn : Plain n) (hv : Plain v) : Good c [.fldStr l n v c] (some n) (.str v) :=
  ⟨.fldStr .., .one (by simpa [texts, binFits] using ⟨hn, hv⟩)⟩

theorem Good.fldBin (l : Int) {n v : List UInt8} (c : Bool) (hn : Plain n) (hv : v.length < 2 ^ 63) :
    Good c [.fldBin l n v c] (some n) (.str (Spec.Base64.encode v)) :=
  ⟨.fldBin .., .one ⟨by simpa [texts] using hn, by simp only [binFits]; omega⟩⟩

theorem Good.arrStr (l : Int) {v : List UInt8} (c : Bool) (hv : Plain v) : Good c [.arrStr l v c] none (.str v) :=
  ⟨.arrStr .., .one (by simpa [texts, binFits] using hv)⟩

theorem Good.arrBin (l : Int) {v : List UInt8} (c : Bool) (hv : v.length < 2 ^ 63) :
    Good c [.arrBin l v c] none (.str (Spec.Base64.encode v)) :=
  ⟨.arrBin .., .one ⟨by simp [texts], by simp only [binFits]; omega⟩⟩

theorem plain_parts {α : Type} {ps : List (List Call × α)} (h : ∀ i (h : i < ps.length), PlainCalls ps[i].1) :
    PlainCalls (ps.map (·.1)).flatten := by
  refine .flat fun x hx => ?_
  obtain ⟨y, hy, rfl⟩ := List.mem_map.mp hx
  obtain ⟨i, hi, rfl⟩ := List.getElem_of_mem hy
  exact h i hi

theorem Good.arr (l l' : Int) {n : List UInt8} (c : Bool) (hn : Plain n) (ps : List (List Call × J))
    (h : ∀ i (h : i < ps.length), Good (i ≠ 0) ps[i].1 none ps[i].2) :
    Good c ([.arrStart l n c] ++ (ps.map (·.1)).flatten ++ [.arrEnd l']) (some n) (.arr (ps.map (·.2))) :=
  ⟨.arr l l' n c ps fun i hi => (h i hi).1,
    .append (.append (.one (by simpa [texts, binFits] using hn)) (plain_parts fun i hi => (h i hi).2)) (.one (by simp [texts, binFits]))⟩

theorem Good.elm (l l' : Int) (c : Bool) (ps : List (List Call × List UInt8 × J))
    (h : ∀ i (h : i < ps.length), Good (i ≠ 0) ps[i].1 (some ps[i].2.1) ps[i].2.2) :
    Good c ([.elmStart l c] ++ (ps.map (·.1)).flatten ++ [.elmEnd l']) none (.obj (ps.map (·.2))) :=
  ⟨.elm l l' c ps fun i hi => (h i hi).1,
    .append (.append (.one (by simp [texts, binFits])) (plain_parts fun i hi => (h i hi).2)) (.one (by simp [texts, binFits]))⟩

theorem Good.namedElm (l l1 l' : Int) {n : List UInt8} (c : Bool) (hn : Plain n) (ps : List (List Call × List UInt8 × J))
    (h : ∀ i (h : i < ps.length), Good (i ≠ 0) ps[i].1 (some ps[i].2.1) ps[i].2.2) :
    Good c ([.elmName l n c, .elmStart l1 false] ++ (ps.map (·.1)).flatten ++ [.elmEnd l']) (some n) (.obj (ps.map (·.2))) :=
  ⟨.namedElm l l1 l' n c ps fun i hi => (h i hi).1,
    .append (.append (.cons (by simpa [texts, binFits] using hn) (.one (by simp [texts, binFits]))) (plain_parts fun i hi => (h i hi).2))
      (.one (by simp [texts, binFits]))⟩

theorem Good.namedDoc (l l1 l' : Int) {n : List UInt8} (c : Bool) (hn : Plain n) (ps : List (List Call × List UInt8 × J))
    (h : ∀ i (h : i < ps.length), Good (i ≠ 0) ps[i].1 (some ps[i].2.1) ps[i].2.2) :
    Good c ([.elmName l n c, .docStart l1] ++ (ps.map (·.1)).flatten ++ [.docEnd l']) (some n) (.obj (ps.map (·.2))) :=
  ⟨.namedDoc l l1 l' n c ps fun i hi => (h i hi).1,
    .append (.append (.cons (by simpa [texts, binFits] using hn) (.one (by simp [texts, binFits]))) (plain_parts fun i hi => (h i hi).2))
      (.one (by simp [texts, binFits]))⟩

theorem Good.doc (l l' : Int) (ps : List (List Call × List UInt8 × J))
    (h : ∀ i (h : i < ps.length), Good (i ≠ 0) ps[i].1 (some ps[i].2.1) ps[i].2.2) :
    Text (out .json ([.docStart l] ++ (ps.map (·.1)).flatten ++ [.docEnd l'])) (.obj (ps.map (·.2))) :=
  document_text (.doc l l' ps fun i hi => (h i hi).1)
    (.append (.append (.one (by simp [texts, binFits])) (plain_parts fun i hi => (h i hi).2)) (.one (by simp [texts, binFits])))

/-- the first part has no comma, all others have -/
theorem members_of {p : List Call × List UInt8 × J} {rest : List (List Call × List UInt8 × J)} (h0 : Good false p.1 (some p.2.1) p.2.2)
    (h : ∀ x ∈ rest, Good true x.1 (some x.2.1) x.2.2) (i : Nat) (hi : i < (p :: rest).length) :
    Good (i ≠ 0) (p :: rest)[i].1 (some (p :: rest)[i].2.1) (p :: rest)[i].2.2 := by
  cases i with
  | zero => exact h0
  | succ i =>
    have hi' : i < rest.length := by simpa using hi
    simpa using h rest[i] (List.getElem_mem hi')

theorem member_one {c : List Call} {n : List UInt8} {j : J} (h : Good false c (some n) j) (i : Nat) (hi : i < [(c, n, j)].length) :
    Good (i ≠ 0) [(c, n, j)][i].1 (some [(c, n, j)][i].2.1) [(c, n, j)][i].2.2 := members_of (p := (c, n, j)) h (by simp) i hi

theorem member_two {c c' : List Call} {n n' : List UInt8} {j j' : J} (h : Good false c (some n) j) (h' : Good true c' (some n') j') (i : Nat)
    (hi : i < [(c, n, j), (c', n', j')].length) :
    Good (i ≠ 0) [(c, n, j), (c', n', j')][i].1 (some [(c, n, j), (c', n', j')][i].2.1) [(c, n, j), (c', n', j')][i].2.2 :=
  members_of (p := (c, n, j)) (rest := [(c', n', j')]) h (by simpa using h') i hi

theorem items_of {p : List Call × J} {rest : List (List Call × J)} (h0 : Good false p.1 none p.2)
    (h : ∀ x ∈ rest, Good true x.1 none x.2) (i : Nat) (hi : i < (p :: rest).length) :
    Good (i ≠ 0) (p :: rest)[i].1 none (p :: rest)[i].2 := by
  cases i with
  | zero => exact h0
  | succ i =>
    have hi' : i < rest.length := by simpa using hi
    simpa using h rest[i] (List.getElem_mem hi')

theorem none_of {α : Type} {P : (i : Nat) → i < ([] : List α).length → Prop} (i : Nat) (hi : i < ([] : List α).length) : P i hi := by simp at hi

/-! ### values -/

theorem isStringData_iff (v : List UInt8) : isStringData v = true ↔ ∃ s, IsText v s := by
  rw [isStringData, Bool.and_eq_true, List.all_eq_true]
  constructor
  · rintro ⟨h1, h2⟩
    have h1 : v.getLast? = some 0 := by simpa using h1
    obtain ⟨ys, rfl⟩ := List.getLast?_eq_some_iff.mp h1
    refine ⟨ys, rfl, fun c hc => ?_⟩
    have := h2 c (by simpa using hc)
    simpa [isPrint] using this
  · rintro ⟨s, rfl, h⟩
    refine ⟨by simp, fun c hc => ?_⟩
    simpa [isPrint] using h c (by simpa using hc)

theorem text_clean {v s : List UInt8} (h : IsText v s) (hc : Clean v) : Plain s := by
  intro c hcs
  obtain ⟨h1, h2⟩ := hc.2 s h
  exact ⟨(h.2 c hcs).1, fun e => h1 (e ▸ hcs), fun e => h2 (e ▸ hcs)⟩

theorem shown_text {v s s' : List UInt8} (h : Shown v s) (ht : IsText v s') : s = s' := by
  cases h with
  | empty => have := ht.1; simp at this
  | text h' =>
    have := h'.1.symm.trans ht.1
    simpa using this
  | bin _ hn => exact absurd ⟨s', ht⟩ hn

theorem text_shown {v s' : List UInt8} (ht : IsText v s') : v.dropLast = s' := by rw [ht.1]; simp

theorem item_good (level : Int) {v s : List UInt8} (hc : Clean v) (hs : Shown v s) (k : Nat)
    (h : if k = 0 then v = [] ∨ ∃ s, IsText v s else v ≠ []) : Good (k ≠ 0) [itemCall level k v] none (.str s) := by
  rw [itemCall]
  split
  · next hv =>
    split
    · next ht =>
      obtain ⟨s', ht⟩ := (isStringData_iff v).mp ht
      rw [text_shown ht, shown_text hs ht]
      have : decide (k > 0) = decide (k ≠ 0) := by simp [Nat.pos_iff_ne_zero]
      rw [this]
      exact .arrStr _ _ (text_clean ht hc)
    · next ht =>
      have ht' : ¬ ∃ s, IsText v s := fun x => ht ((isStringData_iff v).mpr x)
      have hk : k ≠ 0 := by
        intro hk
        rw [if_pos hk] at h
        rcases h with h | h
        · exact hv (by rw [h]; rfl)
        · exact ht' h
      cases hs with
      | empty => simp at hv
      | text h' => exact absurd ⟨_, h'⟩ ht'
      | bin _ _ =>
        rw [show decide (k ≠ 0) = true by simpa using hk]
        exact .arrBin _ _ hc.1
  · next hv =>
    have hv : v = [] := by simpa using hv
    subst hv
    have hk : k = 0 := by
      by_cases hk : k = 0
      · exact hk
      · rw [if_neg hk] at h; exact absurd rfl h
    subst hk
    cases hs with
    | empty => exact .arrStr _ _ (by simp [Plain])
    | text h' => have := h'.1; simp at this
    | bin h' _ => exact absurd rfl h'

theorem val_good (level : Int) {n : List UInt8} (hn : Plain n) {v : Val} {j : J} (h : ValJ v j) : Good true (printVal level n v) (some n) j := by
  cases h with
  | @one v s hc hs =>
    rw [printVal]
    split
    · next hv =>
      split
      · next ht =>
        obtain ⟨s', ht⟩ := (isStringData_iff v).mp ht
        rw [text_shown ht, shown_text hs ht]
        exact .fldStr _ _ hn (text_clean ht hc)
      · next ht =>
        have ht' : ¬ ∃ s, IsText v s := fun x => ht ((isStringData_iff v).mpr x)
        cases hs with
        | empty => simp at hv
        | text h' => exact absurd ⟨_, h'⟩ ht'
        | bin _ _ => exact .fldBin _ _ hn hc.1
    · next hv =>
      have hv : v = [] := by simpa using hv
      subst hv
      cases hs with
      | empty => exact .fldStr _ _ hn (by simp [Plain])
      | text h' => have := h'.1; simp at this
      | bin h' _ => exact absurd rfl h'
  | @vec l ho hl =>
    have := Good.arr level level true hn (l.mapIdx fun k x => ([itemCall level k x.1], J.str x.2)) (by
      intro i hi
      have hi' : i < l.length := by simpa using hi
      obtain ⟨hc, hs⟩ := hl l[i] (List.getElem_mem hi')
      simp only [List.getElem_mapIdx]
      refine item_good level hc hs i ?_
      split
      · next h0 =>
        subst h0
        cases l with
        | nil => simp at hi'
        | cons a l => exact ho.1
      · next h0 =>
        obtain ⟨i, rfl⟩ : ∃ k, i = k + 1 := ⟨i - 1, by omega⟩
        cases l with
        | nil => simp at hi'
        | cons a l =>
          have hi'' : i < l.length := by simpa using hi'
          exact ho.2 _ (List.mem_map.mpr ⟨l[i], List.getElem_mem hi'', by simp⟩))
    rw [printVal]
    have e1 : ((l.mapIdx fun k x => ([itemCall level k x.1], J.str x.2)).map (·.1)).flatten = (l.map (·.1)).mapIdx (itemCall level) := by
      have e : (l.mapIdx fun k x => ([itemCall level k x.1], J.str x.2)).map (·.1) = ((l.map (·.1)).mapIdx (itemCall level)).map ([·]) := by
        apply List.ext_getElem
        · simp
        · intros; simp
      rw [e, ← List.flatMap_def]
      simp
    have e2 : (l.mapIdx fun k x => ([itemCall level k x.1], J.str x.2)).map (·.2) = l.map fun x => .str x.2 := by
      apply List.ext_getElem
      · simp
      · intros; simp
    rw [e1, e2] at this
    exact this

/-! ### resources -/

theorem ev_good (level : Int) {e : Ev} (h : Plain e.name) (c : Bool) : Good c (evCalls level e c) none (evJ e) := by
  have := Good.elm (level + 1) (level + 1) c [([.fldStr (level + 2) (txt "name") e.name false], txt "name", .str e.name),
    ([.fldUint (level + 2) (txt "events_max") e.max true], txt "events_max", .num e.max),
    ([.fldUint (level + 2) (txt "events_fired") e.fired true], txt "events_fired", .num e.fired)]
    (members_of (.fldStr _ _ (plain_of (by decide +kernel)) h) (by
      intro x hx
      simp only [List.mem_cons, List.not_mem_nil, or_false] at hx
      rcases hx with rfl | rfl
      · exact .fldUint _ _ _ (plain_of (by decide +kernel))
      · exact .fldUint _ _ _ (plain_of (by decide +kernel))))
  simpa [evCalls, evJ] using this

/-- parts of an array from a list -/
theorem mapIdx_good {α : Type} (l : List α) (f : Nat → α → List Call) (g : α → J) (level level' : Int) {n : List UInt8} (c : Bool) (hn : Plain n)
    (h : ∀ i (hi : i < l.length), Good (i ≠ 0) (f i l[i]) none (g l[i])) :
    Good c ([.arrStart level n c] ++ (l.mapIdx f).flatten ++ [.arrEnd level']) (some n) (.arr (l.map g)) := by
  have := Good.arr level level' c hn (l.mapIdx fun i a => (f i a, g a)) (by
    intro i hi
    simp only [List.getElem_mapIdx]
    exact h i (by simpa using hi))
  have e1 : (l.mapIdx fun i a => (f i a, g a)).map (·.1) = l.mapIdx f := by
    apply List.ext_getElem
    · simp
    · intros; simp
  have e2 : (l.mapIdx fun i a => (f i a, g a)).map (·.2) = l.map g := by
    apply List.ext_getElem
    · simp
    · intros; simp
  rwa [e1, e2] at this

theorem evArr_good (level : Int) {evs : List Ev} (hne : evs ≠ []) (h : ∀ e ∈ evs, Plain e.name) :
    Good true (evArr level evs) (some (txt "event-sources")) (.arr (evs.reverse.map evJ)) := by
  rw [evArr, if_pos (by simpa using hne)]
  refine mapIdx_good evs.reverse (fun i e => evCalls level e (decide (i + 1 > 1))) evJ _ _ true (plain_of (by decide +kernel)) ?_
  intro i hi
  have : decide (i + 1 > 1) = decide (i ≠ 0) := by simp [Nat.pos_iff_ne_zero]
  rw [this]
  exact ev_good level (h _ (List.mem_reverse.mp (List.getElem_mem hi))) _

/-- the members of a resource, without its children -/
def fieldParts (level : Int) (type : Option Str) (evs : List Ev) (pid flags : Nat) (prio : Int) (refs : Nat) :
    List (List Call × List UInt8 × J) :=
  type.toList.map (fun t => ([.fldStr level (txt "type") t true], txt "type", .str t)) ++
  (if evs = [] then [] else [(evArr level evs, txt "event-sources", .arr (evs.reverse.map evJ))]) ++
  [([.fldUint level (txt "pid-created") pid true], txt "pid-created", .num pid),
   ([.fldUint level (txt "flags") flags true], txt "flags", .num flags),
   ([.fldInt level (txt "prio") prio true], txt "prio", .num prio),
   ([.fldUint level (txt "ref-count") refs true], txt "ref-count", .num refs)]

theorem fieldParts_good (level : Int) {type : Option Str} {evs : List Ev} (pid flags : Nat) (prio : Int) (refs : Nat)
    (ht : ∀ t, type = some t → Plain t) (he : ∀ e ∈ evs, Plain e.name) :
    ∀ x ∈ fieldParts level type evs pid flags prio refs, Good true x.1 (some x.2.1) x.2.2 := by
  intro x hx
  simp only [fieldParts, List.mem_append, List.mem_map] at hx
  rcases hx with (⟨t, hx, rfl⟩ | hx) | hx
  · exact .fldStr _ _ (plain_of (by decide +kernel)) (ht t (by simpa using hx))
  · split at hx
    · cases hx
    · next hne =>
      rw [List.mem_singleton.mp hx]
      exact evArr_good level hne he
  · simp only [List.mem_cons, List.not_mem_nil, or_false] at hx
    rcases hx with rfl | rfl | rfl | rfl
    · exact .fldUint _ _ _ (plain_of (by decide +kernel))
    · exact .fldUint _ _ _ (plain_of (by decide +kernel))
    · exact .fldInt _ _ _ (plain_of (by decide +kernel))
    · exact .fldUint _ _ _ (plain_of (by decide +kernel))

theorem resFields_eq (level : Int) (ident : Str) (type : Option Str) (evs : List Ev) (pid flags : Nat) (prio : Int) (refs : Nat) :
    resFields level ident type evs pid flags prio refs =
      .fldStr level (txt "ID") ident false :: ((fieldParts level type evs pid flags prio refs).map (·.1)).flatten := by
  have e : (if evs = [] then ([] : List (List Call × List UInt8 × J)) else
      [(evArr level evs, txt "event-sources", .arr (evs.reverse.map evJ))]).map (·.1) = if evs = [] then [] else [evArr level evs] := by
    split <;> rfl
  have e' : (if evs = [] then [] else [evArr level evs]).flatten = evArr level evs := by
    split
    · next h => rw [h]; rfl
    · simp
  unfold resFields
  rw [fieldParts, List.map_append, List.map_append, List.flatten_append, List.flatten_append, e, e']
  cases type <;> simp

/-- parts of the children -/
def kidParts (level : Int) (item : Nat) : List Node → List (List Call × J)
  | [] => []
  | r :: l => (treeWrite level (decide (item > 0)) r, resJ r) :: kidParts level (item + 1) l

theorem kidParts_calls (level : Int) : ∀ (item : Nat) (l : List Node), ((kidParts level item l).map (·.1)).flatten = kidsWrite level item l
  | _, [] => by simp [kidParts, kidsWrite]
  | item, r :: l => by simp [kidParts, kidsWrite, kidParts_calls level (item + 1) l]

theorem kidParts_json (level : Int) : ∀ (item : Nat) (l : List Node), (kidParts level item l).map (·.2) = kidsJ l
  | _, [] => by simp [kidParts, kidsJ]
  | item, r :: l => by simp [kidParts, kidsJ, kidParts_json level (item + 1) l]

theorem tree_good_of (level : Int) (c : Bool) (ident : Str) (type : Option Str) (evs : List Ev) (pid flags : Nat) (prio : Int) (refs : Nat)
    (children : List Node) (hi : Plain ident) (ht : ∀ t, type = some t → Plain t) (he : ∀ e ∈ evs, Plain e.name)
    (hk : ∀ i (h : i < (kidParts (level + 2) 0 children).length), Good (i ≠ 0) (kidParts (level + 2) 0 children)[i].1 none (kidParts (level + 2) 0 children)[i].2) :
    Good c (treeWrite level c (.mk ident type evs pid flags prio refs children)) none (resJ (.mk ident type evs pid flags prio refs children)) := by
  have harr := Good.arr (level + 1) (level + 1) true (plain_of (s := txt "children") (by decide +kernel)) (kidParts (level + 2) 0 children) hk
  rw [kidParts_calls, kidParts_json] at harr
  have := Good.elm level level c (([.fldStr (level + 1) (txt "ID") ident false], txt "ID", .str ident) ::
    (fieldParts (level + 1) type evs pid flags prio refs ++
      (if children = [] then [] else
        [([.arrStart (level + 1) (txt "children") true] ++ kidsWrite (level + 2) 0 children ++ [.arrEnd (level + 1)], txt "children",
          .arr (kidsJ children))])))
    (members_of (.fldStr _ _ (plain_of (by decide +kernel)) hi) (by
      intro x hx
      rcases List.mem_append.mp hx with hx | hx
      · exact fieldParts_good (level + 1) pid flags prio refs ht he x hx
      · split at hx
        · cases hx
        · rw [List.mem_singleton.mp hx]
          exact harr))
  have e1 : treeWrite level c (.mk ident type evs pid flags prio refs children) =
      [.elmStart level c] ++ ((([Call.fldStr (level + 1) (txt "ID") ident false], txt "ID", J.str ident) ::
        (fieldParts (level + 1) type evs pid flags prio refs ++
        (if children = [] then [] else
        [([.arrStart (level + 1) (txt "children") true] ++ kidsWrite (level + 2) 0 children ++ [.arrEnd (level + 1)], txt "children",
          .arr (kidsJ children))]))).map (·.1)).flatten ++ [.elmEnd level] := by
    rw [treeWrite, resFields_eq]
    by_cases hc : children = []
    · subst hc; simp
    · have : children.length > 0 := List.length_pos_iff.mpr hc
      rw [if_pos this, if_neg hc]
      simp
  have e2 : resJ (.mk ident type evs pid flags prio refs children) =
      .obj ((([Call.fldStr (level + 1) (txt "ID") ident false], txt "ID", J.str ident) ::
        (fieldParts (level + 1) type evs pid flags prio refs ++
        (if children = [] then [] else
        [([.arrStart (level + 1) (txt "children") true] ++ kidsWrite (level + 2) 0 children ++ [.arrEnd (level + 1)], txt "children",
          .arr (kidsJ children))]))).map (·.2)) := by
    rw [resJ, fieldParts]
    congr 1
    have i1 : ∀ (p : Prop) [Decidable p] (x : List Call × List UInt8 × J), (if p then [] else [x]).map (·.2) = if p then [] else [x.2] := by
      intro p _ x; split <;> rfl
    simp only [List.map_append, List.map_cons, List.map_nil, List.map_map, i1, List.cons_append, List.nil_append, List.append_assoc]
    congr 1
  rw [e1, e2]
  exact this

mutual
theorem tree_good (level : Int) (c : Bool) : (r : Node) → PlainRes r → Good c (treeWrite level c r) none (resJ r)
  | .mk ident type evs pid flags prio refs children, h => by
    rw [PlainRes] at h
    obtain ⟨h1, h2, h3, h4⟩ := h
    refine tree_good_of level c ident type evs pid flags prio refs children h1 h2 h3 ?_
    intro i hi
    have := kids_good (level + 2) 0 children h4 i hi
    have hd : decide (0 + i > 0) = decide (i ≠ 0) := by simp [Nat.pos_iff_ne_zero]
    rwa [hd] at this
theorem kids_good (level : Int) (item : Nat) : (l : List Node) → PlainKids l → ∀ i (h : i < (kidParts level item l).length),
    Good (decide (item + i > 0)) (kidParts level item l)[i].1 none (kidParts level item l)[i].2
  | [], _, i, h => by simp [kidParts] at h
  | r :: l, hp, i, h => by
    rw [PlainKids] at hp
    have ht := tree_good level (decide (item > 0)) r hp.1
    have hk := kids_good level (item + 1) l hp.2
    cases i with
    | zero => simpa [kidParts] using ht
    | succ i =>
      have := hk i (by simpa [kidParts] using h)
      have e : item + 1 + i = item + (i + 1) := by omega
      rw [e] at this
      simpa [kidParts] using this
end

/-! ### records -/

theorem flagCalls_parts (level : Int) (flags : Nat) : ∀ (tab : List (Nat × Str)) (comma : Bool), (∀ x ∈ tab, Plain x.2) →
    ∃ ps : List (List Call × J), flagCalls level flags comma tab = (ps.map (·.1)).flatten ∧
      ps.map (·.2) = (tab.filter fun x => decide (flags &&& x.1 ≠ 0)).map (fun x => J.str x.2) ∧
      ∀ i (h : i < ps.length), Good (comma || decide (i ≠ 0)) ps[i].1 none ps[i].2 := by
  intro tab
  induction tab with
  | nil => intro comma _; exact ⟨[], rfl, rfl, by simp⟩
  | cons x tab ih =>
    intro comma hp
    obtain ⟨bit, name⟩ := x
    rw [flagCalls]
    by_cases hb : flags &&& bit ≠ 0
    · obtain ⟨ps, h1, h2, h3⟩ := ih true (fun x hx => hp x (List.mem_cons_of_mem _ hx))
      rw [if_pos hb]
      refine ⟨([.arrStr level name comma], .str name) :: ps, by simp [h1], by simp [hb, h2], ?_⟩
      intro i hi
      cases i with
      | zero => simpa using Good.arrStr level comma (hp _ (List.mem_cons_self ..))
      | succ i => simpa using h3 i (by simpa using hi)
    · obtain ⟨ps, h1, h2, h3⟩ := ih comma (fun x hx => hp x (List.mem_cons_of_mem _ hx))
      rw [if_neg hb]
      exact ⟨ps, h1, by simpa [hb] using h2, h3⟩

theorem and_pow (f i : Nat) : decide (f &&& 2 ^ i ≠ 0) = f.testBit i := by
  rw [Nat.testBit_eq_decide_div_mod_eq, decide_eq_decide]
  have h2 : f &&& 2 ^ i = if f.testBit i then 2 ^ i else 0 := by
    apply Nat.eq_of_testBit_eq
    intro j
    rw [Nat.testBit_and, Nat.testBit_two_pow]
    by_cases hj : i = j
    · subst hj
      split
      · next h => simp [h]
      · next h => simp [h]
    · have : decide (i = j) = false := by simpa using hj
      rw [this]
      split <;> simp [Nat.testBit_two_pow, hj]
  rw [h2, Nat.testBit_eq_decide_div_mod_eq]
  by_cases h : f / 2 ^ i % 2 = 1
  · simp [h]
  · simp [h]

theorem flags_good (level : Int) (flags : Nat) : Good true (printFlags level flags) (some (txt "flags")) (flagsJ flags) := by
  have hp : ∀ x ∈ flTab, plainB x.2 = true := by decide +kernel
  obtain ⟨ps, h1, h2, h3⟩ := flagCalls_parts (level + 1) flags flTab false (fun x hx => plain_of (hp x hx))
  have := Good.arr level level true (plain_of (s := txt "flags") (by decide +kernel)) ps (by simpa using h3)
  rw [printFlags, h1]
  have e : flTab = flagNames.zipIdx.map fun x => (2 ^ x.2, x.1) := by decide +kernel
  have e2 : ps.map (·.2) = (flagNames.zipIdx.filter fun x => flags.testBit x.2).map fun x => J.str x.1 := by
    rw [h2, e, List.filter_map, List.map_map]
    have : ((fun x : Nat × Str => decide (flags &&& x.1 ≠ 0)) ∘ fun x : Str × Nat => (2 ^ x.2, x.1)) = fun x => flags.testBit x.2 := by
      funext x
      exact and_pow flags x.2
    rw [this]
    rfl
  rw [flagsJ, ← e2]
  exact this

theorem rec_good_of (n : Nat) {r : Rec} {j : J} {vn : List UInt8} (hv : Plain vn) (h1 : Plain r.key) (h2 : Plain r.owner) (h3 : ValJ r.val j) :
    Good (n ≠ 0) ([.elmStart 2 (decide (n > 0)), .fldUint 3 (txt "RECORD") n false, .fldStr 3 (txt "key") r.key true,
      .fldUint 3 (txt "gennum") r.gennum true, .fldUint 3 (txt "seqnum") r.seqnum true] ++
      printFlags 3 r.flags ++ [.fldStr 3 (txt "owner") r.owner true] ++ printVal 3 vn r.val ++ [.elmEnd 2]) none
      (.obj [(txt "RECORD", .num n), (txt "key", .str r.key), (txt "gennum", .num r.gennum), (txt "seqnum", .num r.seqnum),
        (txt "flags", flagsJ r.flags), (txt "owner", .str r.owner), (vn, j)]) := by
  have := Good.elm 2 2 (n ≠ 0) [([.fldUint 3 (txt "RECORD") n false], txt "RECORD", .num n), ([.fldStr 3 (txt "key") r.key true], txt "key", .str r.key),
    ([.fldUint 3 (txt "gennum") r.gennum true], txt "gennum", .num r.gennum),
    ([.fldUint 3 (txt "seqnum") r.seqnum true], txt "seqnum", .num r.seqnum),
    (printFlags 3 r.flags, txt "flags", flagsJ r.flags), ([.fldStr 3 (txt "owner") r.owner true], txt "owner", .str r.owner),
    (printVal 3 vn r.val, vn, j)]
    (members_of (.fldUint _ _ _ (plain_of (by decide +kernel))) (by
      intro x hx
      simp only [List.mem_cons, List.not_mem_nil, or_false] at hx
      rcases hx with rfl | rfl | rfl | rfl | rfl | rfl
      · exact .fldStr _ _ (plain_of (by decide +kernel)) h1
      · exact .fldUint _ _ _ (plain_of (by decide +kernel))
      · exact .fldUint _ _ _ (plain_of (by decide +kernel))
      · exact flags_good 3 r.flags
      · exact .fldStr _ _ (plain_of (by decide +kernel)) h2
      · exact val_good 3 hv h3))
  have hd : decide (n > 0) = decide (n ≠ 0) := by simp [Nat.pos_iff_ne_zero]
  rw [hd]
  simpa using this

theorem rec_good (n : Nat) {r : Rec} {j : J} (h : RecJ n r j) : Good (n ≠ 0) (recCalls n r) none j := by
  obtain ⟨key, gennum, seqnum, flags, owner, val⟩ := r
  cases h with
  | mk h1 h2 h3 =>
    cases val with
    | vec l => exact rec_good_of n (plain_of (s := txt "values") (by decide +kernel)) h1 h2 h3
    | one v => exact rec_good_of n (plain_of (s := txt "value") (by decide +kernel)) h1 h2 h3

/-! ### devices -/

theorem plain_names {names : List (List UInt8)} (h : ∀ n ∈ names, plainB n = true) {i : Nat} {s : List UInt8} (hi : names[i]? = some s) : Plain s :=
  plain_of (h s (List.mem_of_getElem? hi))

theorem stateName_eq {names : List Str} (b : UInt8) : stateName names (.one [b, 0, 0, 0]) = names[b.toNat]? := by
  simp [stateName, Ifc.leNat]

/-- the field a record makes, as a part -/
theorem devField_parts {core : List UInt8} {v : Val} {js : List (List UInt8 × J)} (h : DevField core v js) :
    ∃ ps : List (List Call × List UInt8 × J), devField core v true = some (ps.map (·.1)).flatten ∧ ps.map (·.2) = js ∧
      ∀ x ∈ ps, Good true x.1 (some x.2.1) x.2.2 := by
  cases h with
  | @ready b s hs =>
    refine ⟨[([.fldStr 3 (txt "#RDY") s true], txt "#RDY", .str s)], ?_, rfl, ?_⟩
    · have : stateName Listing.readyNames (.one [b, 0, 0, 0]) = some s := by rw [stateName_eq]; exact hs
      rw [devField, if_neg (by decide +kernel), if_pos rfl, this]; rfl
    · intro x hx
      rw [List.mem_singleton.mp hx]
      exact .fldStr _ _ (plain_of (by decide +kernel)) (plain_names (by decide +kernel) hs)
  | @reserved b s hs =>
    refine ⟨[([.fldStr 3 (txt "#RES") s true], txt "#RES", .str s)], ?_, rfl, ?_⟩
    · have : stateName Listing.reservedNames (.one [b, 0, 0, 0]) = some s := by rw [stateName_eq]; exact hs
      rw [devField, if_neg (by decide +kernel), if_neg (by decide +kernel), if_pos rfl, this]; rfl
    · intro x hx
      rw [List.mem_singleton.mp hx]
      exact .fldStr _ _ (plain_of (by decide +kernel)) (plain_names (by decide +kernel) hs)
  | @groups _ j hj =>
    refine ⟨[(printVal 3 (txt "#GIN") v, txt "#GIN", j)], ?_, rfl, ?_⟩
    · rw [devField, if_pos (.inl rfl)]; simp
    · intro x hx
      rw [List.mem_singleton.mp hx]
      exact val_good 3 (plain_of (by decide +kernel)) hj
  | @members _ j hj =>
    refine ⟨[(printVal 3 (txt "#GMB") v, txt "#GMB", j)], ?_, rfl, ?_⟩
    · rw [devField, if_pos (.inr rfl)]; simp
    · intro x hx
      rw [List.mem_singleton.mp hx]
      exact val_good 3 (plain_of (by decide +kernel)) hj
  | other hc =>
    simp only [List.mem_cons, List.not_mem_nil, or_false, not_or] at hc
    refine ⟨[], ?_, rfl, by simp⟩
    rw [devField, if_neg (by simp [hc.1, hc.2.1]), if_neg hc.2.2.1, if_neg hc.2.2.2]; rfl

theorem usable_eq {key devid name : List UInt8} (hk : DevKey key devid name) (hd : GoodId devid) : usable key = some (devid, name) := by
  obtain ⟨cat, ident, h1, h2, rfl⟩ := hk
  obtain ⟨-, h3, h4, -⟩ := hd
  have e : txt "::D:" ++ devid ++ [58] ++ cat ++ [58] ++ ident ++ [58] ++ name = Ubr.glue [] [] (txt "D") devid cat ident name := by
    have : txt "::D:" = [58, 58, 68, 58] := by decide +kernel
    have h' : txt "D" = [68] := by decide +kernel
    rw [this, h']
    simp [Ubr.glue, Ubr.join]
  have hD : Ubr.join ∉ txt "D" := by decide +kernel
  rw [e, usable, Ubr.part3 name (by simp) (by simp) hD h4, Ubr.part6 name (by simp) (by simp) hD h4 h1 h2]
  have : UStr.copyLen devid devid.length (some 37) = some devid := by
    rw [UStr.copyLen, if_neg (by omega)]
    simp [h3]
  simp [this]

/-- the records as they are found -/
def Dev.raw (d : Spec.Listing.Dev) : List (Str × Val) := d.recs.map fun r => (r.key, r.val)

/-- what is listed of the records of one device, after the identifier -/
theorem recs_loop {devid : List UInt8} (hd : GoodId devid) : ∀ (recs : List DevRec),
    (∀ r ∈ recs, DevKey r.key devid r.name ∧ DevField r.name r.val r.fields) →
    ∃ ps : List (List Call × List UInt8 × J), ps.map (·.2) = recs.flatMap (·.fields) ∧ (∀ x ∈ ps, Good true x.1 (some x.2.1) x.2.2) ∧
      ∀ more, devLoop devid true (recs.map (fun r => (r.key, r.val)) ++ more) = (devLoop devid true more).map ((ps.map (·.1)).flatten ++ ·) := by
  intro recs
  induction recs with
  | nil =>
    intro _
    exact ⟨[], rfl, by simp, fun more => by simp⟩
  | cons r recs ih =>
    intro h
    obtain ⟨ps, h1, h2, h3⟩ := ih fun x hx => h x (List.mem_cons_of_mem _ hx)
    obtain ⟨hk, hf⟩ := h r (List.mem_cons_self ..)
    obtain ⟨qs, g1, g2, g3⟩ := devField_parts hf
    refine ⟨qs ++ ps, by simp [g2, h1], ?_, ?_⟩
    · intro x hx
      rcases List.mem_append.mp hx with hx | hx
      · exact g3 x hx
      · exact h2 x hx
    · intro more
      rw [List.map_cons, List.cons_append, devLoop, usable_eq hk hd]
      simp only [g1, Option.bind_some, h3]
      cases devLoop devid true more <;> simp

/-- the calls for a device -/
def devCalls (c : Bool) (d : Spec.Listing.Dev) (ps : List (List Call × List UInt8 × J)) : List Call :=
  [.elmStart 2 c] ++ ((([Call.fldStr 3 (txt "DEVID") d.devid false], txt "DEVID", J.str d.devid) :: ps).map (·.1)).flatten ++ [.elmEnd 2]

theorem devCalls_good (c : Bool) {d : Spec.Listing.Dev} (hd : GoodId d.devid) {ps : List (List Call × List UInt8 × J)}
    (h1 : ps.map (·.2) = d.recs.flatMap (·.fields)) (h2 : ∀ x ∈ ps, Good true x.1 (some x.2.1) x.2.2) :
    Good c (devCalls c d ps) none d.json := by
  have := Good.elm 2 2 c (([Call.fldStr 3 (txt "DEVID") d.devid false], txt "DEVID", J.str d.devid) :: ps)
    (members_of (.fldStr _ _ (plain_of (by decide +kernel)) hd.2.2.2) h2)
  rw [Dev.json, ← h1]
  exact this

/-- the records of one device -/
theorem dev_loop {d : Spec.Listing.Dev} (hd : d.Good) (prev : Str) (hp : prev ≠ d.devid) (c : Bool)
    (hc : c = true ∨ ∀ r rs, d.recs = r :: rs → r.name ≠ txt "#RDY" ∧ r.name ≠ txt "#RES") :
    ∃ calls, Good c (calls ++ [.elmEnd 2]) none d.json ∧ ∀ more,
      devLoop prev c (Dev.raw d ++ more) = (devLoop d.devid true more).map
        (((if prev ≠ [] then [.elmEnd 2] else []) ++ calls) ++ ·) := by
  obtain ⟨hid, hne, hr⟩ := hd
  cases hrs : d.recs with
  | nil => exact absurd hrs hne
  | cons r rs =>
    rw [hrs] at hr
    obtain ⟨ps, h1, h2, h3⟩ := recs_loop hid rs fun x hx => hr x (List.mem_cons_of_mem _ hx)
    obtain ⟨hk, hf⟩ := hr r (List.mem_cons_self ..)
    obtain ⟨qs, g1, g2, g3⟩ := devField_parts hf
    have hfc : devField r.name r.val c = some (qs.map (·.1)).flatten := by
      rcases hc with rfl | hc
      · exact g1
      · obtain ⟨c1, c2⟩ := hc r rs hrs
        rw [← g1, devField, devField, if_neg c1, if_neg c1, if_neg c2, if_neg c2]
    refine ⟨[.elmStart 2 c, .fldStr 3 (txt "DEVID") d.devid false] ++ (qs.map (·.1)).flatten ++ (ps.map (·.1)).flatten, ?_, ?_⟩
    · have := devCalls_good c hid (ps := qs ++ ps) (by rw [hrs]; simp [g2, h1]) (by
        intro x hx
        rcases List.mem_append.mp hx with hx | hx
        · exact g3 x hx
        · exact h2 x hx)
      simpa [devCalls] using this
    · intro more
      rw [Dev.raw, hrs, List.map_cons, List.cons_append, devLoop, usable_eq hk hid]
      simp only [hfc, Option.bind_some, h3, if_pos hp]
      cases devLoop d.devid true more <;> simp

/-- the records of devices after the first -/
theorem devs_loop : ∀ (ds : List Spec.Listing.Dev) (prev : Str), prev ≠ [] → (∀ d ∈ ds, d.Good) → (prev :: ds.map (·.devid)).Pairwise (· ≠ ·) →
    ∃ ps : List (List Call × J), devLoop prev true (ds.flatMap Dev.raw) = some ([.elmEnd 2] ++ (ps.map (·.1)).flatten) ∧
      ps.map (·.2) = ds.map Dev.json ∧ ∀ x ∈ ps, Good true x.1 none x.2 := by
  intro ds
  induction ds with
  | nil =>
    intro prev hp _ _
    exact ⟨[], by simp [devLoop, hp], rfl, by simp⟩
  | cons d ds ih =>
    intro prev hp hg hd
    rw [List.map_cons, List.pairwise_cons] at hd
    obtain ⟨ps, h1, h2, h3⟩ := ih d.devid (hg d (List.mem_cons_self ..)).1.1 (fun x hx => hg x (List.mem_cons_of_mem _ hx)) hd.2
    obtain ⟨calls, g1, g2⟩ := dev_loop (hg d (List.mem_cons_self ..)) prev (hd.1 _ (List.mem_cons_self ..)) true (.inl rfl)
    refine ⟨(calls ++ [.elmEnd 2], d.json) :: ps, ?_, by simp [h2], ?_⟩
    · rw [List.flatMap_cons, g2, h1, if_pos hp]
      simp
    · intro x hx
      rcases List.mem_cons.mp hx with rfl | hx
      · exact g1
      · exact h3 x hx

end Sid.Listing
