import Verif.Spec.UbrEvent
import Verif.Proof.Ifc
import Verif.Proof.UtilStr
/-
The variables of a scan request and the attributes kept of them.
-/
namespace Sid.Event
open Sid.Spec.Event Sid.Spec.Client
open Sid.Ifc (txt)

theorem ascii_txt (s : String) : ascii s = txt s := rfl

theorem small_lower : small = UStr.lower := by
  funext c
  simp only [small, UStr.lower, Bool.and_eq_true, decide_eq_true_eq, UInt8.le_iff_toNat_le]
  have e1 : (65 : UInt8).toNat = 65 := rfl
  have e2 : (90 : UInt8).toNat = 90 := rfl
  rw [e1, e2]
  by_cases h : 65 ≤ c.toNat ∧ c.toNat ≤ 90
  · rw [if_pos h, if_pos h]
    apply UInt8.toNat_inj.mp
    rw [UInt8.toNat_add]
    simp
  · rw [if_neg h, if_neg h]

theorem sameCase_iff {a b : Str} : sameCase a b = true ↔ SameWord a b := by
  simp [sameCase, SameWord, small_lower]

/-! ### last values -/

theorem lastValue_append (vars : List (Str × Str)) (k v n : Str) :
    lastValue (vars ++ [(k, v)]) n = if k = n then some v else lastValue vars n := by
  simp only [lastValue, List.filter_append]
  by_cases h : k = n
  · simp [h]
  · simp [h]

theorem lastValue_nil (n : Str) : lastValue [] n = none := rfl

/-! ### conversions -/

theorem word_inj {a a' : Action} {w w' : String} (h : actionWord a = some w) (h' : actionWord a' = some w')
    (e : SameWord (ascii w) (ascii w')) : a = a' := by
  revert e
  cases a <;> cases h <;> cases a' <;> cases h' <;> first | exact fun _ => rfl | exact fun e => absurd e (by unfold SameWord; decide)

theorem typeWord_inj {a a' : DevType} {w w' : String} (h : typeWord a = some w) (h' : typeWord a' = some w')
    (e : SameWord (ascii w) (ascii w')) : a = a' := by
  revert e
  cases a <;> cases h <;> cases a' <;> cases h' <;> first | exact fun _ => rfl | exact fun e => absurd e (by unfold SameWord; decide)

theorem strToAction_says (v : Str) (h : strToAction v ≠ .unknown) : Says (some v) (actionWord (strToAction v)) := by
  have key : ∀ a w, actionWord a = some w → sameCase v (actionStr a) = true → actionStr a = ascii w →
      Says (some v) (actionWord a) := fun a w h1 h2 h3 => ⟨v, w, rfl, h1, by rw [← h3]; exact sameCase_iff.mp h2⟩
  revert h
  unfold strToAction
  split
  · rename_i h; exact fun _ => key _ _ rfl h rfl
  split
  · rename_i h; exact fun _ => key _ _ rfl h rfl
  split
  · rename_i h; exact fun _ => key _ _ rfl h rfl
  split
  · rename_i h; exact fun _ => key _ _ rfl h rfl
  split
  · rename_i h; exact fun _ => key _ _ rfl h rfl
  split
  · rename_i h; exact fun _ => key _ _ rfl h rfl
  split
  · rename_i h; exact fun _ => key _ _ rfl h rfl
  split
  · rename_i h; exact fun _ => key _ _ rfl h rfl
  · exact fun h => absurd rfl h

theorem strToAction_unknown (v : Str) (h : strToAction v = .unknown) (a : Action) : ¬ Says (some v) (actionWord a) := by
  rintro ⟨x, w, hx, hw, hs⟩
  cases hx
  have hs' : ∀ a, actionStr a = ascii w → sameCase v (actionStr a) = true := fun a e => sameCase_iff.mpr (by rw [e]; exact hs)
  unfold strToAction at h
  split at h
  · cases h
  rename_i n1
  split at h
  · cases h
  rename_i n2
  split at h
  · cases h
  rename_i n3
  split at h
  · cases h
  rename_i n4
  split at h
  · cases h
  rename_i n5
  split at h
  · cases h
  rename_i n6
  split at h
  · cases h
  rename_i n7
  split at h
  · cases h
  rename_i n8
  cases a <;> cases hw
  · exact n1 (hs' .add rfl)
  · exact n2 (hs' .change rfl)
  · exact n3 (hs' .remove rfl)
  · exact n4 (hs' .move rfl)
  · exact n5 (hs' .online rfl)
  · exact n6 (hs' .offline rfl)
  · exact n7 (hs' .bind rfl)
  · exact n8 (hs' .unbind rfl)

theorem strToDevType_says (v : Str) (h : strToDevType v ≠ .unknown) : Says (some v) (typeWord (strToDevType v)) := by
  have key : ∀ a w, typeWord a = some w → sameCase v (devTypeStr a) = true → devTypeStr a = ascii w →
      Says (some v) (typeWord a) := fun a w h1 h2 h3 => ⟨v, w, rfl, h1, by rw [← h3]; exact sameCase_iff.mp h2⟩
  revert h
  unfold strToDevType
  split
  · rename_i h; exact fun _ => key _ _ rfl h rfl
  split
  · rename_i h; exact fun _ => key _ _ rfl h rfl
  · exact fun h => absurd rfl h

theorem strToDevType_unknown (v : Str) (h : strToDevType v = .unknown) (a : DevType) : ¬ Says (some v) (typeWord a) := by
  rintro ⟨x, w, hx, hw, hs⟩
  cases hx
  have hs' : ∀ a, devTypeStr a = ascii w → sameCase v (devTypeStr a) = true := fun a e => sameCase_iff.mpr (by rw [e]; exact hs)
  unfold strToDevType at h
  cases a <;> cases hw
  · rw [if_pos (hs' .disk rfl)] at h; cases h
  · simp only [hs' .partition rfl, if_true] at h
    split at h <;> cases h

theorem action_says {v : Str} (a : Action) : strToAction v = a ↔ Says (some v) (actionWord a) ∨
    (a = .unknown ∧ ∀ a', ¬ Says (some v) (actionWord a')) := by
  constructor
  · rintro rfl
    by_cases h : strToAction v = .unknown
    · exact .inr ⟨h, strToAction_unknown v h⟩
    · exact .inl (strToAction_says v h)
  · rintro (h | ⟨rfl, h⟩)
    · by_cases hu : strToAction v = .unknown
      · exact absurd h (strToAction_unknown v hu a)
      · obtain ⟨x, w, h1, h2, h3⟩ := strToAction_says v hu
        obtain ⟨x', w', h1', h2', h3'⟩ := h
        cases h1; cases h1'
        exact word_inj h2 h2' (h3.symm.trans h3')
    · by_cases hu : strToAction v = .unknown
      · exact hu
      · exact absurd (strToAction_says v hu) (h _)

theorem type_says {v : Str} (a : DevType) : strToDevType v = a ↔ Says (some v) (typeWord a) ∨
    (a = .unknown ∧ ∀ a', ¬ Says (some v) (typeWord a')) := by
  constructor
  · rintro rfl
    by_cases h : strToDevType v = .unknown
    · exact .inr ⟨h, strToDevType_unknown v h⟩
    · exact .inl (strToDevType_says v h)
  · rintro (h | ⟨rfl, h⟩)
    · by_cases hu : strToDevType v = .unknown
      · exact absurd h (strToDevType_unknown v hu a)
      · obtain ⟨x, w, h1, h2, h3⟩ := strToDevType_says v hu
        obtain ⟨x', w', h1', h2', h3'⟩ := h
        cases h1; cases h1'
        exact typeWord_inj h2 h2' (h3.symm.trans h3')
    · by_cases hu : strToDevType v = .unknown
      · exact hu
      · exact absurd (strToDevType_says v hu) (h _)

theorem numbered_value (v : Str) : Numbered (some v) (Util.strtoull v).1 := by
  refine ⟨nofun, fun k hk h => ?_⟩
  cases h
  rw [Util.strtoull_decimal k hk]

/-! ### paths -/

theorem prefix_slash {h : Str} {p : Nat} : [47] <+: h.drop p ↔ h[p]? = some 47 := by
  constructor
  · rintro ⟨t, ht⟩
    have := congrArg (·[0]?) ht
    simpa using this.symm
  · intro e
    obtain ⟨hp, e⟩ := List.getElem?_eq_some_iff.mp e
    exact ⟨h.drop (p + 1), by rw [List.drop_eq_getElem_cons hp, e]; rfl⟩

theorem rstr_slash (v : Str) :
    (HasDir v → ∃ p dir base, UStr.rstr v [47] = some p ∧ v = dir ++ [47] ++ base ∧ 47 ∉ base ∧ v.drop (p + 1) = base) ∧
    (¬ HasDir v → UStr.rstr v [47] = none) := by
  have hlen : UStr.rstr v [47] = if 1 > v.length then none else UStr.rstrFrom v [47] (v.length - 1) := rfl
  constructor
  · intro hd
    obtain ⟨q, hq⟩ := List.mem_iff_getElem?.mp hd
    have hq' : v[1 + q]? = some 47 := by rw [← hq, List.getElem?_drop]
    have hql := (List.getElem?_eq_some_iff.mp hq').1
    rw [hlen, if_neg (by omega)]
    cases e : UStr.rstrFrom v [47] (v.length - 1) with
    | none => exact absurd (prefix_slash.mpr hq') (UStr.rstrFrom_none e (1 + q) (by omega) (by omega))
    | some p =>
      obtain ⟨h1, h2, h3, h4⟩ := UStr.rstrFrom_some e
      have hp := prefix_slash.mp h3
      obtain ⟨hpl, hpe⟩ := List.getElem?_eq_some_iff.mp hp
      refine ⟨p, v.take p, v.drop (p + 1), rfl, ?_, ?_, rfl⟩
      · rw [List.append_assoc]
        conv => lhs; rw [← List.take_append_drop p v, List.drop_eq_getElem_cons hpl, hpe]
        rfl
      · intro hm
        obtain ⟨r, hr⟩ := List.mem_iff_getElem?.mp hm
        rw [List.getElem?_drop] at hr
        have hrl := (List.getElem?_eq_some_iff.mp hr).1
        exact h4 (p + 1 + r) (by omega) (by omega) (prefix_slash.mpr hr)
  · intro hd
    rw [hlen]
    split
    · rfl
    · cases e : UStr.rstrFrom v [47] (v.length - 1) with
      | none => rfl
      | some p =>
        obtain ⟨h1, h2, h3, h4⟩ := UStr.rstrFrom_some e
        refine absurd (List.mem_iff_getElem?.mpr ⟨p - 1, ?_⟩) hd
        rw [List.getElem?_drop, show 1 + (p - 1) = p by omega]
        exact prefix_slash.mp h3

/-! ### all variables -/

theorem describes_init : Describes [] {} := by
  refine ⟨?_, ?_, rfl, fun _ => rfl, nofun, ⟨fun _ => rfl, nofun⟩,
    ⟨fun _ => rfl, nofun⟩, ⟨fun _ => rfl, nofun⟩, rfl⟩
  · intro a
    constructor
    · intro h; exact .inr ⟨h.symm, fun a' h => by obtain ⟨x, w, h, -⟩ := h; cases h⟩
    · rintro (⟨x, w, h, -⟩ | ⟨h, -⟩)
      · cases h
      · exact h.symm
  · intro a
    constructor
    · intro h; exact .inr ⟨h.symm, fun a' h => by obtain ⟨x, w, h, -⟩ := h; cases h⟩
    · rintro (⟨x, w, h, -⟩ | ⟨h, -⟩)
      · cases h
      · exact h.symm

/-- one more variable, given what it does to each of the seven values -/
theorem setField_describes {vars : List (Str × Str)} {ev : Ev} (h : Describes vars ev) (k v : Str)
    (hd : k = txt "DEVPATH" → HasDir v) : ∃ ev', setField ev (k, v) = some ev' ∧ Describes (vars ++ [(k, v)]) ev' := by
  simp only [setField]
  have keep : ∀ n, k ≠ n → lastValue (vars ++ [(k, v)]) n = lastValue vars n := fun n hn => by
    rw [lastValue_append, if_neg hn]
  have take : ∀ n, k = n → lastValue (vars ++ [(k, v)]) n = some v := fun n hn => by
    rw [lastValue_append, if_pos hn]
  have ne : ∀ {a b : String}, k = txt a → (txt a ≠ txt b) → k ≠ ascii b := fun h1 h2 h3 => h2 (by rw [← h1, h3]; rfl)
  by_cases h1 : k = txt "ACTION"
  · rw [if_pos h1]
    refine ⟨_, rfl, ?_, ?_, ?_, h.noName, h.name, ?_, ?_, ?_, ?_⟩
    · rw [take (ascii "ACTION") h1]; exact action_says
    all_goals rw [keep _ (ne h1 (by decide))]
    · exact h.type
    · exact h.path
    · exact h.seqnum
    · exact h.diskseq
    · exact h.partn
    · exact h.synthUuid
  rw [if_neg h1]
  by_cases h2 : k = txt "DEVPATH"
  · rw [if_pos h2]
    obtain ⟨p, dir, base, e1, e2, e3, e4⟩ := (rstr_slash v).1 (hd h2)
    refine ⟨{ ev with path := some v, name := some base }, by simp only [setPath, e1, Option.map_some, e4], ?_, ?_, ?_, ?_, ?_, ?_, ?_, ?_, ?_⟩
    · rw [keep (ascii "ACTION") h1]; exact h.action
    · rw [keep _ (ne h2 (by decide))]; exact h.type
    · rw [take (ascii "DEVPATH") h2]
    · intro x; cases x
    · intro p' hp'; cases hp'; exact ⟨dir, base, e2, e3, rfl⟩
    all_goals rw [keep _ (ne h2 (by decide))]
    · exact h.seqnum
    · exact h.diskseq
    · exact h.partn
    · exact h.synthUuid
  rw [if_neg h2]
  by_cases h3 : k = txt "DEVTYPE"
  · rw [if_pos h3]
    refine ⟨_, rfl, ?_, ?_, ?_, h.noName, h.name, ?_, ?_, ?_, ?_⟩
    · rw [keep (ascii "ACTION") h1]; exact h.action
    · rw [take (ascii "DEVTYPE") h3]; exact type_says
    all_goals rw [keep _ (ne h3 (by decide))]
    · exact h.path
    · exact h.seqnum
    · exact h.diskseq
    · exact h.partn
    · exact h.synthUuid
  rw [if_neg h3]
  by_cases h4 : k = txt "SEQNUM"
  · rw [if_pos h4]
    refine ⟨_, rfl, ?_, ?_, ?_, h.noName, h.name, ?_, ?_, ?_, ?_⟩
    · rw [keep (ascii "ACTION") h1]; exact h.action
    · rw [keep (ascii "DEVTYPE") h3]; exact h.type
    · rw [keep (ascii "DEVPATH") h2]; exact h.path
    · rw [take (ascii "SEQNUM") h4]; exact numbered_value v
    all_goals rw [keep _ (ne h4 (by decide))]
    · exact h.diskseq
    · exact h.partn
    · exact h.synthUuid
  rw [if_neg h4]
  by_cases h5 : k = txt "DISKSEQ"
  · rw [if_pos h5]
    refine ⟨_, rfl, ?_, ?_, ?_, h.noName, h.name, ?_, ?_, ?_, ?_⟩
    · rw [keep (ascii "ACTION") h1]; exact h.action
    · rw [keep (ascii "DEVTYPE") h3]; exact h.type
    · rw [keep (ascii "DEVPATH") h2]; exact h.path
    · rw [keep (ascii "SEQNUM") h4]; exact h.seqnum
    · rw [take (ascii "DISKSEQ") h5]; exact numbered_value v
    all_goals rw [keep _ (ne h5 (by decide))]
    · exact h.partn
    · exact h.synthUuid
  rw [if_neg h5]
  by_cases h6 : k = txt "SYNTH_UUID"
  · rw [if_pos h6]
    refine ⟨_, rfl, ?_, ?_, ?_, h.noName, h.name, ?_, ?_, ?_, ?_⟩
    · rw [keep (ascii "ACTION") h1]; exact h.action
    · rw [keep (ascii "DEVTYPE") h3]; exact h.type
    · rw [keep (ascii "DEVPATH") h2]; exact h.path
    · rw [keep (ascii "SEQNUM") h4]; exact h.seqnum
    · rw [keep (ascii "DISKSEQ") h5]; exact h.diskseq
    · rw [keep _ (ne h6 (by decide))]; exact h.partn
    · rw [take (ascii "SYNTH_UUID") h6]
  rw [if_neg h6]
  by_cases h7 : k = txt "PARTN"
  · rw [if_pos h7]
    refine ⟨_, rfl, ?_, ?_, ?_, h.noName, h.name, ?_, ?_, ?_, ?_⟩
    · rw [keep (ascii "ACTION") h1]; exact h.action
    · rw [keep (ascii "DEVTYPE") h3]; exact h.type
    · rw [keep (ascii "DEVPATH") h2]; exact h.path
    · rw [keep (ascii "SEQNUM") h4]; exact h.seqnum
    · rw [keep (ascii "DISKSEQ") h5]; exact h.diskseq
    · rw [take (ascii "PARTN") h7]; exact numbered_value v
    · rw [keep (ascii "SYNTH_UUID") h6]; exact h.synthUuid
  rw [if_neg h7]
  refine ⟨ev, rfl, ?_, ?_, ?_, h.noName, h.name, ?_, ?_, ?_, ?_⟩
  · rw [keep (ascii "ACTION") h1]; exact h.action
  · rw [keep (ascii "DEVTYPE") h3]; exact h.type
  · rw [keep (ascii "DEVPATH") h2]; exact h.path
  · rw [keep (ascii "SEQNUM") h4]; exact h.seqnum
  · rw [keep (ascii "DISKSEQ") h5]; exact h.diskseq
  · rw [keep (ascii "PARTN") h7]; exact h.partn
  · rw [keep (ascii "SYNTH_UUID") h6]; exact h.synthUuid

theorem setFields_describes : ∀ (l : List (Str × Str)) {vars : List (Str × Str)} {ev : Ev}, Describes vars ev →
    (∀ v, (txt "DEVPATH", v) ∈ l → HasDir v) → ∃ ev', setFields ev l = some ev' ∧ Describes (vars ++ l) ev'
  | [], vars, ev, h, _ => ⟨ev, rfl, by simpa using h⟩
  | (k, v) :: l, vars, ev, h, hd => by
    obtain ⟨ev1, h1, h2⟩ := setField_describes h k v (fun e => hd v (by simp [e]))
    obtain ⟨ev2, h3, h4⟩ := setFields_describes l h2 (fun w hw => hd w (by simp [hw]))
    refine ⟨ev2, by simp only [setFields, h1, Option.bind_some, h3], by simpa using h4⟩

theorem setField_some {ev : Ev} {k v : Str} (h : k = txt "DEVPATH" → HasDir v) : ∃ ev', setField ev (k, v) = some ev' := by
  simp only [setField]
  repeat' split
  any_goals exact ⟨_, rfl⟩
  rename_i h2
  obtain ⟨p, dir, base, e1, -⟩ := (rstr_slash v).1 (h h2)
  exact ⟨_, by simp only [setPath, e1, Option.map_some]; rfl⟩

theorem setFields_none {v : Str} (hv : ¬ HasDir v) : ∀ (l : List (Str × Str)) (ev : Ev), (txt "DEVPATH", v) ∈ l →
    setFields ev l = none
  | [], ev, h => by simp at h
  | (k, w) :: l, ev, h => by
    simp only [setFields]
    cases e : setField ev (k, w) with
    | none => rfl
    | some ev' =>
      rw [Option.bind_some]
      rcases List.mem_cons.mp h with h | h
      · simp only [Prod.mk.injEq] at h
        obtain ⟨rfl, rfl⟩ := h
        exfalso
        simp only [setField] at e
        rw [if_neg (by decide)] at e
        simp only [if_true, setPath, (rstr_slash v).2 hv] at e
        cases e
      · exact setFields_none hv l ev' h

/-! ### the text for the disk sequence -/

theorem dec_decimal (n : Nat) : Fmt.dec n = decimal n := by
  induction n using Nat.strongRecOn with
  | ind n ih =>
    rw [Fmt.dec, decimal]
    split
    · rfl
    · rename_i h; rw [ih (n / 10) (by omega)]

theorem decimal_inj {a b : Nat} (h : decimal a = decimal b) : a = b := by
  rw [← (Util.decimal_spec a).2.2, ← (Util.decimal_spec b).2.2, h]

theorem decimal_no_minus (n : Nat) : (45 : UInt8) ∉ decimal n := by
  intro h
  have := (Util.decimal_spec n).2.1 45 h
  exact absurd this (by decide)

end Sid.Event
