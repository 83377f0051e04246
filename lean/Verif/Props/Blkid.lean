import Verif.Spec.Blkid
import Verif.Props.Mpath
/-
C87: what udev is told about the contents of a device.  C88: the module for the next layer.
-/
namespace Sid.Props
open Sid.Ubr Sid.Blkid Sid.Spec.Blkid Sid.Spec.UbrKey
open Sid.Spec.Mpath (PlainCtx)
open Sid.Spec.Sync (Entries)
open Sid.Spec.Reply (Serve lastOf Holds varKey Text text_bytes)
open Sid.Spec.FmtEnv (assignments)
open Sid.Mpath (flRd)
open Sid.Ifc (txt)

/-! ### sets as steps of serving a command -/

/-- what a set adds to the log -/
def logOf (a : SetArgs) : List (Str × Option Str) :=
  if a.ns = .udev then [(a.key, a.value.map (·.takeWhile (· ≠ 0)))] else []

/-- a set of a text -/
def TextSet (a : SetArgs) : Prop := argsOk a.ns a.key = true ∧ ∃ t rest, 0 ∉ t ∧ a.value = some (t ++ 0 :: rest)

theorem kvSet_text {db db' : Db} {c : Ctx} {m : Str} {a : SetArgs} {rc : Int} (h : kvSet db c m a = some (rc, db'))
    (hok : argsOk a.ns a.key = true) {b : List UInt8} (hv : a.value = some b) :
    db' = writeRec db ((composeKey (setSpec c m (domOf a.ns) a.ns a.key)).drop 1) (setRec c m a) := by
  rcases kvSet_cases h with ⟨-, h3 | h3⟩ | ⟨-, h3⟩
  · rw [hv] at h3; cases h3
  · rw [hok] at h3; cases h3
  · exact h3

theorem serve_sets {c : Ctx} {m : Str} {db0 : Db} : ∀ {as : List SetArgs} {db db' : Db} {log : List (Str × Option Str)},
    (∀ a ∈ as, TextSet a) → Serve c db0 db log → setAll c m db as = some db' → Serve c db0 db' (log ++ as.flatMap logOf) := by
  intro as
  induction as with
  | nil => intro db db' log _ hs h; cases h; simpa using hs
  | cons a as ih =>
    intro db db' log ht hs h
    rw [setAll] at h
    obtain ⟨⟨rc, db1⟩, h1, h2⟩ := Option.bind_eq_some_iff.mp h
    obtain ⟨hok, t, rest, h0, hv⟩ := ht a (by simp)
    have ht' : ∀ a ∈ as, TextSet a := fun b hb => ht b (by simp [hb])
    rw [List.flatMap_cons, ← List.append_assoc]
    refine ih ht' ?_ h2
    dsimp only
    obtain ⟨ns, key, value, flags⟩ := a
    dsimp only at hok hv
    subst hv
    by_cases hn : ns = .udev
    · subst hn
      have e := kvSet_text h1 hok rfl
      dsimp only at e
      have hk : (composeKey (setSpec c m (domOf .udev) .udev key)).drop 1 = varKey (orNull c.num) key := set_varKey c m key
      rw [hk] at e
      have hw : (t ++ 0 :: rest).takeWhile (· ≠ 0) = t := takeWhile_text h0
      simp only [logOf, if_true, Option.map_some, hw]
      refine .given hs (fun t ht => by cases ht; exact h0) ⟨rest, rfl⟩ h1 
        ((holds_iff hok).mpr ⟨setRec c m ⟨.udev, key, some (t ++ 0 :: rest), flags⟩, some (t ++ 0 :: rest), ?_, rfl, rest, rfl⟩)
      rw [e]
      exact writeRec_key _ _ _ (varKey_head _ _)
    · simp only [logOf, hn, if_false, List.append_nil]
      exact .call (x := .set c ⟨ns, key, _, flags⟩) hs (fun c' a e => by cases e; exact hn) h1

/-! ### the sets of a value -/

theorem textSet_udev {key v : Str} (hk : argsOk .udev key = true) (hv : 0 ∉ v) : TextSet (udevSet key v) :=
  ⟨hk, v, [], hv, rfl⟩

theorem log_udev {key v : Str} (hv : 0 ∉ v) : logOf (udevSet key v) = [(key, some v)] := by
  have : (v ++ [0]).takeWhile (· ≠ 0) = v := takeWhile_text (rest := []) hv
  simp only [logOf, udevSet, if_true, Option.map_some, this]

theorem take_text {n : Nat} {t left : List UInt8} (h : t.length < n) :
    (t ++ 0 :: left).take n = t ++ 0 :: left.take (n - t.length - 1) := by
  rw [List.take_append, List.take_of_length_le (by omega)]
  congr 1
  obtain ⟨k, hk⟩ : ∃ k, n - t.length = k + 1 := ⟨n - t.length - 1, by omega⟩
  rw [hk, List.take_succ_cons]
  congr 2

theorem uuidEnc_value {lib : Lib} {f : Found} (h : (lib.enc f.value).length < 224) :
    (uuidEncSet lib f).value = some (lib.enc f.value ++ 0 :: f.left.take (224 - (lib.enc f.value).length - 1)) := by
  have : flRd.toNat = 224 := rfl
  simp only [uuidEncSet, this, take_text h]

/-- what the module says, with identifiers as they are -/
def saysForm (n : Str) (x : Form) : Form := if n = txt "ID_FS_UUID" ∨ n = txt "ID_FS_UUID_SUB" then .plain else x

/-- what is told of a value -/
def says (lib : Lib) (f : Found) : List (Str × Option Str) :=
  (variables f.name).map fun x => (x.1, some (form lib (saysForm x.1 x.2) f.value))

theorem find_named {n : Str} {x : Str × List (Str × Form)} (h : named.find? (fun e => e.1 == n) = some x) : x ∈ named ∧ x.1 = n :=
  ⟨List.mem_of_find?_eq_some h, by simpa using List.find?_some h⟩

theorem prefix_take {n : Str} (h : n.length ≤ 252) : (txt "ID_" ++ n).take 255 = txt "ID_" ++ n :=
  List.take_of_length_le (by
    have : (txt "ID_").length = 3 := rfl
    rw [List.length_append, this]; omega)

theorem sets_ok {lib : Lib} (hl : Texts lib) {f : Found} (hf : Fits lib f) :
    (∀ a ∈ sets lib f, TextSet a) ∧ (sets lib f).flatMap logOf = says lib f := by
  obtain ⟨name, value, left⟩ := f
  obtain ⟨h0, hn, hu⟩ := hf
  dsimp only at h0 hn hu
  obtain ⟨h1, h2⟩ := hl value h0
  have one : ∀ (key v : Str), argsOk .udev key = true → 0 ∉ v →
      (∀ a ∈ [udevSet key v], TextSet a) ∧ [udevSet key v].flatMap logOf = [(key, some v)] := by
    intro key v hk hv
    refine ⟨fun a ha => ?_, by simp [log_udev hv]⟩
    rw [List.mem_singleton] at ha
    rw [ha]
    exact textSet_udev hk hv
  have two : ∀ (key v key' v' : Str), argsOk .udev key = true → 0 ∉ v → argsOk .udev key' = true → 0 ∉ v' →
      (∀ a ∈ [udevSet key v, udevSet key' v'], TextSet a) ∧
        [udevSet key v, udevSet key' v'].flatMap logOf = [(key, some v), (key', some v')] := by
    intro key v key' v' hk hv hk' hv'
    refine ⟨fun a ha => ?_, by simp [log_udev hv, log_udev hv']⟩
    simp only [List.mem_cons, List.not_mem_nil, or_false] at ha
    rcases ha with rfl | rfl
    · exact textSet_udev hk hv
    · exact textSet_udev hk' hv'
  by_cases c1 : name = txt "TYPE"
  · subst c1
    have e : sets lib ⟨txt "TYPE", value, left⟩ = typeSets value := rfl
    have e2 : says lib ⟨txt "TYPE", value, left⟩ = [(txt "ID_FS_TYPE", some value)] := rfl
    rw [e, e2]
    unfold typeSets
    cases hm : typeMod value with
    | none => exact one _ _ (by decide) h0
    | some m =>
      have hm0 : 0 ∉ m := by
        unfold typeMod at hm
        obtain ⟨x, hx, rfl⟩ := Option.map_eq_some_iff.mp hm
        have : ∀ x ∈ table, 0 ∉ x.2 := by decide +kernel
        exact this x (List.mem_of_find?_eq_some hx)
      refine ⟨fun a ha => ?_, ?_⟩
      · simp only [List.mem_cons, List.not_mem_nil, or_false] at ha
        rcases ha with rfl | rfl
        · exact textSet_udev (by decide) h0
        · exact ⟨rfl, m, [], hm0, rfl⟩
      · rw [List.flatMap_cons, log_udev h0]
        rfl
  by_cases c2 : name = txt "USAGE"
  · subst c2; exact one (txt "ID_FS_USAGE") value (by decide) h0
  by_cases c3 : name = txt "VERSION"
  · subst c3; exact one (txt "ID_FS_VERSION") value (by decide) h0
  by_cases c4 : name = txt "UUID"
  · subst c4
    have hv := uuidEnc_value (f := ⟨txt "UUID", value, left⟩) (hu rfl)
    dsimp only at hv
    have e : sets lib ⟨txt "UUID", value, left⟩ =
      [udevSet (txt "ID_FS_UUID") value, uuidEncSet lib ⟨txt "UUID", value, left⟩] := rfl
    have e2 : says lib ⟨txt "UUID", value, left⟩ =
      [(txt "ID_FS_UUID", some value), (txt "ID_FS_UUID_ENC", some (lib.enc value))] := rfl
    rw [e, e2]
    refine ⟨fun a ha => ?_, ?_⟩
    · simp only [List.mem_cons, List.not_mem_nil, or_false] at ha
      rcases ha with rfl | rfl
      · exact textSet_udev (by decide) h0
      · exact ⟨rfl, _, _, h2, hv⟩
    · have : logOf (uuidEncSet lib ⟨txt "UUID", value, left⟩) = [(txt "ID_FS_UUID_ENC", some (lib.enc value))] := by
        unfold logOf
        rw [if_pos (by rfl), hv, Option.map_some, takeWhile_text h2]
        rfl
      simp [log_udev h0, this]
  by_cases c5 : name = txt "UUID_SUB"
  · subst c5; exact two (txt "ID_FS_UUID_SUB") value (txt "ID_FS_UUID_SUB_ENC") _ (by decide) h0 (by decide) h2
  by_cases c6 : name = txt "LABEL"
  · subst c6; exact two (txt "ID_FS_LABEL") _ (txt "ID_FS_LABEL_ENC") _ (by decide) h1 (by decide) h2
  by_cases c7 : name = txt "PTTYPE"
  · subst c7; exact one (txt "ID_PART_TABLE_TYPE") value (by decide) h0
  by_cases c8 : name = txt "PTUUID"
  · subst c8; exact one (txt "ID_PART_TABLE_UUID") value (by decide) h0
  by_cases c9 : name = txt "PART_ENTRY_NAME"
  · subst c9; exact one (txt "ID_PART_ENTRY_NAME") _ (by decide) h2
  by_cases c10 : name = txt "PART_ENTRY_TYPE"
  · subst c10; exact one (txt "ID_PART_ENTRY_TYPE") _ (by decide) h2
  by_cases d1 : name = txt "SYSTEM_ID"
  · subst d1; exact one (txt "ID_FS_SYSTEM_ID") _ (by decide) h2
  by_cases d2 : name = txt "PUBLISHER_ID"
  · subst d2; exact one (txt "ID_FS_PUBLISHER_ID") _ (by decide) h2
  by_cases d3 : name = txt "APPLICATION_ID"
  · subst d3; exact one (txt "ID_FS_APPLICATION_ID") _ (by decide) h2
  by_cases d4 : name = txt "BOOT_SYSTEM_ID"
  · subst d4; exact one (txt "ID_FS_BOOT_SYSTEM_ID") _ (by decide) h2
  have hfind : named.find? (fun e => e.1 == name) = none := by
    cases hx : named.find? (fun e => e.1 == name) with
    | none => rfl
    | some x =>
      obtain ⟨m1, m2⟩ := find_named hx
      exfalso
      simp only [named, List.mem_cons, List.not_mem_nil, or_false] at m1
      rcases m1 with m1 | m1 | m1 | m1 | m1 | m1 | m1 | m1 | m1 | m1 | m1 | m1 | m1 | m1 <;> subst m1 <;> dsimp only at m2 <;>
        simp_all
  by_cases c11 : txt "PART_ENTRY_" <+: name
  · have e : sets lib ⟨name, value, left⟩ = [udevSet ((txt "ID_" ++ name).take 255) value] := by
      unfold sets
      dsimp only
      rw [if_neg c1, if_neg c2, if_neg c3, if_neg c4, if_neg c5, if_neg c6, if_neg c7, if_neg c8, if_neg c9, if_neg c10,
        if_pos (List.isPrefixOf_iff_prefix.mpr c11)]
    have hs : saysForm (txt "ID_" ++ name) .plain = .plain := by unfold saysForm; split <;> rfl
    have e2 : says lib ⟨name, value, left⟩ = [(txt "ID_" ++ name, some value)] := by
      unfold says variables
      dsimp only
      rw [hfind]
      simp only [c11, if_true, List.map_cons, List.map_nil, hs, form]
    rw [e, e2, prefix_take hn]
    exact one _ _ (by rfl) h0
  · have e : sets lib ⟨name, value, left⟩ = [] := by
      unfold sets
      dsimp only
      rw [if_neg c1, if_neg c2, if_neg c3, if_neg c4, if_neg c5, if_neg c6, if_neg c7, if_neg c8, if_neg c9, if_neg c10,
        if_neg (fun h => c11 (List.isPrefixOf_iff_prefix.mp h)), if_neg d1, if_neg d2, if_neg d3, if_neg d4]
    have e2 : says lib ⟨name, value, left⟩ = [] := by
      unfold says variables
      dsimp only
      rw [hfind]
      simp only [c11, if_false, List.map_nil]
    rw [e, e2]
    exact ⟨fun a ha => (by cases ha), rfl⟩

theorem serve_probe {lib : Lib} {c : Ctx} {m : Str} {db0 db db' : Db} {log : List (Str × Option Str)} {l : List Found} {rc : Int}
    (hl : Texts lib) (hf : ∀ f ∈ l, Fits lib f) (hs : Serve c db0 db log) (h : scanNext lib db c m (some l) = some (rc, db')) :
    rc = 0 ∧ Serve c db0 db' (log ++ l.flatMap (says lib)) := by
  unfold scanNext at h
  obtain ⟨d, hd, e⟩ := Option.map_eq_some_iff.mp h
  simp only [Prod.mk.injEq] at e
  obtain ⟨rfl, rfl⟩ := e
  have := serve_sets (as := l.flatMap (sets lib)) (fun a ha => by
    obtain ⟨f, hfm, ha⟩ := List.mem_flatMap.mp ha
    exact (sets_ok hl (hf f hfm)).1 a ha) hs hd
  rw [List.flatMap_assoc] at this
  have e : (l.flatMap fun f => (sets lib f).flatMap logOf) = l.flatMap (says lib) := by
    clear hs hd h this
    induction l with
    | nil => rfl
    | cons f l ih => rw [List.flatMap_cons, List.flatMap_cons, ih (fun g hg => hf g (by simp [hg])), (sets_ok hl (hf f (by simp))).2]
  rw [e] at this
  exact ⟨rfl, this⟩

theorem says_tidy {lib : Lib} {l : List Found} (ht : ∀ f ∈ l, Tidy lib f) : l.flatMap (says lib) = wanted lib l := by
  unfold wanted
  induction l with
  | nil => rfl
  | cons f l ih =>
    rw [List.flatMap_cons, List.flatMap_cons, ih (fun g hg => ht g (by simp [hg]))]
    congr 1
    have hf := ht f (by simp)
    unfold says
    refine List.map_congr_left fun x hx => ?_
    unfold saysForm
    split
    · rename_i hx'
      have hn : f.name = txt "UUID" ∨ f.name = txt "UUID_SUB" ∨ x.2 = .plain := by
        unfold variables at hx
        cases hfd : named.find? (fun e => e.1 == f.name) with
        | some e =>
          rw [hfd] at hx
          obtain ⟨m1, m2⟩ := find_named hfd
          rw [← m2]
          dsimp only at hx
          have : ∀ e ∈ named, ∀ x ∈ e.2, (x.1 = txt "ID_FS_UUID" ∨ x.1 = txt "ID_FS_UUID_SUB") →
            e.1 = txt "UUID" ∨ e.1 = txt "UUID_SUB" ∨ x.2 = .plain := by decide +kernel
          exact this e m1 x hx hx'
        | none =>
          rw [hfd] at hx
          dsimp only at hx
          split at hx
          · rw [List.mem_singleton] at hx
            rw [hx]
            exact .inr (.inr rfl)
          · cases hx
      have hn' : (f.name = txt "UUID" ∨ f.name = txt "UUID_SUB") → x.2 = .plain ∨ x.2 = .safe := by
        intro hn
        unfold variables at hx
        cases hfd : named.find? (fun e => e.1 == f.name) with
        | some e =>
          rw [hfd] at hx
          obtain ⟨m1, m2⟩ := find_named hfd
          dsimp only at hx
          have : ∀ e ∈ named, ∀ x ∈ e.2, (x.1 = txt "ID_FS_UUID" ∨ x.1 = txt "ID_FS_UUID_SUB") →
            x.2 = .plain ∨ x.2 = .safe := by decide +kernel
          exact this e m1 x hx hx'
        | none =>
          rw [hfd] at hx
          dsimp only at hx
          split at hx
          · rw [List.mem_singleton] at hx
            rw [hx]
            exact .inl rfl
          · cases hx
      have key : x.2 = .plain ∨ x.2 = .safe ∧ lib.safe f.value = f.value := by
        rcases hn with h | h | h
        · rcases hn' (.inl h) with h' | h'
          · exact .inl h'
          · exact .inr ⟨h', hf (.inl h)⟩
        · rcases hn' (.inr h) with h' | h'
          · exact .inl h'
          · exact .inr ⟨h', hf (.inr h)⟩
        · exact .inl h
      rcases key with h | ⟨h, hs⟩ <;> rw [h]
      simp only [form, hs]
    · rfl

/-- C87 (partial: identifiers with nothing to replace in them, see the counterexample; texts as long as there is room for).  After
    the contents of a device were looked at, the reply to udev has exactly what had been set before and what udev's own tool would
    say of what was found, under its names and in its forms. -/
theorem C87_told_partial {lib : Lib} {c : Ctx} {m d : Str} {db0 db db' : Db} {log : List (Str × Option Str)} {keys : List Str}
    {l : List Found} {rc : Int} (hl : Texts lib) (hf : ∀ f ∈ l, Fits lib f) (ht : ∀ f ∈ l, Tidy lib f) (hcn : c.num = some d)
    (hd : Plain d) (hd0 : d ≠ []) (hfr : Spec.Reply.Fresh db0) (hs : Serve c db0 db log)
    (h : scanNext lib db c m (some l) = some (rc, db')) (he : Entries db' keys) :
    rc = 0 ∧ ∃ o, exportLoop { db := db' } keys = some o ∧
      ∀ n v, (n, v) ∈ o.udev ↔ lastOf (log ++ wanted lib l) n = some (some v) ∧ v ≠ [] := by
  obtain ⟨h0, hsv⟩ := serve_probe hl hf hs h
  rw [says_tidy ht] at hsv
  obtain ⟨o, h1, -, h3, -⟩ := C79_reply_is_what_was_set hcn hd hd0 hfr hsv he
  exact ⟨h0, o, h1, h3⟩

theorem form_line {lib : Lib} (hl : ∀ v, 10 ∉ lib.safe v ∧ 10 ∉ lib.enc v) {x : Form} {v : Str} (h : x = .plain → 10 ∉ v) :
    10 ∉ form lib x v := by
  cases x with
  | plain => exact h rfl
  | safe => exact (hl v).1
  | encoded => exact (hl v).2

/-- C87 (partial: as before).  The lines printed for udev are these variables, provided that the library leaves no newline in texts
    it rewrites and that there is none in the texts udev gets as they are and in the names of values. -/
theorem C87_printed_partial {lib : Lib} {c : Ctx} {m d : Str} {db0 db db' : Db} {log : List (Str × Option Str)} {keys : List Str}
    {l : List Found} {rc : Int} (hl : Texts lib) (hnl : ∀ v, 10 ∉ lib.safe v ∧ 10 ∉ lib.enc v) (hf : ∀ f ∈ l, Fits lib f)
    (ht : ∀ f ∈ l, Tidy lib f) (hp : ∀ f ∈ l, ∀ x ∈ variables f.name, x.2 = .plain → 10 ∉ f.value)
    (hn : ∀ f ∈ l, 0 ∉ f.name ∧ 61 ∉ f.name ∧ 10 ∉ f.name) (hcn : c.num = some d)
    (hd : Plain d) (hd0 : d ≠ []) (hfr : Spec.Reply.Fresh db0) (hs : Serve c db0 db log)
    (hlog : ∀ x ∈ log, 0 ∉ x.1 ∧ 61 ∉ x.1 ∧ 10 ∉ x.1 ∧ ∀ v, x.2 = some v → 10 ∉ v)
    (h : scanNext lib db c m (some l) = some (rc, db')) (he : Entries db' keys) :
    ∃ o t, exportLoop { db := db' } keys = some o ∧ usidPrints (replyText o.udev) = some t ∧
      ∀ n v, (n, v) ∈ assignments t ↔
        (lastOf (log ++ wanted lib l) n = some (some v) ∧ v ≠ []) ∨ (n = txt "SID_STATUS" ∧ v = txt "active") := by
  obtain ⟨-, hsv⟩ := serve_probe hl hf hs h
  rw [says_tidy ht] at hsv
  refine C79_set_to_printed_partial hcn hd hd0 hfr hsv he ?_
  intro x hx
  rcases List.mem_append.mp hx with hx | hx
  · exact hlog x hx
  · unfold wanted at hx
    obtain ⟨f, hfm, hx⟩ := List.mem_flatMap.mp hx
    obtain ⟨y, hy, rfl⟩ := List.mem_map.mp hx
    have hname : 0 ∉ y.1 ∧ 61 ∉ y.1 ∧ 10 ∉ y.1 := by
      have hy := hy
      unfold variables at hy
      cases hfd : named.find? (fun e => e.1 == f.name) with
      | some e =>
        rw [hfd] at hy
        have : ∀ e ∈ named, ∀ x ∈ e.2, 0 ∉ x.1 ∧ 61 ∉ x.1 ∧ 10 ∉ x.1 := by decide +kernel
        exact this e (find_named hfd).1 y hy
      | none =>
        rw [hfd] at hy
        dsimp only at hy
        split at hy
        · rw [List.mem_singleton] at hy
          rw [hy]
          obtain ⟨a, b, c⟩ := hn f hfm
          have i1 : ∀ x ∈ txt "ID_", x ≠ 0 ∧ x ≠ 61 ∧ x ≠ 10 := by decide +kernel
          dsimp only
          refine ⟨?_, ?_, ?_⟩ <;> rw [List.mem_append, not_or]
          · exact ⟨fun h => (i1 _ h).1 rfl, a⟩
          · exact ⟨fun h => (i1 _ h).2.1 rfl, b⟩
          · exact ⟨fun h => (i1 _ h).2.2 rfl, c⟩
        · cases hy
    refine ⟨hname.1, hname.2.1, hname.2.2, ?_⟩
    intro v hv
    cases hv
    exact form_line hnl (hp f hfm y hy)

/-! ### identifiers -/

/-- a device nothing is known of, with an identifier on it -/
theorem uuid_scan (lib : Lib) (m : Str) (f : Found) (hn : f.name = txt "UUID") :
    scanNext lib Db.empty dev80 m (some [f]) = some (0,
      writeRec (writeRec Db.empty (varKey (txt "8_0") (txt "ID_FS_UUID")) (setRec dev80 m (udevSet (txt "ID_FS_UUID") f.value)))
        (varKey (txt "8_0") (txt "ID_FS_UUID_ENC")) (setRec dev80 m (uuidEncSet lib f))) := by
  obtain ⟨name, value, left⟩ := f
  dsimp only at hn
  subst hn
  have hset : ∀ (db : Db) (a : SetArgs), a.ns = .udev → argsOk .udev a.key = true → db.recs (varKey (txt "8_0") a.key) = none →
      db.recs (varKey [] a.key) = none →
      kvSet db dev80 m a = some (0, writeRec db (varKey (txt "8_0") a.key) (setRec dev80 m a)) := by
    intro db a h1 h2 h3 h4
    obtain ⟨ns, key, v, fl⟩ := a
    dsimp only at h1
    subst h1
    have hk : (composeKey (setSpec dev80 m (domOf .udev) .udev key)).drop 1 = varKey (txt "8_0") key := set_varKey dev80 m key
    have hr : Kvs.canon (composeKey (rsvSpec (domOf .udev) .udev key)) = varKey [] key := rsv_varKey key
    unfold kvSet doKvSet
    rw [if_pos h2]
    dsimp only
    rw [hk, h3]
    have : (if Ns.udev = Ns.udev ∧ m = core then some 0 else globalRs db m (domOf Ns.udev) Ns.udev key) = some 0 ∨
      (if Ns.udev = Ns.udev ∧ m = core then some 0 else globalRs db m (domOf Ns.udev) Ns.udev key) = some 1 := by
      split
      · exact .inl rfl
      · right
        unfold globalRs
        rw [hr, h4]
        simp
    rcases this with e | e <;> rw [e] <;> simp [wrAllowed]
  have e : [(⟨txt "UUID", value, left⟩ : Found)].flatMap (sets lib) =
      [udevSet (txt "ID_FS_UUID") value, uuidEncSet lib ⟨txt "UUID", value, left⟩] := rfl
  unfold scanNext
  dsimp only
  rw [e]
  unfold setAll
  rw [hset Db.empty (udevSet (txt "ID_FS_UUID") value) rfl (by rfl) rfl rfl]
  simp only [Option.bind_some]
  unfold setAll
  rw [hset _ (uuidEncSet lib ⟨txt "UUID", value, left⟩) rfl (by rfl) ?_ ?_]
  · rfl
  · have := writeRec_other Db.empty (varKey (txt "8_0") (txt "ID_FS_UUID")) (varKey (txt "8_0") (txt "ID_FS_UUID_ENC"))
      (setRec dev80 m (udevSet (txt "ID_FS_UUID") value)) (by decide +kernel) (varKey_head _ _)
    exact this
  · have := writeRec_other Db.empty (varKey (txt "8_0") (txt "ID_FS_UUID")) (varKey [] (txt "ID_FS_UUID_ENC"))
      (setRec dev80 m (udevSet (txt "ID_FS_UUID") value)) (by decide +kernel) (varKey_head _ _)
    exact this

theorem uuid_entries (lib : Lib) (m : Str) (f : Found) :
    Entries (writeRec (writeRec Db.empty (varKey (txt "8_0") (txt "ID_FS_UUID")) (setRec dev80 m (udevSet (txt "ID_FS_UUID") f.value)))
        (varKey (txt "8_0") (txt "ID_FS_UUID_ENC")) (setRec dev80 m (uuidEncSet lib f)))
      [varKey (txt "8_0") (txt "ID_FS_UUID"), varKey (txt "8_0") (txt "ID_FS_UUID_ENC")] := by
  have hne : varKey (txt "8_0") (txt "ID_FS_UUID") ≠ varKey (txt "8_0") (txt "ID_FS_UUID_ENC") := by decide +kernel
  have hf : ∀ a : SetArgs, a.ns = .udev → has (setRec dev80 m a).flags flSync = true := by
    intro a h
    simp only [setRec, h, if_true]
    exact sync_or _
  refine ⟨by simp [hne], fun k => ?_⟩
  simp only [List.mem_cons, List.not_mem_nil, or_false]
  constructor
  · have hi : ∀ n, Spec.Sync.Indexed (writeRec (writeRec Db.empty (varKey (txt "8_0") (txt "ID_FS_UUID"))
        (setRec dev80 m (udevSet (txt "ID_FS_UUID") f.value))) (varKey (txt "8_0") (txt "ID_FS_UUID_ENC"))
        (setRec dev80 m (uuidEncSet lib f))) (varKey (txt "8_0") n) := fun n =>
      writeRec_indexed (varKey_head _ _) (writeRec_indexed (varKey_head _ _) rfl)
    rintro (rfl | rfl)
    · rw [hi, writeRec_other _ _ _ _ hne (varKey_head _ _), writeRec_key _ _ _ (varKey_head _ _)]
      exact hf _ rfl
    · rw [hi, writeRec_key _ _ _ (varKey_head _ _)]
      exact hf _ rfl
  · intro h
    rcases writeRec_idx _ _ _ _ h with h | h
    · exact .inr h
    · rcases writeRec_idx _ _ _ _ h with h | h
      · exact .inl h
      · cases h

/-- C87 is false of identifiers with characters that have to be replaced: the module has the library replace them and then
    tells the identifier as it is. -/
theorem C87_uuid_counterexample (lib : Lib) (m v : Str) (left : List UInt8) (hl : Texts lib) (h0 : 0 ∉ v) (hv : lib.safe v ≠ v)
    (hv0 : v ≠ []) (he : (lib.enc v).length < 224) :
    ∃ db keys o, scanNext lib Db.empty dev80 m (some [⟨txt "UUID", v, left⟩]) = some (0, db) ∧ Entries db keys ∧
      exportLoop { db := db } keys = some o ∧ (txt "ID_FS_UUID", v) ∈ o.udev ∧ (txt "ID_FS_UUID", lib.safe v) ∉ o.udev := by
  have h := uuid_scan lib m ⟨txt "UUID", v, left⟩ rfl
  obtain ⟨-, hsv⟩ := serve_probe hl (l := [⟨txt "UUID", v, left⟩]) (fun f hf => by
    rw [List.mem_singleton] at hf
    rw [hf]
    exact ⟨h0, (by decide : (txt "UUID").length ≤ 252), fun _ => he⟩) (Serve.start (c := dev80) (db0 := Db.empty)) h
  have hen := uuid_entries lib m ⟨txt "UUID", v, left⟩
  obtain ⟨o, h1, -, h3, -⟩ := C79_reply_is_what_was_set (d := txt "8_0") rfl (by decide) (by decide)
    ⟨fun _ _ => rfl, fun _ _ => rfl⟩ hsv hen
  have hlast : lastOf ([] ++ [(⟨txt "UUID", v, left⟩ : Found)].flatMap (says lib)) (txt "ID_FS_UUID") = some (some v) := rfl
  refine ⟨_, _, o, h, hen, h1, ?_, ?_⟩
  · rw [h3]
    exact ⟨hlast, hv0⟩
  · rw [h3, hlast]
    rintro ⟨hx, -⟩
    simp only [Option.some.injEq] at hx
    exact hv hx.symm

/-- a library that replaces control characters and blanks, and one way to write them -/
def libEx : Lib where
  safe := fun v => v.map fun c => if c ≤ 32 then 95 else c
  enc := fun v => v.flatMap fun c => if c ≤ 32 ∨ c = 92 then txt "\\x" ++ [48 + c / 16, 48 + c % 16] else [c]

/-- C87: with such an identifier whoever wrote it onto the device has udev set variables of their choice, although the library
    leaves no newline in the texts it rewrites. -/
theorem C87_newline_counterexample : ∃ db keys o t, scanNext libEx Db.empty dev80 (txt "/block/blkid")
      (some [⟨txt "UUID", txt "1\nSYSTEMD_READY=0", []⟩]) = some (0, db) ∧ Entries db keys ∧
    exportLoop { db := db } keys = some o ∧ usidPrints (replyText o.udev) = some t ∧
    (txt "SYSTEMD_READY", txt "0") ∈ assignments t ∧ (∀ v ∈ [txt "1\nSYSTEMD_READY=0"], 10 ∉ libEx.safe v ∧ 10 ∉ libEx.enc v) := by
  have h := uuid_scan libEx (txt "/block/blkid") ⟨txt "UUID", txt "1\nSYSTEMD_READY=0", []⟩ rfl
  have he := uuid_entries libEx (txt "/block/blkid") ⟨txt "UUID", txt "1\nSYSTEMD_READY=0", []⟩
  exact ⟨_, _, _, _, h, he, rfl, rfl, by decide +kernel, by decide +kernel⟩

theorem get_uuid (db : Db) (w n : Str) (r : Rec) (hn : argsOk .udev n = true) :
    kvGet (writeRec db (varKey (txt "8_0") n) r) dev80 w { ns := .udev, key := n } = if rdAllowed r w then .ok r else .error (-1) := by
  unfold kvGet
  rw [if_pos hn]
  unfold doKvGet getRec
  dsimp only
  have hg : getSpec dev80 w (domOf Ns.udev) Ns.udev n none none 0 = getSpec dev80 core (domOf Ns.udev) Ns.udev n none none 0 := rfl
  rw [hg, get_varKey]
  have : orNull dev80.num = txt "8_0" := rfl
  rw [this, writeRec_key _ _ _ (varKey_head _ _)]

/-- C87: what is kept of the encoded identifier are 224 bytes of a buffer, behind the end of the text whatever was on the stack:
    the same device is stored differently. -/
theorem C87_leftover_counterexample (lib : Lib) (m v : Str) (l1 l2 : List UInt8) (hl : l1.take 100 ≠ l2.take 100)
    (he : (lib.enc v).length < 123) :
    ∃ db1 db2 r1 r2, scanNext lib Db.empty dev80 m (some [⟨txt "UUID", v, l1⟩]) = some (0, db1) ∧
      scanNext lib Db.empty dev80 m (some [⟨txt "UUID", v, l2⟩]) = some (0, db2) ∧
      kvGet db1 dev80 m { ns := .udev, key := txt "ID_FS_UUID_ENC" } = .ok r1 ∧
      kvGet db2 dev80 m { ns := .udev, key := txt "ID_FS_UUID_ENC" } = .ok r2 ∧ r1.val ≠ r2.val := by
  have hget : ∀ (db : Db) (r : Rec), r.owner = m →
      kvGet (writeRec db (varKey (txt "8_0") (txt "ID_FS_UUID_ENC")) r) dev80 m { ns := .udev, key := txt "ID_FS_UUID_ENC" } = .ok r := by
    intro db r ho
    rw [get_uuid _ _ _ _ (by decide)]
    have : rdAllowed r m = true := by
      unfold rdAllowed
      rw [ho]
      by_cases hc : m = core
      · rw [modMatch_core.mpr hc]
      · rw [(modMatch_same hc).mpr rfl]
    rw [if_pos this]
  refine ⟨_, _, _, _, uuid_scan lib m ⟨txt "UUID", v, l1⟩ rfl, uuid_scan lib m ⟨txt "UUID", v, l2⟩ rfl, hget _ _ rfl, hget _ _ rfl, ?_⟩
  have hval : ∀ l, (setRec dev80 m (uuidEncSet lib ⟨txt "UUID", v, l⟩)).val =
      .scalar (lib.enc v ++ 0 :: l.take (224 - (lib.enc v).length - 1)) := by
    intro l
    have := uuidEnc_value (lib := lib) (f := ⟨txt "UUID", v, l⟩) (Nat.lt_trans he (by decide))
    simp only [setRec, this, Option.getD_some]
  rw [hval, hval]
  intro e
  simp only [Value.scalar.injEq, List.append_cancel_left_eq, List.cons.injEq, true_and] at e
  apply hl
  have := congrArg (List.take 100) e
  rw [List.take_take, List.take_take, Nat.min_eq_left (by omega)] at this
  exact this

/-- C87: other modules may read the identifier, but not the encoded one. -/
theorem C87_unreadable_counterexample (lib : Lib) (m w v : Str) (left : List UInt8) (hw : w ≠ m) (hwc : w ≠ core) :
    ∃ db r, scanNext lib Db.empty dev80 m (some [⟨txt "UUID", v, left⟩]) = some (0, db) ∧
      kvGet db dev80 w { ns := .udev, key := txt "ID_FS_UUID" } = .ok r ∧ r.val = .scalar (v ++ [0]) ∧
      kvGet db dev80 w { ns := .udev, key := txt "ID_FS_UUID_ENC" } = .error (-1) := by
  have hnot : ∀ r : Rec, r.owner = m → (r.flags = flRd ||| flSyncP → rdAllowed r w = true) ∧
      (r.flags = 0 ||| flSyncP → rdAllowed r w = false) := by
    intro r ho
    unfold rdAllowed
    rw [ho]
    cases hm : modMatch m w with
    | no => exact ⟨fun h => (by simp only [h]; decide), fun h => (by simp only [h]; decide)⟩
    | same => exact absurd ((modMatch_same hwc).mp hm).symm hw
    | core => exact absurd (modMatch_core.mp hm) hwc
    | sub => exact ⟨fun h => (by simp only [h]; decide), fun h => (by simp only [h]; decide)⟩
    | sup => exact ⟨fun h => (by simp only [h]; decide), fun h => (by simp only [h]; decide)⟩
  refine ⟨_, setRec dev80 m (udevSet (txt "ID_FS_UUID") v), uuid_scan lib m ⟨txt "UUID", v, left⟩ rfl, ?_, rfl, ?_⟩
  · have h1 : kvGet (writeRec Db.empty (varKey (txt "8_0") (txt "ID_FS_UUID")) (setRec dev80 m (udevSet (txt "ID_FS_UUID") v)))
        dev80 w { ns := .udev, key := txt "ID_FS_UUID" } = .ok (setRec dev80 m (udevSet (txt "ID_FS_UUID") v)) := by
      rw [get_uuid _ _ _ _ (by decide), if_pos]
      exact (hnot _ rfl).1 rfl
    rw [← h1]
    unfold kvGet
    rw [if_pos (by decide), if_pos (by decide)]
    unfold doKvGet getRec
    dsimp only
    have hg : getSpec dev80 w (domOf Ns.udev) Ns.udev (txt "ID_FS_UUID") none none 0 =
      getSpec dev80 core (domOf Ns.udev) Ns.udev (txt "ID_FS_UUID") none none 0 := rfl
    rw [hg, get_varKey, writeRec_other _ _ _ _ (by decide +kernel) (varKey_head _ _)]
  · rw [get_uuid _ _ _ _ (by decide), if_neg]
    rw [(hnot _ rfl).2 rfl]
    exact (by decide)

/-! ### C88 -/

theorem typeMod_handler (t : Str) : typeMod t = handler t := by
  by_cases h : t ∈ table.map Prod.fst
  · obtain ⟨x, hx, rfl⟩ := List.mem_map.mp h
    have : ∀ x ∈ table, typeMod x.1 = handler x.1 := by decide +kernel
    exact this x hx
  · have h1 : typeMod t = none := by
      unfold typeMod
      rw [Option.map_eq_none_iff, List.find?_eq_none]
      intro x hx he
      exact h (List.mem_map.mpr ⟨x, hx, by simpa using he⟩)
    have h2 : handler t = none := by
      unfold handler
      rw [Option.map_eq_none_iff, List.find?_eq_none]
      intro x hx he
      have : ∀ g ∈ handled, ∀ t ∈ g.2, t ∈ table.map Prod.fst := by decide +kernel
      exact h (this x hx t (by simpa using he))
    rw [h1, h2]

/-- C88: the types of contents and the modules for them. -/
theorem C88_types (t mod : Str) : typeMod t = some mod ↔ ∃ ts, (mod, ts) ∈ handled ∧ t ∈ ts := by
  rw [typeMod_handler]
  constructor
  · intro h
    unfold handler at h
    obtain ⟨⟨a, ts⟩, hx, rfl⟩ := Option.map_eq_some_iff.mp h
    exact ⟨ts, List.mem_of_find?_eq_some hx, by simpa using List.find?_some hx⟩
  · rintro ⟨ts, h1, h2⟩
    have : ∀ g ∈ handled, ∀ t ∈ g.2, handler t = some g.1 := by decide +kernel
    exact this _ h1 _ h2

/-- the key of the name of the next module -/
def nextKey (u : Str) : Str := deviceKey u keyNext

theorem nextMod_eq {db : Db} {c : Ctx} {u : Str} (hu : c.uid = some u) :
    nextMod db c = (db.recs (nextKey u)).bind Mod.valueText := by
  have hk := (C29_get_finds_set { uid := some u } core .device keyNext).1
  unfold getKey setKey at hk
  rw [if_pos (by decide), if_pos (by decide)] at hk
  simp only [Option.some.injEq] at hk
  unfold nextMod doKvGet getRec
  dsimp only
  have e : getSpec c core (some domUser) .device keyNext none none 0 =
      getSpec { uid := some u } core (domOf .device) .device keyNext none none 0 := by
    unfold getSpec nsPartOf
    rw [hu]
    rfl
  rw [e, hk]
  have : (composeKey (setSpec { uid := some u } core (domOf .device) .device keyNext)).drop 1 = nextKey u := rfl
  rw [this]
  cases hr : db.recs (nextKey u) with
  | none => rfl
  | some r =>
    have : rdAllowed r core = true := by unfold rdAllowed; rw [modMatch_core.mpr rfl]
    simp [this]

/-- the set of the next module -/
def nextSet (t : Str) : SetArgs := ⟨.device, keyNext, some (t ++ [0]), flSyncP ||| flRd⟩

/-- the last set of the next module -/
def lastNext (as : List SetArgs) : Option SetArgs := (as.filter fun a => a.ns == .device).getLast?

theorem setAll_next {c : Ctx} {m u : Str} (hm : Plain m) (hu : Plain u) (hu0 : u ≠ []) (hc : PlainCtx c) :
    ∀ {as : List SetArgs} {db db' : Db}, (∀ a ∈ as, a.ns = .device → ∃ t, a = nextSet t) → setAll c m db as = some db' →
      db'.recs (nextKey u) = if c.uid = some u then
        (match lastNext as with | none => db.recs (nextKey u) | some a => some (setRec c m a)) else db.recs (nextKey u) := by
  intro as
  induction as with
  | nil => intro db db' _ h; cases h; simp [lastNext]
  | cons a as ih =>
    intro db db' ha h
    rw [setAll] at h
    obtain ⟨⟨rc, db1⟩, h1, h2⟩ := Option.bind_eq_some_iff.mp h
    dsimp only at h2
    have ih := ih (fun b hb => ha b (by simp [hb])) h2
    rw [ih]
    have hone : db1.recs (nextKey u) = if c.uid = some u ∧ a.ns = .device then some (setRec c m a) else db.recs (nextKey u) := by
      by_cases hd : a.ns = .device
      · obtain ⟨t, rfl⟩ := ha a (by simp) hd
        have e := kvSet_text h1 (by rfl) rfl
        by_cases hcu : c.uid = some u
        · rw [if_pos ⟨hcu, rfl⟩, e]
          have : (composeKey (setSpec c m (domOf (nextSet t).ns) (nextSet t).ns (nextSet t).key)).drop 1 = nextKey u := by
            unfold nextKey deviceKey setSpec nsPartOf nextSet
            rw [hcu]
            rfl
          rw [this]
          exact writeRec_key _ _ _ (deviceKey_head _ _)
        · rw [if_neg (fun h => hcu h.1), e]
          exact writeRec_other _ _ _ _ (device_other hu hu0 hm hc (.inr (.inr hcu))) (deviceKey_head _ _)
      · rw [if_neg (fun h => hd h.2)]
        rcases kvSet_cases h1 with ⟨e, -⟩ | ⟨-, e⟩
        · rw [e]
        · rw [e]
          exact writeRec_other _ _ _ _ (device_other hu hu0 hm hc (.inl hd)) (deviceKey_head _ _)
    rw [hone]
    by_cases hcu : c.uid = some u
    · simp only [hcu, if_true, true_and]
      unfold lastNext
      by_cases hd : a.ns = .device
      · rw [List.filter_cons_of_pos (by simp [hd]), if_pos hd]
        cases hl : as.filter fun a => a.ns == .device with
        | nil => simp
        | cons b l => rw [List.getLast?_cons_cons]; simp [List.getLast?_cons]
      · rw [List.filter_cons_of_neg (by simp [hd]), if_neg hd]
    · simp only [hcu, if_false, false_and]

theorem sets_next (lib : Lib) (f : Found) :
    (sets lib f).filter (fun a => a.ns == .device) =
      (if f.name = txt "TYPE" then (handler f.value).map nextSet else none).toList := by
  by_cases h : f.name = txt "TYPE"
  · have : sets lib f = typeSets f.value := by unfold sets; dsimp only; rw [if_pos h]
    rw [this, if_pos h, ← typeMod_handler]
    unfold typeSets
    cases typeMod f.value <;> rfl
  · rw [if_neg h]
    unfold sets
    dsimp only
    rw [if_neg h]
    have hu : ∀ k v, ((udevSet k v).ns == Ns.device) = false := fun _ _ => rfl
    have he : ((uuidEncSet lib f).ns == Ns.device) = false := rfl
    have hi : ∀ (p : Prop) [Decidable p] (x y : List SetArgs), x.filter (fun a => a.ns == .device) = [] →
        y.filter (fun a => a.ns == .device) = [] → (if p then x else y).filter (fun a => a.ns == .device) = [] := by
      intro p _ x y h1 h2
      split <;> assumption
    change _ = []
    repeat' first | apply hi | (simp [hu, he]; done)

theorem flat_next (lib : Lib) (l : List Found) : lastNext (l.flatMap (sets lib)) = (forContents l).map nextSet := by
  unfold lastNext forContents
  rw [← List.getLast?_map]
  congr 1
  induction l with
  | nil => rfl
  | cons f l ih =>
    rw [List.flatMap_cons, List.filter_append, ih, sets_next, List.filterMap_cons]
    by_cases h : f.name = txt "TYPE"
    · simp only [h, if_true]
      cases handler f.value <;> rfl
    · simp only [h, if_false]
      rfl

theorem sets_device (lib : Lib) (l : List Found) : ∀ a ∈ l.flatMap (sets lib), a.ns = .device → ∃ t, a = nextSet t := by
  intro a ha hd
  obtain ⟨f, -, ha⟩ := List.mem_flatMap.mp ha
  have : a ∈ (sets lib f).filter (fun a => a.ns == .device) := by
    rw [List.mem_filter]
    exact ⟨ha, by simp [hd]⟩
  rw [sets_next] at this
  split at this
  · cases hh : handler f.value with
    | none => rw [hh] at this; cases this
    | some t =>
      rw [hh] at this
      simp only [Option.map_some, Option.toList_some, List.mem_singleton] at this
      exact ⟨t, this⟩
  · cases this

theorem handler_text {t mod : Str} (h : handler t = some mod) : 0 ∉ mod := by
  unfold handler at h
  obtain ⟨g, hg, rfl⟩ := Option.map_eq_some_iff.mp h
  have : ∀ g ∈ handled, 0 ∉ g.1 := by decide +kernel
  exact this g (List.mem_of_find?_eq_some hg)

theorem forContents_text {l : List Found} {mod : Str} (h : forContents l = some mod) : 0 ∉ mod := by
  unfold forContents at h
  obtain ⟨f, -, hf⟩ := List.mem_filterMap.mp (List.mem_of_getLast? h)
  split at hf
  · exact handler_text hf
  · cases hf

theorem scan_next {lib : Lib} {m u : Str} {db db' : Db} {c : Ctx} {p : Option (List Found)} {rc : Int} (hm : Plain m)
    (hu : Plain u) (hu0 : u ≠ []) (hc : PlainCtx c) (h : scanNext lib db c m p = some (rc, db')) :
    (db'.recs (nextKey u)).bind Mod.valueText = if c.uid = some u then
      ((p.bind forContents).or ((db.recs (nextKey u)).bind Mod.valueText)) else (db.recs (nextKey u)).bind Mod.valueText := by
  unfold scanNext at h
  cases p with
  | none =>
    simp only [Option.some.injEq, Prod.mk.injEq] at h
    rw [h.2]
    simp
  | some l =>
    obtain ⟨d, hd, e⟩ := Option.map_eq_some_iff.mp h
    simp only [Prod.mk.injEq] at e
    obtain ⟨-, rfl⟩ := e
    rw [setAll_next hm hu hu0 hc (sets_device lib l) hd, flat_next]
    by_cases hcu : c.uid = some u
    · simp only [hcu, if_true, Option.bind_some]
      cases hf : forContents l with
      | none => simp
      | some t =>
        simp only [Option.map_some, Option.bind_some, Option.some_or]
        have h0 := forContents_text hf
        have hw : (t ++ [0]).takeWhile (· ≠ 0) = t := takeWhile_text (rest := []) h0
        unfold Mod.valueText setRec nextSet
        simp only [Option.getD_some]
        split
        · rename_i e; simp at e
        · rename_i e; simp only [Value.scalar.injEq] at e; rw [← e, hw]
        · rename_i e; cases e
    · simp only [hcu, if_false]

theorem blkid_run_snoc (lib : Lib) (m : Str) (ops : List Sid.Blkid.Op) (o : Sid.Blkid.Op) :
    ∀ db, Sid.Blkid.run lib m db (ops ++ [o]) = (Sid.Blkid.run lib m db ops).bind fun db => Sid.Blkid.step lib m db o := by
  induction ops with
  | nil =>
    intro db
    simp only [List.nil_append, Sid.Blkid.run, Option.bind_some]
    cases Sid.Blkid.step lib m db o <;> rfl
  | cons a ops ih =>
    intro db
    simp only [List.cons_append, Sid.Blkid.run]
    cases Sid.Blkid.step lib m db a with
    | none => rfl
    | some db' => exact ih db'

/-- C88 (partial: names without ':', other modules do not set the name of the next module).  After any history the module that is
    called for the contents of a device is the one for the type of contents that was found last and that has a module; none if
    no such type was ever found. -/
theorem C88_last_known_partial {lib : Lib} {m u : Str} {db0 db : Db} {ops : List Sid.Blkid.Op} {r : Option Str} {c : Ctx}
    (hm : Plain m) (hu : Plain u) (hu0 : u ≠ []) (hcu : c.uid = some u) (h0 : nextMod db0 c = none) (hh : Hist ops)
    (hl : Last u ops r) (hr : Sid.Blkid.run lib m db0 ops = some db) : nextMod db c = r := by
  rw [nextMod_eq hcu] at h0 ⊢
  induction hl generalizing db with
  | nil =>
    simp only [Sid.Blkid.run, Option.some.injEq] at hr
    rw [← hr]
    exact h0
  | @found ops r c' l t _ hcu' hf ih =>
    rw [blkid_run_snoc] at hr
    obtain ⟨d, hd, hs⟩ := Option.bind_eq_some_iff.mp hr
    obtain ⟨⟨rc, d'⟩, hs', rfl⟩ := Option.map_eq_some_iff.mp hs
    have := scan_next hm hu hu0 (hh.scans c' (some l) (by simp)) hs'
    rw [this, if_pos hcu', Option.bind_some, hf]
    rfl
  | @nothing ops r c' p _ hf ih =>
    rw [blkid_run_snoc] at hr
    obtain ⟨d, hd, hs⟩ := Option.bind_eq_some_iff.mp hr
    obtain ⟨⟨rc, d'⟩, hs', rfl⟩ := Option.map_eq_some_iff.mp hs
    have := scan_next hm hu hu0 (hh.scans c' p (by simp)) hs'
    rw [this]
    have ih := ih ⟨fun c p h => hh.scans c p (by simp [h]), fun w x h => hh.others w x (by simp [h])⟩ hd
    split
    · rename_i hcu'
      have : p.bind forContents = none := by
        cases p with
        | none => rfl
        | some l => exact hf hcu' l rfl
      rw [this]
      exact ih
    · exact ih
  | @call ops r w x _ ih =>
    rw [blkid_run_snoc] at hr
    obtain ⟨d, hd, hs⟩ := Option.bind_eq_some_iff.mp hr
    obtain ⟨⟨rc, d'⟩, hs', rfl⟩ := Option.map_eq_some_iff.mp hs
    have ih := ih ⟨fun c p h => hh.scans c p (by simp [h]), fun w x h => hh.others w x (by simp [h])⟩ hd
    obtain ⟨hw, hx⟩ := hh.others w x (by simp)
    have := call_frame (k := nextKey u) (deviceKey_head _ _) (fun c a e hok => by
      obtain ⟨h1, h2⟩ := hx c a e
      exact device_other hu hu0 hw h1 (h2.imp_right .inl)) (device_rsv hu hu0) hs'
    dsimp only
    rw [this]
    exact ih

/-- C88: a scan that finds a type with a module has this module called, whatever is stored about the device. -/
theorem C88_found {lib : Lib} {m u : Str} {db db' : Db} {c : Ctx} {l : List Found} {t : Str} {rc : Int} (hm : Plain m)
    (hu : Plain u) (hu0 : u ≠ []) (hc : PlainCtx c) (hcu : c.uid = some u) (hf : forContents l = some t)
    (h : scanNext lib db c m (some l) = some (rc, db')) : nextMod db' c = some t := by
  have := scan_next hm hu hu0 hc h
  rw [nextMod_eq hcu, this, if_pos hcu, Option.bind_some, hf]
  rfl

/-- C88 is false when the contents are gone or are of a type without a module, or if the device cannot be read: the module for what
    was there before is called, for all devices and all histories. -/
theorem C88_stale_counterexample {lib : Lib} {m u : Str} {db db' : Db} {c : Ctx} {p : Option (List Found)} {rc : Int} (hm : Plain m)
    (hu : Plain u) (hu0 : u ≠ []) (hc : PlainCtx c) (hcu : c.uid = some u) (hf : p.bind forContents = none)
    (h : scanNext lib db c m p = some (rc, db')) : nextMod db' c = nextMod db c := by
  have := scan_next hm hu hu0 hc h
  rw [nextMod_eq hcu, nextMod_eq hcu, this, if_pos hcu, hf]
  rfl

/-! ### examples -/

/-- a device with a file system, with a part of a volume group, and wiped -/
def probes : List Sid.Blkid.Op :=
  [.scan diskCtx (some [⟨txt "VERSION", txt "1.0", []⟩, ⟨txt "TYPE", txt "ext4", []⟩, ⟨txt "USAGE", txt "filesystem", []⟩]),
   .call (txt "/type/dm") (.set diskCtx ⟨.udev, txt "A", some (txt "1" ++ [0]), 0⟩),
   .scan diskCtx (some [⟨txt "TYPE", txt "LVM2_member", []⟩]),
   .scan diskCtx (some []), .scan diskCtx none]

example : Last (txt "5b0f-77") probes (some (txt "dm")) :=
  .nothing (ops := [_, _, _, _]) (.nothing (ops := [_, _, _]) (.found (ops := [_, _]) (.call (ops := [_]) (.found (ops := []) (t := txt "fs") .nil
    rfl (by decide +kernel))) rfl (by decide +kernel)) (fun _ l hl => by cases hl; rfl)) (fun _ l hl => by cases hl)

example : Hist probes := by
  constructor
  · intro c p h
    simp only [probes, List.mem_cons, List.not_mem_nil, or_false, reduceCtorEq, false_or, Sid.Blkid.Op.scan.injEq] at h
    have : c = diskCtx := by rcases h with h | h | h | h <;> exact h.1
    subst this
    exact ⟨fun x hx => by cases hx; decide, fun x hx => by cases hx; decide⟩
  · intro w x h
    simp only [probes, List.mem_cons, List.not_mem_nil, or_false, reduceCtorEq, false_or, Sid.Blkid.Op.call.injEq] at h
    obtain ⟨rfl, rfl⟩ := h
    refine ⟨by decide, fun c a e => ?_⟩
    cases e
    exact ⟨⟨fun x hx => by cases hx; decide, fun x hx => by cases hx; decide⟩, .inl (by decide)⟩

example : (Sid.Blkid.run libEx (txt "/block/blkid") Db.empty probes).isSome = true := by decide +kernel

example : (Sid.Blkid.run libEx (txt "/block/blkid") Db.empty probes).bind (fun db => nextMod db diskCtx) = some (txt "dm") := by
  decide +kernel

/-- what is told of a device with a label -/
example : wanted libEx [⟨txt "LABEL", txt "my disk", []⟩, ⟨txt "TYPE", txt "xfs", []⟩, ⟨txt "PART_ENTRY_SIZE", txt "2048", []⟩,
      ⟨txt "SEC_TYPE", txt "x", []⟩] =
    [(txt "ID_FS_LABEL", some (txt "my_disk")), (txt "ID_FS_LABEL_ENC", some (txt "my\\x20disk")),
     (txt "ID_FS_TYPE", some (txt "xfs")), (txt "ID_PART_ENTRY_SIZE", some (txt "2048"))] := by decide +kernel

example : Texts libEx := by
  intro v hv
  constructor
  · intro h
    obtain ⟨c, hc, e⟩ := List.mem_map.mp h
    split at e
    · cases e
    · rw [e] at hc; exact hv hc
  · intro h
    obtain ⟨c, hc, e⟩ := List.mem_flatMap.mp h
    split at e
    · rename_i hc'
      have : ∀ n < 256, UInt8.ofNat n ≤ 32 ∨ UInt8.ofNat n = 92 →
        0 ∉ txt "\\x" ++ [48 + UInt8.ofNat n / 16, 48 + UInt8.ofNat n % 16] := by decide +kernel
      have h := this c.toNat c.toNat_lt
      rw [UInt8.ofNat_toNat] at h
      exact h hc' e
    · rw [List.mem_singleton] at e
      rw [← e] at hc
      exact hv hc

example : Fits libEx ⟨txt "UUID", txt "a5b1-77", []⟩ ∧ Tidy libEx ⟨txt "UUID", txt "a5b1-77", []⟩ :=
  ⟨⟨by decide, by decide, fun _ => by decide⟩, fun _ => by decide +kernel⟩

/-- the hypotheses of C87 are met by the scan of a device with an identifier -/
example : ∃ db' keys, scanNext libEx Db.empty dev80 (txt "/block/blkid") (some [⟨txt "UUID", txt "a5b1-77", [1, 2]⟩]) = some (0, db') ∧
    Entries db' keys ∧ Serve dev80 Db.empty Db.empty [] ∧ Spec.Reply.Fresh Db.empty :=
  ⟨_, _, uuid_scan libEx (txt "/block/blkid") ⟨txt "UUID", txt "a5b1-77", [1, 2]⟩ rfl,
    uuid_entries libEx (txt "/block/blkid") ⟨txt "UUID", txt "a5b1-77", [1, 2]⟩, .start, ⟨fun _ _ => rfl, fun _ _ => rfl⟩⟩

end Sid.Props
