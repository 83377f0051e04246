import Verif.Proof.UbrEvent
import Verif.Props.Ifc
/-
C76: the event modules are told about is the event of the client.
-/
namespace Sid.Props
open Sid.Event Sid.Spec.Event Sid.Spec.Client
open Sid.Ifc (txt parseEnv majorOf minorOf)

/-! ### C76 -/

/-- C76 (partial: every variable has a value and every DEVPATH has a slash that is not its first character; see the
    counterexamples for what happens otherwise).  The attributes modules get are those the variables in the request describe,
    the last variable of a name counting. -/
theorem C76_event_as_described_partial {dev : List UInt8} {env : List (Str × Str × Str)} (hl : dev.length = 8) (hne : env ≠ [])
    (hn : ∀ x ∈ env, Named x.1 x.2.1 x.2.2 ∧ 0 ∉ x.1) (hd : ∀ x ∈ env, x.2.1 = ascii "DEVPATH" → HasDir x.2.2) :
    ∃ ev, eventOf (dev ++ strings (env.map (·.1))) = some (.ok (majorOf (BitVec.ofNat 64 (number dev)),
        minorOf (BitVec.ofNat 64 (number dev)), ev, some (diskSeqText ev))) ∧
      Describes (env.map (·.2)) ev := by
  obtain ⟨ev, h1, h2⟩ := setFields_describes (env.map (·.2)) describes_init (by
    intro v hv
    obtain ⟨x, hx, e⟩ := List.mem_map.mp hv
    have := hd x hx (by rw [e]; rfl)
    rwa [e] at this)
  refine ⟨ev, ?_, by simpa using h2⟩
  simp only [eventOf, (C62_environment_imported_partial hl hn).1 hne, Option.bind_some, h1, Option.map_some, if_true]

/-- C76.  The text that names a disk or partition tells them apart: it is the same for two events if and only if they have
    the same disk sequence number and are both about a partition, and then the same one, or both not. -/
theorem C76_disk_sequence_text (e e' : Ev) : diskSeqText e = diskSeqText e' ↔
    e.diskseq = e'.diskseq ∧ (e.type = .partition ↔ e'.type = .partition) ∧ (e.type = .partition → e.partn = e'.partn) := by
  have split45 : ∀ {a b x y : Nat}, decimal a ++ txt "-part" ++ decimal x = decimal b ++ txt "-part" ++ decimal y →
      a = b ∧ x = y := by
    intro a b x y h
    have h1 : (decimal a ++ txt "-part" ++ decimal x).takeWhile (· != 45) = decimal a := by
      rw [List.append_assoc, List.takeWhile_append_of_pos fun c hc => by
        simp only [bne_iff_ne]; exact fun e => decimal_no_minus a (e ▸ hc)]
      rw [show txt "-part" = 45 :: txt "part" by decide]
      simp
    have h2 : (decimal b ++ txt "-part" ++ decimal y).takeWhile (· != 45) = decimal b := by
      rw [List.append_assoc, List.takeWhile_append_of_pos fun c hc => by
        simp only [bne_iff_ne]; exact fun e => decimal_no_minus b (e ▸ hc)]
      rw [show txt "-part" = 45 :: txt "part" by decide]
      simp
    have h3 : decimal a = decimal b := by rw [← h1, ← h2, h]
    rw [h3] at h
    exact ⟨decimal_inj h3, decimal_inj (List.append_cancel_left h)⟩
  have no45 : ∀ {a b x : Nat}, decimal a ++ txt "-part" ++ decimal x ≠ decimal b := by
    intro a b x h
    apply decimal_no_minus b
    rw [← h]
    simp [show (45 : UInt8) ∈ txt "-part" by decide]
  simp only [diskSeqText, dec_decimal]
  by_cases h1 : e.type = .partition <;> by_cases h2 : e'.type = .partition
  · simp only [h1, h2, if_true, iff_self, true_and, forall_const]
    exact ⟨split45, fun h => by rw [h.1, h.2]⟩
  · simp only [h1, h2, if_true, if_false]
    exact ⟨fun h => absurd h no45, fun h => by simp at h⟩
  · simp only [h1, h2, if_true, if_false]
    exact ⟨fun h => absurd h.symm no45, fun h => by simp at h⟩
  · simp only [h1, h2, if_false, iff_self, true_and, false_implies, and_true]
    exact ⟨decimal_inj, fun h => by rw [h]⟩

/-- C76: names of actions and types go there and back. -/
theorem C76_names_round_trip : (∀ a, strToAction (actionStr a) = a) ∧ (∀ t, strToDevType (devTypeStr t) = t) := by
  refine ⟨fun a => ?_, fun t => ?_⟩
  · cases a <;> decide +kernel
  · cases t <;> decide +kernel

/-- C76 is false as stated: a DEVPATH without a slash, or with one at its beginning only, makes the daemon use the address
    NULL + 1 as name of the device, whatever else is in the request. -/
theorem C76_path_without_directory_counterexample {dev : List UInt8} {env : List (Str × Str × Str)} (hl : dev.length = 8)
    (hn : ∀ x ∈ env, Named x.1 x.2.1 x.2.2 ∧ 0 ∉ x.1) {x : Str × Str × Str} (hx : x ∈ env) (hp : x.2.1 = ascii "DEVPATH")
    (hd : ¬ HasDir x.2.2) : eventOf (dev ++ strings (env.map (·.1))) = none := by
  have hne : env ≠ [] := by rintro rfl; simp at hx
  simp only [eventOf, (C62_environment_imported_partial hl hn).1 hne, Option.bind_some]
  rw [setFields_none hd]
  · rfl
  · exact List.mem_map.mpr ⟨x, hx, by rw [← show ascii "DEVPATH" = txt "DEVPATH" from rfl, ← hp]⟩

/-- C76 is false as stated: behind a variable without a value nothing is taken into account.  The event is the one the
    variables before it describe and there is no text for the disk sequence. -/
theorem C76_cut_off_counterexample {dev : List UInt8} {env : List (Str × Str × Str)} (hl : dev.length = 8)
    (hn : ∀ x ∈ env, Named x.1 x.2.1 x.2.2 ∧ 0 ∉ x.1) (hd : ∀ x ∈ env, x.2.1 = ascii "DEVPATH" → HasDir x.2.2)
    {bad : Str} (hb : 0 ∉ bad) (hbad : ∀ n v, ¬ Named bad n v) (post : List Str) :
    ∃ ev, eventOf (dev ++ strings (env.map (·.1) ++ bad :: post)) = some (.ok (majorOf (BitVec.ofNat 64 (number dev)),
        minorOf (BitVec.ofNat 64 (number dev)), ev, none)) ∧ Describes (env.map (·.2)) ev := by
  obtain ⟨ev, h1, h2⟩ := setFields_describes (env.map (·.2)) describes_init (by
    intro v hv
    obtain ⟨x, hx, e⟩ := List.mem_map.mp hv
    have := hd x hx (by rw [e]; rfl)
    rwa [e] at this)
  refine ⟨ev, ?_, by simpa using h2⟩
  simp only [eventOf, (C62_environment_imported_partial hl hn).2.1 bad post hb hbad, Option.bind_some, h1, Option.map_some]
  rfl

/-- So the removal of a device is processed as an event of unknown kind if a variable without a value comes before. -/
theorem C76_removal_lost_counterexample (post : List Str) :
    eventOf (List.replicate 8 0 ++ strings (txt "B=" :: txt "ACTION=remove" :: post)) = some (.ok (0, 0, {}, none)) := by
  have hbad : ∀ n v, ¬ Named (txt "B=") n v := by
    rintro n v ⟨h1, h2, h3⟩
    have e : (n ++ [61]) ++ v = txt "B" ++ [61] := by rw [← h1]; decide
    cases hv : v.reverse with
    | nil => exact h3 (by simpa using hv)
    | cons a t =>
      have hv' : v = t.reverse ++ [a] := by rw [← List.reverse_reverse v, hv]; simp
      rw [hv', ← List.append_assoc] at e
      have := (List.append_inj' e rfl).1
      have hmem : (61 : UInt8) ∈ txt "B" := by rw [← this]; simp
      exact absurd hmem (by decide)
  have h := (C62_environment_imported_partial (dev := List.replicate 8 0) (pre := []) (by decide)
    (by simp)).2.1 (txt "B=") (txt "ACTION=remove" :: post) (by decide) hbad
  simp only [eventOf]
  rw [show strings (txt "B=" :: txt "ACTION=remove" :: post) =
    strings (([] : List (Str × Str × Str)).map (·.1) ++ txt "B=" :: txt "ACTION=remove" :: post) from rfl, h]
  rfl

/-- an environment as udev sends it -/
def udevEnv : List (Str × Str × Str) :=
  [(txt "ACTION=change", txt "ACTION", txt "change"), (txt "DEVPATH=/devices/block/sda/sda1", txt "DEVPATH", txt "/devices/block/sda/sda1"),
   (txt "DEVTYPE=partition", txt "DEVTYPE", txt "partition"), (txt "SEQNUM=4711", txt "SEQNUM", txt "4711"),
   (txt "DISKSEQ=9", txt "DISKSEQ", txt "9"), (txt "PARTN=1", txt "PARTN", txt "1")]

/-- it meets the hypotheses, and this is the event it describes -/
example : (∀ x ∈ udevEnv, Named x.1 x.2.1 x.2.2 ∧ 0 ∉ x.1) ∧ (∀ x ∈ udevEnv, x.2.1 = ascii "DEVPATH" → HasDir x.2.2) ∧
    (setFields {} (udevEnv.map (·.2))).map (fun ev => (ev, diskSeqText ev)) =
      some ({ action := .change, type := .partition, path := some (txt "/devices/block/sda/sda1"), name := some (txt "sda1"),
              seqnum := 4711, diskseq := 9, partn := 1 }, txt "9-part1") := by
  refine ⟨?_, ?_, by decide +kernel⟩
  · unfold Named; decide +kernel
  · unfold HasDir; decide +kernel

end Sid.Props
