import Verif.Spec.UbrSync
import Verif.Model.UbrReply
/-
What udev is to be told about a device that was scanned: the variables set while the command was served, with the values
given last.
-/
namespace Sid.Spec.Reply
open Sid.Ubr Sid.Spec.Sync
open Sid.Ifc (txt)

/-- the key of variable `n` of the device `dev` -/
def varKey (dev n : Str) : Str := txt "::U:" ++ dev ++ txt ":::" ++ n

/-- what was set last for a variable: `some none` if it was unset -/
def lastOf : List (Str × Option Str) → Str → Option (Option Str)
  | [], _ => none
  | (m, v) :: l, n => (lastOf l n).or (if m = n then some v else none)

/-- the bytes of a text as an argument of a call -/
def bytes (v : Option Str) : Option (List UInt8) := v.map fun v => v ++ [0]

/-- the bytes are those of a text with its end mark; anything may follow the mark -/
def Text : Option Str → Option (List UInt8) → Prop
  | none, b => b = none
  | some t, b => ∃ rest, b = some (t ++ 0 :: rest)

theorem text_bytes (v : Option Str) : Text v (bytes v) := by
  cases v with
  | none => rfl
  | some t => exact ⟨[], rfl⟩

/-- the daemon finds `v` for the variable `n` -/
def Holds (db : Db) (c : Ctx) (n : Str) (v : Option Str) : Prop :=
  ∃ r b, kvGet db c core { ns := .udev, key := n } = .ok r ∧ r.val = .scalar (b.getD []) ∧ Text v b

/-- `Serve c db0 db log`: while a command for the device of `c` was served, the store went from `db0` to `db`, and `log` is
    what was set and unset -/
inductive Serve (c : Ctx) (db0 : Db) : Db → List (Str × Option Str) → Prop
  | start : Serve c db0 db0 []
  /-- a variable of the request -/
  | imported {db db' log n v fl rc} : Serve c db0 db log → 0 ∉ v →
      doKvSet db c core none ⟨.udev, n, bytes (some v), fl⟩ = some (rc, db') → Serve c db0 db' (log ++ [(n, some v)])
  /-- a module sets a variable, and it is set -/
  | given {db db' log m n v b fl rc} : Serve c db0 db log → (∀ t, v = some t → 0 ∉ t) → Text v b →
      kvSet db c m ⟨.udev, n, b, fl⟩ = some (rc, db') → Holds db' c n v → Serve c db0 db' (log ++ [(n, v)])
  /-- a module sets a variable, and the call has no effect -/
  | ignored {db db' log m n v b fl rc} : Serve c db0 db log → Text v b →
      kvSet db c m ⟨.udev, n, b, fl⟩ = some (rc, db') → ¬ Holds db' c n v → Serve c db0 db' log
  /-- a module sets something else, or reserves or releases a name -/
  | call {db db' log m x rc} : Serve c db0 db log → (∀ c' a, x = .set c' a → a.ns ≠ .udev) →
      call true db m x = some (rc, db') → Serve c db0 db' log
  /-- anything that does not touch variables -/
  | other {db db' log} : Serve c db0 db log →
      (∀ k, nsFromKey k = .udev → db'.recs k = db.recs k ∧ db'.idx k = db.idx k) → Serve c db0 db' log

theorem Serve.accepted {c : Ctx} {db0 db db' : Db} {log : List (Str × Option Str)} {m n : Str} {v : Option Str} {fl : Flags}
    {rc : Int} (h : Serve c db0 db log) (h0 : ∀ t, v = some t → 0 ∉ t)
    (hs : kvSet db c m ⟨.udev, n, bytes v, fl⟩ = some (rc, db')) (hh : Holds db' c n v) : Serve c db0 db' (log ++ [(n, v)]) :=
  .given h h0 (text_bytes v) hs hh

theorem Serve.refused {c : Ctx} {db0 db db' : Db} {log : List (Str × Option Str)} {m n : Str} {v : Option Str} {fl : Flags}
    {rc : Int} (h : Serve c db0 db log) (hs : kvSet db c m ⟨.udev, n, bytes v, fl⟩ = some (rc, db')) (hh : ¬ Holds db' c n v) :
    Serve c db0 db' log :=
  .ignored h (text_bytes v) hs hh

/-- no variable waits for being told -/
def Fresh (db : Db) : Prop :=
  (∀ k, nsFromKey k = .udev → db.idx k = false) ∧ ∀ dev n, flagged (db.recs (varKey dev n)) = false

end Sid.Spec.Reply
