import Verif.Model.Res
/-
Specification of resource trees: a set of resources, each with the references that callers hold to it, and the list of
attachments (parent, child) in the order they were made.  Operations are described by what they do to these.
-/
namespace Sid.Spec.Res
open Sid.Res (Attr Op)

/-- a resource: what it was created with, and the number of references held by callers (the parent's not counted; the
    one held during creation counted) -/
structure Obj where
  attr : Attr
  held : Nat

structure World where
  obj : Nat → Option Obj
  att : List (Nat × Nat)
  next : Nat

def empty : World := ⟨fun _ => none, [], 0⟩

def World.put (w : World) (i : Nat) (o : Option Obj) : World := { w with obj := fun j => if j = i then o else w.obj j }

def World.live (w : World) (r : Nat) : Prop := w.obj r ≠ none

/-- nobody but the parent refers to it -/
def World.unheld (w : World) (r : Nat) : Prop := ∃ o, w.obj r = some o ∧ o.held = 0

/-- its parent -/
def World.up (w : World) (r : Nat) : Option Nat := (w.att.find? (·.2 = r)).map (·.1)

def World.prio (w : World) (r : Nat) : Int := match w.obj r with | none => 0 | some o => o.attr.prio

/-- its children: sorted by priority, stable with respect to the order of attachment -/
def World.kids (w : World) (r : Nat) : List Nat :=
  ((w.att.filter (·.1 = r)).map (·.2)).mergeSort fun a b => w.prio a ≤ w.prio b

/-- what goes away with the resources in `S`: they themselves, and every child of something that goes away if only its
    parent refers to it -/
inductive Gone (w : World) (S : Nat → Prop) : Nat → Prop
  | base {x} : S x → Gone w S x
  | child {p c} : Gone w S p → (p, c) ∈ w.att → w.unheld c → Gone w S c

open Classical in
/-- the resources in `S` are destroyed -/
noncomputable def World.destroy (w : World) (S : Nat → Prop) : World :=
  { w with
    obj := fun x => if Gone w S x then none else w.obj x
    att := w.att.filter fun e => ¬ Gone w S e.1 ∧ ¬ Gone w S e.2 }

/-- it has no parent any more -/
def World.detach (w : World) (r : Nat) : World := { w with att := w.att.filter fun e => e.2 ≠ r }

/-- a reference is dropped: one held by a caller if there is one, otherwise the parent's; without any reference left the
    resource is destroyed -/
noncomputable def World.drop (w : World) (r : Nat) : World :=
  match w.obj r with
  | none => w
  | some o =>
    if o.held = 0 then w.destroy (· = r)
    else
      let w1 := w.put r (some { o with held := o.held - 1 })
      if o.held = 1 ∧ w.up r = none then w1.destroy (· = r) else w1

/-- one operation, with its result -/
noncomputable def World.step (w : World) : Op → World × Except Errno Unit
  | .create p a =>
    ({ (w.put w.next (some ⟨a, 1⟩)) with
        next := w.next + 1
        att := w.att ++ (p.map fun p => (p, w.next)).toList }, .ok ())
  | .created r =>
    (match w.obj r with
      | none => w
      | some o => w.put r (some { o with held := o.held - 1 }), .ok ())
  | .failed r => (w.destroy (· = r), .ok ())
  | .ref r =>
    (match w.obj r with
      | none => w
      | some o => w.put r (some { o with held := o.held + 1 }), .ok ())
  | .unref r => (w.drop r, .ok ())
  | .setPrio r prio =>
    (match w.obj r, w.up r with
      | some o, some p =>
        if prio = o.attr.prio then w
        else
          { (w.detach r).put r (some { o with attr := { o.attr with prio } }) with
            att := (w.detach r).att ++ [(p, r)] }
      | _, _ => w, .ok ())
  | .addChild p c noUp noDown noIso =>
    match w.obj c with
    | none => (w, .ok ())
    | some o =>
      if w.up c ≠ none then (w, .error .EBUSY)
      else
        ({ w.put c (some { o with attr := { o.attr with noUp, noDown, noIso } }) with
            att := w.att ++ [(p, c)] }, .ok ())
  | .isolate r subtree =>
    match w.obj r, w.up r with
    | some o, some p =>
      if o.attr.loop || o.attr.noIso then (w, .error .EPERM)
      else if subtree then (w.detach r, .ok ())
      else
        ({ w with att := w.att.filter (fun e => e.1 ≠ r ∧ e.2 ≠ r) ++ (w.kids r).map fun c => (p, c) }, .ok ())
    | _, _ => (w, .error .EPERM)

/-- `d` is `a` or below it -/
inductive World.Below (w : World) (a : Nat) : Nat → Prop
  | refl : World.Below w a a
  | down {p c} : World.Below w a p → (p, c) ∈ w.att → World.Below w a c

/-- What a caller must keep to: resources passed in exist; a resource is not attached below itself; the end of a
    creation follows its beginning, and the initializer gives back all the references it took (on failure also those to
    the children it created). -/
def World.Ok (w : World) : Op → Prop
  | .create p _ => ∀ x, p = some x → w.live x
  | .created r => ∃ o, w.obj r = some o ∧ 1 ≤ o.held
  | .failed r => (∃ o, w.obj r = some o ∧ o.held = 1) ∧ ∀ c, (r, c) ∈ w.att → w.unheld c
  | .ref r => w.live r
  | .unref r => w.live r
  | .setPrio r _ => w.live r
  | .addChild p c _ _ _ => w.live p ∧ w.live c ∧ (w.up c = none → ¬ w.Below c p)
  | .isolate r _ => w.live r

/-- a history that keeps to the rules -/
inductive History : World → List Op → World → List (Except Errno Unit) → Prop
  | nil {w} : History w [] w []
  | cons {w op w' ops es} : w.Ok op → History (w.step op).1 ops w' es → History w (op :: ops) w' ((w.step op).2 :: es)

/-! ### searching -/

/-- type and id as asked for -/
def World.Matches (w : World) (type : Option Nat) (id : Option Str) (x : Nat) : Prop :=
  ∃ o, w.obj x = some o ∧ (∀ t, type = some t → o.attr.type = t) ∧ (∀ i, id = some i → o.attr.name = i)

/-- may be entered from its parent -/
def World.enterable (w : World) (x : Nat) : Prop := ∃ o, w.obj x = some o ∧ o.attr.noDown = false

/-- may be left towards its parent -/
def World.leavable (w : World) (x : Nat) : Prop := ∃ o, w.obj x = some o ∧ o.attr.noUp = false

/-- below `a`, by a way that goes only through resources with property `through` -/
inductive World.Under (w : World) (through : Nat → Prop) (a : Nat) : Nat → Prop
  | child {c} : (a, c) ∈ w.att → World.Under w through a c
  | deeper {p c} : World.Under w through a p → through p → (p, c) ∈ w.att → World.Under w through a c

/-- above `a`, leaving only resources with property `through` -/
inductive World.Over (w : World) (through : Nat → Prop) (a : Nat) : Nat → Prop
  | parent {p} : through a → w.up a = some p → World.Over w through a p
  | higher {q p} : World.Over w through a q → through q → w.up q = some p → World.Over w through a p

/-- Which resources a search covers.  `walls`: whether the restrictions of the walk apply. -/
def World.Covers (w : World) (walls : Prop) (start : Nat) : Sid.Res.Method → Nat → Prop
  | .immDesc, x => (start, x) ∈ w.att ∧ (walls → w.enterable x)
  | .dfs, x => w.Under (fun y => walls → w.enterable y) start x ∧ (walls → w.enterable x)
  | .wideDfs, x => w.Under (fun y => walls → w.enterable y) start x ∧ (walls → w.enterable x)
  | .immAnc, x => w.up start = some x ∧ (walls → w.leavable start)
  | .anc, x => w.Over (fun y => walls → w.leavable y) start x
  | .top, x => (x = start ∨ w.Over (fun y => walls → w.leavable y) start x) ∧ w.up x = none
  | .genus, x => ∃ t, ((t = start ∨ w.Over (fun y => walls → w.leavable y) start t) ∧ w.up t = none) ∧
      w.Under (fun y => walls → w.enterable y) t x ∧ (walls → w.enterable x)
  | .sib, x => ∃ p, w.up start = some p ∧ (walls → w.leavable start) ∧ (p, x) ∈ w.att ∧
      (walls → x ≠ start ∧ w.enterable x)

/-- no resource that must not be entered has children -/
def World.Closed (w : World) : Prop := ∀ p c, (p, c) ∈ w.att → ¬ w.enterable p → w.up p = none

/-! ### iterating -/

/-- all that an iterator returns from now on, until it returns NULL; at most `fuel` calls are made -/
def nextAll (h : Nat → Option Sid.Res.Node) (children : List Nat) : Nat → Sid.Res.Iter → Option (List Nat)
  | 0, _ => none
  | fuel + 1, it =>
    match Sid.Res.iterNext h children (children.length + 1) it with
    | none => none
    | some (_, none) => some []
    | some (it', some c) => (nextAll h children fuel it').map (c :: ·)

/-- the same, going backwards -/
def prevAll (h : Nat → Option Sid.Res.Node) (children : List Nat) : Nat → Sid.Res.Iter → Option (List Nat)
  | 0, _ => none
  | fuel + 1, it =>
    match Sid.Res.iterPrev h children (children.length + 1) it with
    | none => none
    | some (_, none) => some []
    | some (it', some c) => (prevAll h children fuel it').map (c :: ·)

/-- shown by iterators -/
def World.shown (w : World) (c : Nat) : Bool := match w.obj c with | none => false | some o => !o.attr.noDown

end Sid.Spec.Res
