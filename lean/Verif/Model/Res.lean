import Verif.Model.Common
import Verif.Model.Str
/-
Model of /repo/src/resource/res.c: the tree of resources, reference counts, search, isolation, child iterators (event
counters are in Model/EvSrc.lean, service links in Model/SrvLnk.lean).

A resource is a number into a heap; a freed resource is `none` and touching it makes the whole operation `none`
(undefined behaviour).  Simplifications: allocation succeeds; the reference count does not wrap around (it is unsigned,
32 bits); `type->destroy` does not change the tree; events, logging and service links are left out here.  An initializer
(`type->init`) may do anything: creation is split into the part before it and the two possible parts after it.
-/
namespace Sid.Res

/-- src/resource/res.c:44-71 `struct sid_res`: `name` is `id` behind the type's short name (`sid_res_get_id`), the flags
    are those of src/include/resource/res.h:42-46, `loop`: has an event loop -/
structure Node where
  parent : Option Nat
  children : List Nat
  type : Nat
  name : Str
  noUp : Bool
  noDown : Bool
  noIso : Bool
  prio : Int
  refs : Nat
  loop : Bool
deriving Repr

/-- model only, for src/resource/res.c:42-71: the heap of resources; `log`: the resources destroyed so far, in order -/
structure St where
  heap : Nat → Option Node
  next : Nat
  log : List Nat

/-- model only, for src/resource/res.c:42-71: no resources yet -/
def init : St := ⟨fun _ => none, 0, []⟩

/-- model only, for src/resource/res.c:42-71: write resource `i` -/
def St.put (s : St) (i : Nat) (n : Option Node) : St := { s with heap := fun j => if j = i then n else s.heap j }

/-- src/resource/res.c:227-232 the new child goes before the first child of greater priority -/
def insPos (h : Nat → Option Node) (prio : Int) (c : Nat) : List Nat → Option (List Nat)
  | [] => some [c]
  | d :: l =>
    match h d with
    | none => none
    | some nd => if prio < nd.prio then some (c :: d :: l) else (insPos h prio c l).map (d :: ·)

/-- src/resource/res.c:221-236 `_add_res_to_parent_res` with a parent -/
def addToParent (s : St) (c p : Nat) : Option St :=
  match s.heap c with
  | none => none
  | some nc =>
    let s1 := s.put c (some { nc with parent := some p, refs := nc.refs + 1 })
    match s1.heap p with
    | none => none
    | some np => (insPos s1.heap nc.prio c np.children).map fun l => s1.put p (some { np with children := l })

/-- src/resource/res.c:238-245 `_remove_res_from_parent_res` -/
def removeFromParent (s : St) (c : Nat) : Option St :=
  match s.heap c with
  | none => none
  | some nc =>
    match nc.parent with
    | none => some s
    | some p =>
      match s.heap p with
      | none => none
      | some np =>
        let s1 := s.put p (some { np with children := np.children.erase c })
        match s1.heap c with
        | none => none
        | some nc => some (s1.put c (some { nc with parent := none, refs := nc.refs - 1 }))

/-- src/resource/res.c:247-260: what a resource is created with -/
structure Attr where
  type : Nat
  name : Str
  noUp : Bool
  noDown : Bool
  noIso : Bool
  prio : Int
  loop : Bool
deriving DecidableEq, Repr

/-- src/resource/res.c:255-316 `sid_res_create` up to the call of the initializer; the reference is the temporary one -/
def createBegin (s : St) (parent : Option Nat) (a : Attr) : Option St :=
  let s1 := { s.put s.next (some ⟨none, [], a.type, a.name, a.noUp, a.noDown, a.noIso, a.prio, 1, a.loop⟩) with
              next := s.next + 1 }
  match parent with
  | none => some s1
  | some p => addToParent s1 s.next p

/-- src/resource/res.c:318-324 the initializer succeeded -/
def createDone (s : St) (r : Nat) : Option St :=
  match s.heap r with
  | none => none
  | some n => some (s.put r (some { n with refs := n.refs - 1 }))

/-- src/resource/res.c:367-417 whether the resource is destroyed, or what is done instead; `none`: a reference is
    dropped and there are others -/
inductive Drop
  | destroy      -- 367-380
  | detach       -- 383-403
  | last         -- 409-410, the count becomes 0
  | keep         -- 409-410, the count does not become 0
deriving DecidableEq, Repr

/-- src/resource/res.c:367-412 -/
def dropKind (n : Node) (nested : Bool) : Drop :=
  if n.parent.isSome ∧ n.refs = 1 then .destroy
  else if n.parent = none ∧ n.refs = 0 then .destroy
  else if nested then .detach
  else if n.refs - 1 = 0 then .last
  else .keep

/-- src/resource/res.c:359-454 `_do_sid_res_unref`.  `fuel` bounds the depth of the recursion; `none` also stands for a
    recursion that does not end. -/
def unrefN : Nat → St → Nat → Bool → Option St
  | 0, _, _, _ => none
  | fuel + 1, s, r, nested =>
    match s.heap r with
    | none => none
    | some n =>
      let destroy (s : St) : Option St :=
        (n.children.reverse.foldlM (fun s c => unrefN fuel s c true) s).bind fun s =>
          (removeFromParent s r).map fun s => { s.put r none with log := s.log ++ [r] }
      match dropKind n nested with
      | .destroy => destroy s
      | .detach => removeFromParent s r
      | .last => destroy (s.put r (some { n with refs := n.refs - 1 }))
      | .keep => some (s.put r (some { n with refs := n.refs - 1 }))

/-- src/resource/res.c:456-459 `sid_res_unref` -/
def unref (s : St) (r : Nat) : Option St := unrefN (s.next + 1) s r false

/-- src/resource/res.c:325-357 the initializer failed -/
def createFail (s : St) (r : Nat) : Option St :=
  match s.heap r with
  | none => none
  | some n =>
    (n.children.reverse.foldlM (fun s c => unref s c) s).bind fun s =>
      (removeFromParent s r).map fun s => { s.put r none with log := s.log ++ [r] }

/-- src/resource/res.c:471-477 `sid_res_ref` -/
def addRef (s : St) (r : Nat) : Option St :=
  match s.heap r with
  | none => none
  | some n => some (s.put r (some { n with refs := n.refs + 1 }))

/-- src/resource/res.c:497-518 `sid_res_set_prio` -/
def setPrio (s : St) (r : Nat) (prio : Int) : Option St :=
  match s.heap r with
  | none => none
  | some n =>
    if prio = n.prio then some s
    else
      match n.parent with
      | none => some s
      | some p =>
        (removeFromParent s r).bind fun s =>
          match s.heap r with
          | none => none
          | some n => addToParent (s.put r (some { n with prio })) r p

/-- src/resource/res.c:1190-1206 `sid_res_add_child` -/
def addChild (s : St) (p c : Nat) (noUp noDown noIso : Bool) : Option (St × Except Errno Unit) :=
  match s.heap c with
  | none => none
  | some n =>
    if n.parent.isSome then some (s, .error .EBUSY)
    else (addToParent (s.put c (some { n with noUp, noDown, noIso })) c p).map fun s => (s, .ok ())

/-- src/resource/res.c:1225-1251 `sid_res_isolate` -/
def isolate (s : St) (r : Nat) (subtree : Bool) : Option (St × Except Errno Unit) :=
  match s.heap r with
  | none => none
  | some n =>
    match n.parent with
    | none => some (s, .error .EPERM)
    | some p =>
      if n.loop || n.noIso then some (s, .error .EPERM)
      else if subtree then (removeFromParent s r).map fun s => (s, .ok ())
      else
        (n.children.foldlM (fun s c => (removeFromParent s c).bind fun s => addToParent s c p) s).bind fun s =>
          (removeFromParent s r).map fun s => (s, .ok ())

/-! ### searching -/

/-- src/resource/res.c:1024-1028 `_res_match` without `match_res`: `type` and `id` only if given -/
def nodeMatch (type : Option Nat) (id : Option Str) (n : Node) : Bool :=
  (match type with | none => true | some t => n.type == t) && (match id with | none => true | some i => n.name == i)

/-- `match_res` (src/resource/res.c:1022, 1146-1160): not given, any resource, this resource -/
inductive Match
  | no
  | any
  | this (r : Nat)
deriving DecidableEq, Repr

/-- src/resource/res.c:1024-1028 `_res_match` -/
def resMatch (type : Option Nat) (id : Option Str) (m : Match) (r : Nat) (n : Node) : Bool :=
  nodeMatch type id n && (match m with | .no => true | .any => true | .this x => r == x)

/-- src/resource/res.c:1035-1038 `_can_walk_down` -/
def canDown (ign : Option Nat) (m : Match) (r : Nat) (n : Node) : Bool := m ≠ .no || (some r ≠ ign && !n.noDown)

/-- src/resource/res.c:1040-1043 `_can_walk_up` (`ign_res` is always NULL) -/
def canUp (m : Match) (n : Node) : Bool := m ≠ .no || (n.parent.isSome && !n.noUp)

/-- src/include/resource/res.h:104-128 -/
inductive Method
  | immDesc | dfs | wideDfs | immAnc | anc | top | genus | sib
deriving DecidableEq, Repr

/-- src/resource/res.c:1045-1075: try a list of places in order until a search succeeds; outer `none` is undefined behaviour -/
def firstOf (f : Nat → Option (Option Nat)) : List Nat → Option (Option Nat)
  | [] => some none
  | c :: l =>
    match f c with
    | none => none
    | some (some x) => some (some x)
    | some none => firstOf f l

/-- src/resource/res.c:1054-1064, body of the first loop of `_search_down`; `deeper` is the recursive call -/
def visit (type : Option Nat) (id : Option Str) (m : Match) (dfs : Bool) (h : Nat → Option Node) (ign : Option Nat)
    (deeper : Nat → Option (Option Nat)) (c : Nat) : Option (Option Nat) :=
  match h c with
  | none => none
  | some nc =>
    if !canDown ign m c nc then some none
    else if resMatch type id m c nc then some (some c)
    else if dfs then deeper c
    else some none

/-- src/resource/res.c:1077-1110: go on with `b` if `a` found nothing -/
def orElse (a b : Option (Option Nat)) : Option (Option Nat) :=
  match a with
  | some none => b
  | x => x

/-- src/resource/res.c:1045-1075 `_search_down` (methods IMM_DESC, DFS and WIDE_DFS); `fuel` as above -/
def searchDown (type : Option Nat) (id : Option Str) (m : Match) (method : Method) :
    Nat → (Nat → Option Node) → Option Nat → Nat → Option (Option Nat)
  | 0, _, _, _ => none
  | fuel + 1, h, ign, r =>
    match h r with
    | none => none
    | some n =>
      orElse (firstOf (visit type id m (method == .dfs) h ign fun c => searchDown type id m method fuel h none c) n.children)
        (if method == .wideDfs then firstOf (fun c => searchDown type id m method fuel h none c) n.children else some none)

/-- src/resource/res.c:1084-1086 IMM_ANC -/
def searchImmAnc (type : Option Nat) (id : Option Str) (m : Match) (h : Nat → Option Node) (r : Nat) : Option (Option Nat) :=
  match h r with
  | none => none
  | some n =>
    if canUp m n then
      match n.parent with
      | none => some none
      | some p =>
        match h p with
        | none => none
        | some np => some (if resMatch type id m p np then some p else none)
    else some none

/-- src/resource/res.c:1087-1094 ANC -/
def searchAnc (type : Option Nat) (id : Option Str) (m : Match) : Nat → (Nat → Option Node) → Nat → Option (Option Nat)
  | 0, _, _ => none
  | fuel + 1, h, r =>
    match h r with
    | none => none
    | some n =>
      if canUp m n then
        match n.parent with
        | none => some none
        | some p =>
          match h p with
          | none => none
          | some np => if resMatch type id m p np then some (some p) else searchAnc type id m fuel h p
      else some none

/-- src/resource/res.c:1095-1107 TOP -/
def searchTop (type : Option Nat) (id : Option Str) (m : Match) : Nat → (Nat → Option Node) → Nat → Option (Option Nat)
  | 0, _, _ => none
  | fuel + 1, h, r =>
    match h r with
    | none => none
    | some n =>
      match n.parent with
      | none => some (if resMatch type id m r n then some r else none)
      | some p => if canUp m n then searchTop type id m fuel h p else some none

/-- src/resource/res.c:1112-1149 `_search`, `_do_sid_res_search` -/
def search (s : St) (start : Nat) (method : Method) (type : Option Nat) (id : Option Str) (m : Match) : Option (Option Nat) :=
  match method with
  | .immDesc | .dfs | .wideDfs => searchDown type id m method (s.next + 1) s.heap none start
  | .immAnc => searchImmAnc type id m s.heap start
  | .anc => searchAnc type id m (s.next + 1) s.heap start
  | .top => searchTop type id m (s.next + 1) s.heap start
  | .genus =>
    match searchTop none none m (s.next + 1) s.heap start with
    | some (some t) => searchDown type id m .wideDfs (s.next + 1) s.heap none t
    | x => x
  | .sib =>
    match searchImmAnc none none m s.heap start with
    | some (some t) => searchDown type id m .immDesc (s.next + 1) s.heap (some start) t
    | x => x

/-! ### child iterators -/

/-- src/resource/res.c:73-79 `struct sid_res_iter`; `none` stands for the list head -/
structure Iter where
  res : Nat
  prev : Option Nat
  current : Option Nat
  next : Option Nat
deriving DecidableEq, Repr

/-- src/include/internal/list.h:18-21: `n` of a list element: what follows `c` in the ring -/
def succOf (l : List Nat) (c : Option Nat) : Option Nat :=
  match c with
  | none => l.head?
  | some c => ((l.dropWhile (· != c)).drop 1).head?

/-- src/include/internal/list.h:18-21: `p` of a list element -/
def predOf (l : List Nat) (c : Option Nat) : Option Nat := succOf l.reverse c

/-- src/resource/res.c:1312-1317 `sid_res_iter_reset`, and the fields set at 1265-1267 by `sid_res_iter_create` -/
def iterReset (children : List Nat) (res : Nat) : Iter := ⟨res, predOf children none, none, succOf children none⟩

/-- src/resource/res.c:1280-1294 `sid_res_iter_next`; `fuel` is the number of elements skipped at most -/
def iterNext (h : Nat → Option Node) (children : List Nat) : Nat → Iter → Option (Iter × Option Nat)
  | 0, _ => none
  | fuel + 1, it =>
    match it.next with
    | none => some (it, none)
    | some c =>
      let it := { it with current := some c, next := succOf children (some c) }
      match h c with
      | none => none
      | some n => if n.noDown then iterNext h children fuel it else some (it, some c)

/-- src/resource/res.c:1296-1310 `sid_res_iter_previous` -/
def iterPrev (h : Nat → Option Node) (children : List Nat) : Nat → Iter → Option (Iter × Option Nat)
  | 0, _ => none
  | fuel + 1, it =>
    match it.prev with
    | none => some (it, none)
    | some c =>
      let it := { it with current := some c, prev := predOf children (some c) }
      match h c with
      | none => none
      | some n => if n.noDown then iterPrev h children fuel it else some (it, some c)

/-! ### histories -/

/-- model only, for src/resource/res.c:247-476, 1192-1251: calls of the interface -/
inductive Op
  | create (parent : Option Nat) (a : Attr)
  | created (r : Nat)
  | failed (r : Nat)
  | ref (r : Nat)
  | unref (r : Nat)
  | setPrio (r : Nat) (prio : Int)
  | addChild (p c : Nat) (noUp noDown noIso : Bool)
  | isolate (r : Nat) (subtree : Bool)

/-- model only, for src/resource/res.c:247-476, 1192-1251: one call: the state after it and the error returned, if any -/
def step (s : St) : Op → Option (St × Except Errno Unit)
  | .create p a => (createBegin s p a).map (·, .ok ())
  | .created r => (createDone s r).map (·, .ok ())
  | .failed r => (createFail s r).map (·, .ok ())
  | .ref r => (addRef s r).map (·, .ok ())
  | .unref r => (unref s r).map (·, .ok ())
  | .setPrio r p => (setPrio s r p).map (·, .ok ())
  | .addChild p c u d i => addChild s p c u d i
  | .isolate r t => isolate s r t

/-- model only, for src/resource/res.c:247-476, 1192-1251: a history: the state after it and what each call returned -/
def run (s : St) : List Op → Option (St × List (Except Errno Unit))
  | [] => some (s, [])
  | op :: ops =>
    match step s op with
    | none => none
    | some (s', e) => (run s' ops).map fun r => (r.1, e :: r.2)

end Sid.Res
