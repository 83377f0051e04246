import Verif.Proof.Listing
/-
C72: the listings of the commands, asked for in JSON, are JSON and say what there is.
-/
namespace Sid.Props
open Sid.Listing Sid.Fmt Sid.Spec.Json Sid.Spec.Fmt Sid.Spec.Listing
open Sid.Ifc (txt)

/-- C72: the version of the daemon. -/
theorem C72_version (p a i r : Nat) : Text (out .json (version p a i r))
    (.obj [(txt "SID_IFC_PROTOCOL", .num p), (txt "SID_MAJOR", .num a), (txt "SID_MINOR", .num i), (txt "SID_RELEASE", .num r)]) := by
  have := Good.doc 0 0 [([.fldUint 1 (txt "SID_IFC_PROTOCOL") p false], txt "SID_IFC_PROTOCOL", .num p),
    ([.fldUint 1 (txt "SID_MAJOR") a true], txt "SID_MAJOR", .num a), ([.fldUint 1 (txt "SID_MINOR") i true], txt "SID_MINOR", .num i),
    ([.fldUint 1 (txt "SID_RELEASE") r true], txt "SID_RELEASE", .num r)]
    (members_of (.fldUint _ _ _ (plain_of (by decide +kernel))) (by
      intro x hx
      simp only [List.mem_cons, List.not_mem_nil, or_false] at hx
      rcases hx with rfl | rfl | rfl <;> exact .fldUint _ _ _ (plain_of (by decide +kernel))))
  exact this

/-- C72: `sidctl version`: the versions of the tool and of the daemon, if the daemon answers, in one JSON text, which is put together
    from what the tool and what the daemon writes. -/
theorem C72_ctl_version (p a i r : Nat) (daemon : Option (Nat × Nat × Nat × Nat)) :
    Text (out .json (ctlVersion p a i r (daemon.map fun d => version d.1 d.2.1 d.2.2.1 d.2.2.2)))
      (.obj [(txt "SIDCTL_VERSION", .obj [(txt "SIDCTL_PROTOCOL", .num p), (txt "SIDCTL_MAJOR", .num a), (txt "SIDCTL_MINOR", .num i),
          (txt "SIDCTL_RELEASE", .num r)]),
        (txt "SID_VERSION", match daemon with
          | none => .obj []
          | some (p, a, i, r) => .obj [(txt "SID_IFC_PROTOCOL", .num p), (txt "SID_MAJOR", .num a), (txt "SID_MINOR", .num i),
            (txt "SID_RELEASE", .num r)])]) := by
  have h1 := Good.namedElm 0 0 0 false (plain_of (s := txt "SIDCTL_VERSION") (by decide +kernel))
    [([.fldUint 1 (txt "SIDCTL_PROTOCOL") p false], txt "SIDCTL_PROTOCOL", .num p),
    ([.fldUint 1 (txt "SIDCTL_MAJOR") a true], txt "SIDCTL_MAJOR", .num a),
    ([.fldUint 1 (txt "SIDCTL_MINOR") i true], txt "SIDCTL_MINOR", .num i),
    ([.fldUint 1 (txt "SIDCTL_RELEASE") r true], txt "SIDCTL_RELEASE", .num r)]
    (members_of (.fldUint _ _ _ (plain_of (by decide +kernel))) (by
      intro x hx
      simp only [List.mem_cons, List.not_mem_nil, or_false] at hx
      rcases hx with rfl | rfl | rfl <;> exact .fldUint _ _ _ (plain_of (by decide +kernel))))
  have key : ∀ ps : List (List Call × List UInt8 × J), (∀ i (h : i < ps.length), Good (i ≠ 0) ps[i].1 (some ps[i].2.1) ps[i].2.2) →
      Text (out .json (ctlVersion p a i r (some ([.docStart 0] ++ (ps.map (·.1)).flatten ++ [.docEnd 0]))))
      (.obj [(txt "SIDCTL_VERSION", .obj [(txt "SIDCTL_PROTOCOL", .num p), (txt "SIDCTL_MAJOR", .num a), (txt "SIDCTL_MINOR", .num i),
          (txt "SIDCTL_RELEASE", .num r)]), (txt "SID_VERSION", .obj (ps.map (·.2)))]) := by
    intro ps h
    have h2 := Good.namedDoc 0 0 0 true (plain_of (s := txt "SID_VERSION") (by decide +kernel)) ps h
    have h3 := Good.doc 0 0 _ (member_two h1 h2)
    simpa [ctlVersion] using h3
  cases daemon with
  | none => exact key [] (by simp)
  | some d =>
    obtain ⟨p', a', i', r'⟩ := d
    exact key [([.fldUint 1 (txt "SID_IFC_PROTOCOL") p' false], txt "SID_IFC_PROTOCOL", .num p'),
      ([.fldUint 1 (txt "SID_MAJOR") a' true], txt "SID_MAJOR", .num a'), ([.fldUint 1 (txt "SID_MINOR") i' true], txt "SID_MINOR", .num i'),
      ([.fldUint 1 (txt "SID_RELEASE") r' true], txt "SID_RELEASE", .num r')]
      (members_of (.fldUint _ _ _ (plain_of (by decide +kernel))) (by
        intro x hx
        simp only [List.mem_cons, List.not_mem_nil, or_false] at hx
        rcases hx with rfl | rfl | rfl <;> exact .fldUint _ _ _ (plain_of (by decide +kernel))))

/-- C72: statistics of the database. -/
theorem C72_dbstats (s : Stats) : Text (out .json (dbstats s))
    (.obj [(txt "KEYS_SIZE", .num s.keySize), (txt "VALUES_INTERNAL_SIZE", .num s.intSize),
      (txt "VALUES_INTERNAL_DATA_SIZE", .num s.intDataSize), (txt "VALUES_EXTERNAL_SIZE", .num s.extSize),
      (txt "VALUES_EXTERNAL_DATA_SIZE", .num s.extDataSize), (txt "METADATA_SIZE", .num s.metaSize),
      (txt "NR_KEY_VALUE_PAIRS", .num s.pairs)]) := by
  have := Good.doc 0 0 [([.fldUint 1 (txt "KEYS_SIZE") s.keySize false], txt "KEYS_SIZE", .num s.keySize),
    ([.fldUint 1 (txt "VALUES_INTERNAL_SIZE") s.intSize true], txt "VALUES_INTERNAL_SIZE", .num s.intSize),
    ([.fldUint 1 (txt "VALUES_INTERNAL_DATA_SIZE") s.intDataSize true], txt "VALUES_INTERNAL_DATA_SIZE", .num s.intDataSize),
    ([.fldUint 1 (txt "VALUES_EXTERNAL_SIZE") s.extSize true], txt "VALUES_EXTERNAL_SIZE", .num s.extSize),
    ([.fldUint 1 (txt "VALUES_EXTERNAL_DATA_SIZE") s.extDataSize true], txt "VALUES_EXTERNAL_DATA_SIZE", .num s.extDataSize),
    ([.fldUint 1 (txt "METADATA_SIZE") s.metaSize true], txt "METADATA_SIZE", .num s.metaSize),
    ([.fldUint 1 (txt "NR_KEY_VALUE_PAIRS") s.pairs true], txt "NR_KEY_VALUE_PAIRS", .num s.pairs)]
    (members_of (.fldUint _ _ _ (plain_of (by decide +kernel))) (by
      intro x hx
      simp only [List.mem_cons, List.not_mem_nil, or_false] at hx
      rcases hx with rfl | rfl | rfl | rfl | rfl | rfl <;> exact .fldUint _ _ _ (plain_of (by decide +kernel))))
  exact this

/-- C72: resources, whatever the trees of the main process and of the worker are: one text with both trees, put together from what the
    main process and what the worker writes. -/
theorem C72_resources (main worker : Node) (hm : PlainRes main) (hw : PlainRes worker) :
    Text (out .json (resources main worker)) (.obj [(txt "sidresources", .arr [resJ main, resJ worker])]) := by
  have h1 := Good.arr 1 1 false (plain_of (s := txt "sidresources") (by decide +kernel))
    [(treeWrite 2 false main, resJ main), (treeWrite 2 true worker, resJ worker)]
    (items_of (tree_good 2 false main hm) (by
      intro x hx
      rw [List.mem_singleton.mp hx]
      exact tree_good 2 true worker hw))
  have h2 := Good.elm 0 0 false _ (member_one h1)
  obtain ⟨b, hb, ht⟩ := part_text h2.1 h2.2
  have e : resources main worker = [.elmStart 0 false] ++ (List.map (·.1) [([.arrStart 1 (txt "sidresources") false] ++
      (List.map (·.1) [(treeWrite 2 false main, resJ main), (treeWrite 2 true worker, resJ worker)]).flatten ++ [.arrEnd 1],
      txt "sidresources", J.arr (List.map (·.2) [(treeWrite 2 false main, resJ main), (treeWrite 2 true worker, resJ worker)]))]).flatten ++
      [.elmEnd 0] := by simp [resources]
  rw [e, hb]
  simpa using ht

/-- C72: the dump of the database: one text with all records in order.  Missing: records with a vector that is not orderly (its first
    value is binary, or a later one is empty), for which this is false (`C72_counterexample_binary`, `C72_counterexample_empty`), and text
    with quotation marks or backslashes (`C52_counterexample_quote`). -/
theorem C72_dump_partial (recs : List Rec) (js : List J) (hl : recs.length = js.length)
    (h : ∀ i (hi : i < recs.length), RecJ i recs[i] js[i]) :
    Text (out .json (dump recs)) (.obj [(txt "siddb", .arr js)]) := by
  have h1 := mapIdx_good (recs.zip js) (fun i x => recCalls i x.1) (·.2) 1 1 false (plain_of (s := txt "siddb") (by decide +kernel)) (by
    intro i hi
    have hi' : i < recs.length := by simp at hi; omega
    simp only [List.getElem_zip]
    exact rec_good i (h i hi'))
  have e1 : (recs.zip js).mapIdx (fun i x => recCalls i x.1) = recs.mapIdx recCalls := by
    apply List.ext_getElem
    · simp [hl]
    · intros; simp
  have e2 : (recs.zip js).map (·.2) = js := by
    apply List.ext_getElem
    · simp [hl]
    · intros; simp
  rw [e1, e2] at h1
  have h2 := Good.doc 0 0 _ (member_one h1)
  simpa [dump] using h2

/-- C72: the devices: one text with all devices in order and the fields made from their records.  Missing: listings whose first record
    is the readiness or reservation state, for which this is false (`C72_counterexample_first`); vectors that are not orderly and text
    that is not plain, as in the dump; devices with identifiers of more than 36 characters are left out (`C72_long_identifier`). -/
theorem C72_devices_partial (ds : List Dev) (h : ∀ d ∈ ds, d.Good) (hd : (ds.map (·.devid)).Pairwise (· ≠ ·))
    (hf : ∀ r, (ds.flatMap (·.recs)).head? = some r → r.name ≠ txt "#RDY" ∧ r.name ≠ txt "#RES") :
    ∃ calls, devices (ds.flatMap fun d => d.recs.map fun r => (r.key, r.val)) = some calls ∧
      Text (out .json calls) (.obj [(txt "siddevices", .arr (ds.map Dev.json))]) := by
  have key : ∃ ps : List (List Call × J), devLoop [] false (ds.flatMap Listing.Dev.raw) = some (ps.map (·.1)).flatten ∧
      ps.map (·.2) = ds.map Dev.json ∧ ∀ i (hi : i < ps.length), Good (i ≠ 0) ps[i].1 none ps[i].2 := by
    cases ds with
    | nil => exact ⟨[], rfl, rfl, by simp⟩
    | cons d ds =>
      have hg := h d (List.mem_cons_self ..)
      rw [List.map_cons] at hd
      obtain ⟨ps, h1, h2, h3⟩ := devs_loop ds d.devid hg.1.1 (fun x hx => h x (List.mem_cons_of_mem _ hx)) hd
      obtain ⟨calls, g1, g2⟩ := dev_loop hg [] hg.1.1.symm false (.inr fun r rs e => hf r (by simp [e]))
      refine ⟨(calls ++ [.elmEnd 2], d.json) :: ps, ?_, by simp [h2], items_of g1 h3⟩
      rw [List.flatMap_cons, g2, h1]
      simp
  obtain ⟨ps, h1, h2, h3⟩ := key
  refine ⟨[.docStart 0, .arrStart 1 (txt "siddevices") false] ++ (ps.map (·.1)).flatten ++ [.arrEnd 1, .docEnd 0], ?_, ?_⟩
  · rw [devices]
    show Option.map _ (devLoop [] false (ds.flatMap Listing.Dev.raw)) = _
    rw [h1]; rfl
  · have g1 := Good.arr 1 1 false (plain_of (s := txt "siddevices") (by decide +kernel)) ps h3
    rw [h2] at g1
    have g2 := Good.doc 0 0 _ (member_one g1)
    simpa using g2

/-! ### cases -/

/-- a small tree -/
def sampleTree : Node :=
  .mk (txt "main") (some (txt "sid")) [⟨txt "timer", 1, 0⟩, ⟨txt "signal", 2, 7⟩] 10 0 (-5) 1
    [.mk (txt "a") none [] 10 3 0 1 [], .mk (txt "b") (some (txt "worker")) [] 11 0 1 2 []]

theorem sampleTree_plain : PlainRes sampleTree := by
  simp only [sampleTree, PlainRes, PlainKids]
  refine ⟨plain_of (by decide +kernel), ?_, ?_, ⟨plain_of (by decide +kernel), by simp, by simp, trivial⟩,
    ⟨plain_of (by decide +kernel), ?_, by simp, trivial⟩, trivial⟩
  · rintro _ ⟨⟩; exact plain_of (by decide +kernel)
  · intro e he
    simp only [List.mem_cons, List.not_mem_nil, or_false] at he
    rcases he with rfl | rfl <;> exact plain_of (by decide +kernel)
  · rintro _ ⟨⟩; exact plain_of (by decide +kernel)

example : Text (out .json (resources sampleTree sampleTree)) (.obj [(txt "sidresources", .arr [resJ sampleTree, resJ sampleTree])]) :=
  C72_resources _ _ sampleTree_plain sampleTree_plain

/-- a value that is a text -/
theorem clean_lit {v s : List UInt8} (h : v = s ++ [0]) (hs : (s.all fun c => 32 ≤ c && c ≤ 126 && c != 34 && c != 92) = true)
    (hl : v.length < 2 ^ 63) : IsText v s ∧ Clean v ∧ Shown v s := by
  have key : ∀ c ∈ s, 32 ≤ c ∧ c ≤ 126 ∧ c ≠ 34 ∧ c ≠ 92 := by
    intro c hc
    have := List.all_eq_true.mp hs c hc
    simpa [and_assoc] using this
  have ht : IsText v s := ⟨h, fun c hc => ⟨(key c hc).1, (key c hc).2.1⟩⟩
  refine ⟨ht, ⟨hl, ?_⟩, .text ht⟩
  intro s' h'
  have : s' = s := by
    have := h'.1.symm.trans h
    simpa using this
  subst this
  exact ⟨fun hc => (key _ hc).2.2.1 rfl, fun hc => (key _ hc).2.2.2 rfl⟩

/-- a record with a vector of two texts -/
def sampleRec : Rec := ⟨txt "::D:id:::#GIN", 1, 2, 6, txt "/", .vec [txt "x" ++ [0], txt "y z" ++ [0]]⟩

theorem sampleVal : ValJ (.vec [txt "x" ++ [0], txt "y z" ++ [0]]) (.arr [.str (txt "x"), .str (txt "y z")]) := by
  obtain ⟨a1, a2, a3⟩ := clean_lit (v := txt "x" ++ [0]) (s := txt "x") rfl (by decide +kernel) (by decide +kernel)
  obtain ⟨b1, b2, b3⟩ := clean_lit (v := txt "y z" ++ [0]) (s := txt "y z") rfl (by decide +kernel) (by decide +kernel)
  refine ValJ.vec (l := [(txt "x" ++ [0], txt "x"), (txt "y z" ++ [0], txt "y z")]) ⟨.inr ⟨_, a1⟩, by simp⟩ ?_
  intro x hx
  simp only [List.mem_cons, List.not_mem_nil, or_false] at hx
  rcases hx with rfl | rfl
  · exact ⟨a2, a3⟩
  · exact ⟨b2, b3⟩

example : Text (out .json (dump [sampleRec])) (.obj [(txt "siddb", .arr [.obj [(txt "RECORD", .num 0), (txt "key", .str (txt "::D:id:::#GIN")),
    (txt "gennum", .num 1), (txt "seqnum", .num 2), (txt "flags", flagsJ 6), (txt "owner", .str (txt "/")),
    (txt "values", .arr [.str (txt "x"), .str (txt "y z")])]])]) := by
  refine C72_dump_partial [sampleRec] [_] rfl ?_
  intro i hi
  match i, hi with
  | 0, _ => exact RecJ.mk (r := sampleRec) (plain_of (by decide +kernel)) (plain_of (by decide +kernel)) sampleVal

example : flagsJ 6 = .arr [.str (txt "SC"), .str (txt "PS")] := rfl

/-- a device with groups and readiness -/
def sampleDev : Dev where
  devid := txt "id"
  recs := [⟨txt "::D:id:::#GIN", .vec [txt "x" ++ [0], txt "y z" ++ [0]], txt "#GIN", [(txt "#GIN", .arr [.str (txt "x"), .str (txt "y z")])]⟩,
    ⟨txt "::D:id:::#RDY", .one [8, 0, 0, 0], txt "#RDY", [(txt "#RDY", .str (txt "RDY_PUBLIC"))]⟩]

theorem sampleDev_good : sampleDev.Good := by
  refine ⟨⟨by decide +kernel, by decide +kernel, by decide +kernel, plain_of (by decide +kernel)⟩, nofun, ?_⟩
  intro r hr
  simp only [sampleDev, List.mem_cons, List.not_mem_nil, or_false] at hr
  rcases hr with rfl | rfl
  · exact ⟨⟨[], [], by simp, by simp, by decide +kernel⟩, .groups sampleVal⟩
  · exact ⟨⟨[], [], by simp, by simp, by decide +kernel⟩, .ready (by decide +kernel)⟩

example : ∃ calls, devices [(txt "::D:id:::#GIN", .vec [txt "x" ++ [0], txt "y z" ++ [0]]), (txt "::D:id:::#RDY", .one [8, 0, 0, 0])] = some calls ∧
    Text (out .json calls) (.obj [(txt "siddevices", .arr [.obj [(txt "DEVID", .str (txt "id")),
      (txt "#GIN", .arr [.str (txt "x"), .str (txt "y z")]), (txt "#RDY", .str (txt "RDY_PUBLIC"))]])]) := by
  have := C72_devices_partial [sampleDev] (by simpa using sampleDev_good) (by simp) (by
    intro r hr
    have : r = ⟨txt "::D:id:::#GIN", .vec [txt "x" ++ [0], txt "y z" ++ [0]], txt "#GIN", [(txt "#GIN", .arr [.str (txt "x"), .str (txt "y z")])]⟩ :=
      (Option.some.inj hr).symm
    subst this
    exact ⟨by decide +kernel, by decide +kernel⟩)
  exact this

/-! ### where it fails -/

/-- a record whose value is a vector of one binary value -/
def binRec : Rec := ⟨txt "k", 1, 2, 0, txt "/", .vec [[1, 2]]⟩

/-- C72 fails: with a vector beginning with a binary value the dump is no JSON (a comma before the first item). -/
theorem C72_counterexample_binary : ¬ ∃ j, Text (out .json (dump [binRec])) j := not_text (by decide +kernel)

/-- a record whose value is a vector of a text and an empty value -/
def emptyRec : Rec := ⟨txt "k", 1, 2, 0, txt "/", .vec [[120, 0], []]⟩

/-- C72 fails: with an empty value behind another one the dump is no JSON (no comma between them). -/
theorem C72_counterexample_empty : ¬ ∃ j, Text (out .json (dump [emptyRec])) j := not_text (by decide +kernel)

/-- the calls for a device with a readiness state only -/
def firstReady : List Call := (devices [(txt "::D:id:::#RDY", .one [8, 0, 0, 0])]).getD []

/-- C72 fails: if the first record of the listing is the readiness state of a device, the listing is no JSON (no comma between the
    identifier and the state). -/
theorem C72_counterexample_first : (devices [(txt "::D:id:::#RDY", .one [8, 0, 0, 0])]).isSome ∧ ¬ ∃ j, Text (out .json firstReady) j :=
  ⟨by decide +kernel, not_text (by decide +kernel)⟩

/-- C72: a device with an identifier of more than 36 characters is not listed. -/
theorem C72_long_identifier (devid name : List UInt8) (key : List UInt8) (v : Val) (l : List (Str × Val)) (hk : DevKey key devid name)
    (hc : 58 ∉ devid) (hl : 36 < devid.length) : devices ((key, v) :: l) = devices l := by
  have : usable key = none := by
    obtain ⟨cat, ident, h1, h2, rfl⟩ := hk
    have e : txt "::D:" ++ devid ++ [58] ++ cat ++ [58] ++ ident ++ [58] ++ name = Ubr.glue [] [] (txt "D") devid cat ident name := by
      have : txt "::D:" = [58, 58, 68, 58] := by decide +kernel
      have h' : txt "D" = [68] := by decide +kernel
      rw [this, h']
      simp [Ubr.glue, Ubr.join]
    have hD : Ubr.join ∉ txt "D" := by decide +kernel
    rw [e, usable, Ubr.part3 name (by simp) (by simp) hD hc]
    have : UStr.copyLen devid devid.length (some 37) = none := by
      rw [UStr.copyLen]
      split
      · rfl
      · simp [hl]
    simp [this]
  rw [devices, devLoop, this]
  rfl

example : DevKey (txt "::D:0123456789012345678901234567890123456:::#RDY") (txt "0123456789012345678901234567890123456") (txt "#RDY") :=
  ⟨[], [], by simp, by simp, by decide +kernel⟩

end Sid.Props
