import Verif.Proof.UbrKey
/-
C28 (database keys are uniquely decodable) and C29 (namespace isolation of module records).
-/
namespace Sid.Props
open Sid.Ubr Sid.Spec.UbrKey
open Sid.Ifc (txt)

/-- C28: taking a key apart gives the parts it was put together from (the name may contain separators). -/
theorem C28_decompose_compose (s : KeySpec) (h : PlainParts s) (hm : Mark s.extraOp) :
    decomposeKey (composeKey s) =
      [s.extraOp.getD [32] ++ opLetter s.op, text s.dom, nsLetter s.ns, text s.nsPart, text s.idCat, text s.ident,
        text s.core] ∧
    decomposeKey (composeKeyPrefix s) =
      [opLetter s.op, text s.dom, nsLetter s.ns, text s.nsPart, text s.idCat, text s.ident, []] := by
  obtain ⟨h1, h3, h4, h5⟩ := h
  rw [compose_glue, composePrefix_glue]
  exact ⟨decompose_glue _ (mark_plain hm _) (text_plain h1) (nsLetter_plain _) (text_plain h3) (text_plain h4)
      (text_plain h5),
    decompose_glue _ (opLetter_plain _) (text_plain h1) (nsLetter_plain _) (text_plain h3) (text_plain h4)
      (text_plain h5)⟩

/-- C28: from the key as it is stored, operation (if the key is not marked), namespace, its part, identifier and name are
    read back; likewise from the prefix of a key. -/
theorem C28_read_back (s : KeySpec) (h : PlainParts s) (hm : Mark s.extraOp) :
    nsFromKey (Kvs.canon (composeKey s)) = s.ns ∧
    nsPartFromKey (Kvs.canon (composeKey s)) = some (text s.nsPart) ∧
    idFromKey (Kvs.canon (composeKey s)) = some (text s.ident) ∧
    getKeyPart (Kvs.canon (composeKey s)) 6 = some (text s.core) ∧
    (s.extraOp = none ∨ s.extraOp = some [32] → opFromKey (Kvs.canon (composeKey s)) = s.op) ∧
    nsFromKey (composeKeyPrefix s) = s.ns ∧
    nsPartFromKey (composeKeyPrefix s) = some (text s.nsPart) ∧
    idFromKey (composeKeyPrefix s) = some (text s.ident) ∧
    opFromKey (composeKeyPrefix s) = s.op := by
  obtain ⟨h1, h3, h4, h5⟩ := h
  have hns : ∀ key p0 p1 p3 p4 p5 p6, join ∉ p0 → join ∉ p1 → key = glue p0 p1 (nsLetter s.ns) p3 p4 p5 p6 →
      nsFromKey key = s.ns := by
    intro key p0 p1 p3 p4 p5 p6 g0 g1 e
    rw [nsFromKey, e, part2 _ g0 g1 (nsLetter_plain _)]
    generalize s.ns = n
    cases n <;> rfl
  have hop : ∀ key p1 p2 p3 p4 p5 p6, key = glue (opLetter s.op) p1 p2 p3 p4 p5 p6 → opFromKey key = s.op := by
    intro key p1 p2 p3 p4 p5 p6 e
    rw [opFromKey, e, part0 _ (opLetter_plain _)]
    generalize s.op = o
    cases o <;> rfl
  rw [canon_compose s hm, composePrefix_glue]
  have g0 := storedMark_plain hm s.op
  refine ⟨hns _ _ _ _ _ _ _ g0 (text_plain h1) rfl,
    part3 _ g0 (text_plain h1) (nsLetter_plain _) (text_plain h3),
    part5 _ g0 (text_plain h1) (nsLetter_plain _) (text_plain h3) (text_plain h4) (text_plain h5),
    part6 _ g0 (text_plain h1) (nsLetter_plain _) (text_plain h3) (text_plain h4) (text_plain h5), ?_,
    hns _ _ _ _ _ _ _ (opLetter_plain _) (text_plain h1) rfl,
    part3 _ (opLetter_plain _) (text_plain h1) (nsLetter_plain _) (text_plain h3),
    part5 _ (opLetter_plain _) (text_plain h1) (nsLetter_plain _) (text_plain h3) (text_plain h4) (text_plain h5),
    hop _ _ _ _ _ _ _ rfl⟩
  intro e
  refine hop _ _ _ _ _ _ _ (congrArg (fun x => glue x _ _ _ _ _ _) ?_)
  rcases e with e | e <;> rw [e] <;> rfl

/-- C28: two records are kept under the same key only if all their parts agree. -/
theorem C28_unique (s t : KeySpec) (hs : PlainParts s) (ht : PlainParts t) (ms : Mark s.extraOp) (mt : Mark t.extraOp) :
    Kvs.canon (composeKey s) = Kvs.canon (composeKey t) ↔ parts s = parts t := by
  obtain ⟨h1, h3, h4, h5⟩ := hs
  obtain ⟨g1, g3, g4, g5⟩ := ht
  rw [canon_compose s ms, canon_compose t mt]
  constructor
  · intro e
    have a := glue_inj (storedMark_plain ms _) (text_plain h1) (nsLetter_plain _) (text_plain h3) (text_plain h4)
      (text_plain h5) (storedMark_plain mt _) (text_plain g1) (nsLetter_plain _) (text_plain g3) (text_plain g4)
      (text_plain g5) e
    obtain ⟨a0, a1, a2, a3, a4, a5, a6⟩ := a
    obtain ⟨b0, b1⟩ := storedMark_inj ms mt a0
    simp [parts, b0, b1, a1, nsLetter_inj a2, a3, a4, a5, a6]
  · intro e
    simp only [parts, Parts.mk.injEq] at e
    obtain ⟨e0, e1, e2, e3, e4, e5, e6, e7⟩ := e
    rw [e1, e2, e3, e4, e5, e6, e7]
    simp only [storedMark, e0]

/-- a key with all its parts, and one with a separator in its name -/
example : ∃ s : KeySpec, PlainParts s ∧ Mark s.extraOp ∧ s.core = some (txt "a:b") ∧ s.op = .plus ∧
    Kvs.canon (composeKey s) = txt "+:ALS:M:/type/dm:name:sda:a:b" := by
  refine ⟨⟨none, .plus, some (txt "ALS"), .module, some (txt "/type/dm"), some (txt "name"), some (txt "sda"),
    some (txt "a:b")⟩, ⟨?_, ?_, ?_, ?_⟩, Or.inl rfl, rfl, rfl, rfl⟩ <;>
  · intro x hx
    cases hx
    decide

/-! ### C29 -/

theorem set_stored (c : Ctx) (m : Str) (ns : Ns) (k : Str) :
    (composeKey (setSpec c m (domOf ns) ns k)).drop 1 = Kvs.canon (composeKey (setSpec c m (domOf ns) ns k)) := by
  rw [canon_compose _ (Or.inl rfl), compose_glue]
  rfl

theorem setSpec_plain {c : Ctx} {m : Str} (hm : Plain m) (hn : PlainOpt c.num) (hu : PlainOpt c.uid) (ns : Ns) (k : Str) :
    PlainParts (setSpec c m (domOf ns) ns k) := by
  have e : ∀ x, Plain x → PlainOpt (some x) := by
    intro x hx y hy
    cases hy
    exact hx
  have z : Plain ([] : Str) := by simp [Plain]
  have on : Plain (orNull c.num) := by
    rcases hc : c.num with _ | x
    · exact z
    · exact hn x hc
  have ou : Plain (orNull c.uid) := by
    rcases hc : c.uid with _ | x
    · exact z
    · exact hu x hc
  refine ⟨?_, e _ ?_, e _ ?_, e _ ?_⟩
  · intro x hx
    cases ns <;> simp only [setSpec, domOf] at hx <;> revert hx <;> simp [domUser] <;> intro hx <;> subst hx <;>
      exact (by decide)
  · cases ns
    · exact z
    · exact on
    · exact ou
    · exact hm
    · exact ou
    · exact z
  · cases ns <;> simp only [nsPrefix] <;> exact (by decide)
  · cases ns
    · exact z
    · exact z
    · exact z
    · exact z
    · exact hm
    · exact z

/-- C29: if two calls of modules set the same record, they used the same namespace and the same name; in a module's own
    namespace it was the same module, in a device's namespace the same device, in a module's namespace for a device the
    same module on the same device.  Guard: module names and device identifiers contain no ':' (see the
    counterexample). -/
theorem C29_isolation_partial (c₁ c₂ : Ctx) (m₁ m₂ : Str) (ns₁ ns₂ : Ns) (k₁ k₂ key : Str)
    (p₁ : Plain m₁) (p₂ : Plain m₂) (n₁ : PlainOpt c₁.num) (n₂ : PlainOpt c₂.num) (u₁ : PlainOpt c₁.uid)
    (u₂ : PlainOpt c₂.uid) (h₁ : setKey c₁ m₁ ns₁ k₁ = some key) (h₂ : setKey c₂ m₂ ns₂ k₂ = some key) :
    ns₁ = ns₂ ∧ k₁ = k₂ ∧
    (ns₁ = .module → m₁ = m₂) ∧
    (ns₁ = .device → text c₁.uid = text c₂.uid) ∧
    (ns₁ = .devmod → text c₁.uid = text c₂.uid ∧ m₁ = m₂) ∧
    (ns₁ = .udev → text c₁.num = text c₂.num) := by
  have e₁ : ∀ (c : Ctx) m ns k, setKey c m ns k = some key →
      Kvs.canon (composeKey (setSpec c m (domOf ns) ns k)) = key := by
    intro c m ns k h
    unfold setKey at h
    split at h
    · rw [← set_stored]
      simpa using h
    · cases h
  have a := e₁ _ _ _ _ h₁
  rw [← e₁ _ _ _ _ h₂,
    C28_unique _ _ (setSpec_plain p₁ n₁ u₁ ns₁ k₁) (setSpec_plain p₂ n₂ u₂ ns₂ k₂) (Or.inl rfl) (Or.inl rfl)] at a
  simp only [parts, Parts.mk.injEq] at a
  obtain ⟨-, -, -, a3, a4, -, a6, a7⟩ := a
  simp only [setSpec] at a3
  subst a3
  refine ⟨rfl, a7, ?_, ?_, ?_, ?_⟩ <;> rintro rfl
  · exact a4
  · exact a4
  · exact ⟨a4, a6⟩
  · exact a4

/-- C29: a module that gets what it set looks at the same record, and so does a module that asks for the record of another
    module on another device. -/
theorem C29_get_finds_set (c : Ctx) (m : Str) (ns : Ns) (k : Str) :
    getKey c m ns k none none 0 = setKey c m ns k ∧
    ∀ m' d', getKey c m ns k (some m') (some d') 0 = setKey { c with uid := some d' } m' ns k := by
  have e : ∀ (c' : Ctx) (m' : Str) (fm fd : Option Str),
      parts (getSpec c m (domOf ns) ns k fm fd 0) = parts (setSpec c' m' (domOf ns) ns k) →
      Kvs.canon (composeKey (getSpec c m (domOf ns) ns k fm fd 0)) = (composeKey (setSpec c' m' (domOf ns) ns k)).drop 1 := by
    intro c' m' fm fd h
    rw [set_stored, canon_compose _ (Or.inr (Or.inl rfl)), canon_compose _ (Or.inl rfl)]
    simp only [parts, Parts.mk.injEq] at h
    obtain ⟨h0, h1, h2, h3, h4, h5, h6, h7⟩ := h
    rw [h1, h2, h3, h4, h5, h6, h7]
    rfl
  constructor
  · unfold getKey setKey
    rw [e c m none none (by cases ns <;> rfl)]
  · intro m' d'
    unfold getKey setKey
    rw [e { c with uid := some d' } m' (some m') (some d') (by cases ns <;> rfl)]

/-- C29: what a module sets never is a record of the daemon itself, nor an archived value or an entry of the index of
    changed records, nor a record that is asked for as an archive. -/
theorem C29_apart_from_daemon_partial (c : Ctx) (m : Str) (ns : Ns) (k key : Str) (p : Plain m) (n : PlainOpt c.num)
    (u : PlainOpt c.uid) (h : setKey c m ns k = some key) :
    (∀ d : KeySpec, PlainParts d → Mark d.extraOp → DaemonKey d → Kvs.canon (composeKey d) ≠ key) ∧
    key.head? = some 58 ∧
    (∀ c' m' ns' k' fm fd, getKey c' m' ns' k' fm fd 1 ≠ some key) := by
  have hk : argsOk ns k = true ∧ Kvs.canon (composeKey (setSpec c m (domOf ns) ns k)) = key := by
    unfold setKey at h
    split at h
    · rw [← set_stored]
      exact ⟨by assumption, by simpa using h⟩
    · cases h
  obtain ⟨ha, hk⟩ := hk
  refine ⟨?_, ?_, ?_⟩
  · intro d hd hmd hD e
    rw [← hk, C28_unique _ _ hd (setSpec_plain p n u ns k) hmd (Or.inl rfl)] at e
    simp only [parts, Parts.mk.injEq] at e
    obtain ⟨-, -, e2, e3, -, -, -, e7⟩ := e
    simp only [setSpec] at e3
    rw [DaemonKey, e2, e7, e3] at hD
    simp only [argsOk, Bool.and_eq_true, bne_iff_ne, ne_eq] at ha
    rcases hD with hD | hD | ⟨hD, hu⟩ | hD
    · revert hD
      cases ns <;> simp only [setSpec, text] <;> decide
    · revert hD
      cases ns <;> simp only [setSpec, text] <;> decide
    · revert hD hu
      cases ns <;> simp [setSpec, domOf, text, domUser, txt]
    · exact ha.2 hD
  · rw [← hk, canon_compose _ (Or.inl rfl)]
    rfl
  · intro c' m' ns' k' fm fd e
    have e2 : key.head? = some 58 := by
      rw [← hk, canon_compose _ (Or.inl rfl)]
      rfl
    unfold getKey at e
    split at e
    · rw [canon_compose _ (Or.inr (Or.inr (Or.inl rfl)))] at e
      simp only [Option.some.injEq] at e
      rw [← e] at e2
      revert e2
      simp [glue, getSpec, storedMark, opArchive, opLetter, txt]
    · cases e

/-- C29 is false of names that contain the separator: module "/a:" setting "b" and module "/a" setting ":b" in their own
    namespaces write the same record. -/
theorem C29_counterexample :
    setKey {} (txt "/a:") .module (txt "b") = setKey {} (txt "/a") .module (txt ":b") ∧
    setKey {} (txt "/a:") .module (txt "b") ≠ none := by
  decide

/-- modules on devices: the guards hold and the calls are accepted -/
example : Plain (txt "/type/dm") ∧ PlainOpt (some (txt "5b0f-77")) ∧
    setKey { uid := some (txt "5b0f-77") } (txt "/type/dm") .devmod (txt "x:y") =
      some (txt ":USR:X:5b0f-77:M:/type/dm:x:y") := by
  refine ⟨by decide, ?_, by decide⟩
  intro x hx
  cases hx
  decide

/-- a record of the daemon itself -/
example : ∃ d : KeySpec, PlainParts d ∧ Mark d.extraOp ∧ DaemonKey d ∧
    Kvs.canon (composeKey d) = txt "::D:5b0f-77:::#RDY" := by
  refine ⟨{ ns := .device, nsPart := some (txt "5b0f-77"), core := some (txt "#RDY") }, ⟨?_, ?_, ?_, ?_⟩, Or.inl rfl, ?_,
    by decide⟩
  · intro x hx; cases hx
  · intro x hx; cases hx; decide
  · intro x hx; cases hx
  · intro x hx; cases hx
  · unfold DaemonKey; decide

end Sid.Props
