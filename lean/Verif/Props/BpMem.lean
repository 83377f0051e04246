import Verif.Proof.BpMemEnd
/-
C104: the tree under the databases holds exactly the memory its contents take, whichever allocations fail.
-/
namespace Sid.Props
open Sid.Bpt Sid.Spec.BpMem

/-- sizes of the structures on a 64-bit machine -/
def c104z : Sizes := ⟨16, 48, 24, 48, 8⟩

/-- Any calls on a new tree, any of their allocations failing: no call runs into undefined behaviour (a key used after it was freed, a
    node taken from an empty list), and what is allocated afterwards, and the size reported, are what the contents take, no more and no
    less. -/
theorem C104_exact {z order answers b m} (h : createMem z order answers = some (b, m)) (os : List Op) :
    ∃ rs b' m', runMem z b m os = some (rs, b', m') ∧ Exact z b' m' := by
  obtain ⟨h1, _⟩ := createMem_spec h
  obtain ⟨rs, b', m', g1, g2, _⟩ := runMem_spec os h1
  exact ⟨rs, b', m', g1, g2.exact⟩

/-- Every call does what it is made for, or, only if it adds a name and an allocation fails, reports a failure and changes nothing. -/
theorem C104_all_or_nothing {z order answers b m} (h : createMem z order answers = some (b, m)) (os : List Op) :
    ∃ rs b' m', runMem z b m os = some (rs, b', m') ∧ Each b os rs b' (false ∈ answers) := by
  obtain ⟨h1, _, h3⟩ := createMem_spec h
  obtain ⟨rs, b', m', g1, _, g3⟩ := runMem_spec os h1
  refine ⟨rs, b', m', g1, g3.weaken fun hh => ?_⟩
  exact Classical.byContradiction fun hn => hh (h3 hn)

theorem each_run {b os rs b' p} (h : Each b os rs b' p) (hp : ¬ p) : run b os = some b' := by
  induction h with
  | nil b _ => rfl
  | @did b o r b1 os rs b2 lack h1 _ ih =>
    have hs : step b o = some b1 := by
      cases o with
      | alias k a f =>
        have h1' : addAlias b k a f = some (r, b1) := h1
        simp only [step, h1', Option.map_some]
      | add s d n =>
        simp only [wanted] at h1
        obtain ⟨x, hx, e⟩ := Option.map_eq_some_iff.mp h1
        simp only [Prod.mk.injEq] at e
        rw [hx, e.2]
      | update s fn =>
        simp only [wanted] at h1
        obtain ⟨x, hx, e⟩ := Option.map_eq_some_iff.mp h1
        simp only [Prod.mk.injEq] at e
        rw [hx, e.2]
      | del s =>
        simp only [wanted] at h1
        obtain ⟨x, hx, e⟩ := Option.map_eq_some_iff.mp h1
        simp only [Prod.mk.injEq] at e
        rw [hx, e.2]
    simp only [run, hs]
    exact ih hp
  | lacked h1 _ _ _ => exact absurd h1 hp

/-- As long as no allocation fails, every call does what it is made for, and the tree is the one of C15 to C18 and C59. -/
theorem C104_enough {z order answers b m} (h : createMem z order answers = some (b, m)) (ha : false ∉ answers) (os : List Op) :
    ∃ rs b' m', runMem z b m os = some (rs, b', m') ∧ create order = some b ∧ run b os = some b' ∧ Each b os rs b' False := by
  obtain ⟨h1, h2, h3⟩ := createMem_spec h
  obtain ⟨rs, b', m', g1, _, g3⟩ := runMem_spec os h1
  have g4 : Each b os rs b' False := g3.weaken fun hn => hn (h3 ha)
  exact ⟨rs, b', m', g1, h2, each_run g4 id, g4⟩

/-- Destroying the tree after any calls frees everything, and the function given is told every name once, in order, with its data and the
    number of names left that refer to them: so it is told of the last one for each. -/
theorem C104_destroy {z order answers b m} (h : createMem z order answers = some (b, m)) (os : List Op) :
    ∃ rs b' m', runMem z b m os = some (rs, b', m') ∧ ∃ calls m'', destroyMem z b' m' = some (calls, m'') ∧ m''.blocks = 0 ∧
      (∀ k, m''.keys k = none) ∧ calls.map (fun c => (c.1, some c.2)) = told b'.recs (entries b') := by
  obtain ⟨h1, _⟩ := createMem_spec h
  obtain ⟨rs, b', m', g1, g2, _⟩ := runMem_spec os h1
  exact ⟨rs, b', m', g1, destroyMem_spec g2⟩

example : ∃ b m, createMem c104z 4 [true, true, false] = some (b, m) := ⟨_, _, rfl⟩

/-- an allocation that fails is reachable: memory for the key, none for its string, and the call can be made again -/
example : ∃ b m b' m', createMem c104z 4 [true, true, false] = some (b, m) ∧
    runMem c104z b m [.add [97] 1 10, .add [97] 1 10] = some ([-1, 0], b', m') := by
  obtain ⟨rs, b', m', h, _⟩ := C104_exact (z := c104z) (order := 4) (answers := [true, true, false]) rfl [.add [97] 1 10, .add [97] 1 10]
  refine ⟨_, _, b', m', rfl, ?_⟩
  rw [h]
  simp [runMem, stepMem, addMem, find, makeKey, malloc, mallocRec, insertMem, makeNode, refKey, setKey, insertRef, makeRec, refRec, setRec,
    Bpt.insert, freeN] at h
  rw [← h.1]

/-- and so is a record that cannot be made when a second name is added: memory for the first key, record and node, and for the second key,
    but none for the record -/
example : ∃ b m b' m', createMem c104z 4 [true, true, true, true, true, true, true, true, true, false] = some (b, m) ∧
    runMem c104z b m [.add [97] 1 10, .add [98] 2 20, .del [97]] = some ([0, -1, 0], b', m') := by
  obtain ⟨rs, b', m', h, _⟩ := C104_exact (z := c104z) (order := 4) (answers := [true, true, true, true, true, true, true, true, true, false]) rfl
    [.add [97] 1 10, .add [98] 2 20, .del [97]]
  refine ⟨_, _, b', m', rfl, ?_⟩
  rw [h]
  simp [runMem, stepMem, addMem, find, findLeaf, searchLeaf, List.findIdx?_cons, makeKey, malloc, mallocRec, insertMem, makeNode, refKey, setKey,
    insertRef, makeRec, refRec, setRec, Bpt.insert, freeN, destroyKey, delMem, deleteMem, delEvs, delEv, execs, exec, deleteEntry, deleteAt, removeFromLeaf,
    adjustRoot, unrefRec, List.idxOf?_cons, adjustEv, unrefKey, destroyNode, unrefRecMem, numKeys, freeRec] at h
  rw [← h.1]

/-- what is told of two names for one record, and of another -/
example : told (fun r => if r = 0 then some ⟨1, 10, 2⟩ else some ⟨2, 20, 1⟩) [([97], 0), ([98], 1), ([99], 0)] =
    [([97], some ⟨1, 10, 2⟩), ([98], some ⟨2, 20, 1⟩), ([99], some ⟨1, 10, 1⟩)] := by decide

end Sid.Props
