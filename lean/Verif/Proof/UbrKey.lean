import Verif.Spec.UbrKey
namespace Sid.Ubr
open Sid.Spec.UbrKey

theorem cut_append (a b : Str) (h : join ∉ a) : cut (a ++ join :: b) = some (a, b) := by
  induction a with
  | nil => simp [cut]
  | cons c a ih =>
    have hc : c ≠ join := fun e => h (by simp [e])
    have ha : join ∉ a := fun e => h (by simp [e])
    simp [cut, hc, ih ha]

theorem cut_none (a : Str) (h : join ∉ a) : cut a = none := by
  induction a with
  | nil => rfl
  | cons c a ih =>
    have hc : c ≠ join := fun e => h (by simp [e])
    have ha : join ∉ a := fun e => h (by simp [e])
    simp [cut, hc, ih ha]

/-- seven parts put together -/
def glue (p0 p1 p2 p3 p4 p5 p6 : Str) : Str :=
  p0 ++ join :: (p1 ++ join :: (p2 ++ join :: (p3 ++ join :: (p4 ++ join :: (p5 ++ join :: p6)))))

theorem decompose_glue {p0 p1 p2 p3 p4 p5 : Str} (p6 : Str) (h0 : join ∉ p0) (h1 : join ∉ p1) (h2 : join ∉ p2)
    (h3 : join ∉ p3) (h4 : join ∉ p4) (h5 : join ∉ p5) :
    decomposeKey (glue p0 p1 p2 p3 p4 p5 p6) = [p0, p1, p2, p3, p4, p5, p6] := by
  simp [decomposeKey, glue, decomposeFrom, cut_append, h0, h1, h2, h3, h4, h5]

theorem part0 {p0 p1 p2 p3 p4 p5 : Str} (p6 : Str) (h0 : join ∉ p0) :
    getKeyPart (glue p0 p1 p2 p3 p4 p5 p6) 0 = some p0 := by
  simp [getKeyPart, glue, skipParts, cut_append, h0]

theorem part2 {p0 p1 p2 p3 p4 p5 : Str} (p6 : Str) (h0 : join ∉ p0) (h1 : join ∉ p1) (h2 : join ∉ p2) :
    getKeyPart (glue p0 p1 p2 p3 p4 p5 p6) 2 = some p2 := by
  simp [getKeyPart, glue, skipParts, cut_append, h0, h1, h2]

theorem part3 {p0 p1 p2 p3 p4 p5 : Str} (p6 : Str) (h0 : join ∉ p0) (h1 : join ∉ p1) (h2 : join ∉ p2)
    (h3 : join ∉ p3) : getKeyPart (glue p0 p1 p2 p3 p4 p5 p6) 3 = some p3 := by
  simp [getKeyPart, glue, skipParts, cut_append, h0, h1, h2, h3]

theorem part5 {p0 p1 p2 p3 p4 p5 : Str} (p6 : Str) (h0 : join ∉ p0) (h1 : join ∉ p1) (h2 : join ∉ p2)
    (h3 : join ∉ p3) (h4 : join ∉ p4) (h5 : join ∉ p5) : getKeyPart (glue p0 p1 p2 p3 p4 p5 p6) 5 = some p5 := by
  simp [getKeyPart, glue, skipParts, cut_append, h0, h1, h2, h3, h4, h5]

theorem part6 {p0 p1 p2 p3 p4 p5 : Str} (p6 : Str) (h0 : join ∉ p0) (h1 : join ∉ p1) (h2 : join ∉ p2)
    (h3 : join ∉ p3) (h4 : join ∉ p4) (h5 : join ∉ p5) : getKeyPart (glue p0 p1 p2 p3 p4 p5 p6) 6 = some p6 := by
  simp [getKeyPart, glue, skipParts, cut_append, h0, h1, h2, h3, h4, h5]

theorem glue_inj {p0 p1 p2 p3 p4 p5 p6 q0 q1 q2 q3 q4 q5 q6 : Str} (h0 : join ∉ p0) (h1 : join ∉ p1) (h2 : join ∉ p2)
    (h3 : join ∉ p3) (h4 : join ∉ p4) (h5 : join ∉ p5) (g0 : join ∉ q0) (g1 : join ∉ q1) (g2 : join ∉ q2)
    (g3 : join ∉ q3) (g4 : join ∉ q4) (g5 : join ∉ q5) (e : glue p0 p1 p2 p3 p4 p5 p6 = glue q0 q1 q2 q3 q4 q5 q6) :
    p0 = q0 ∧ p1 = q1 ∧ p2 = q2 ∧ p3 = q3 ∧ p4 = q4 ∧ p5 = q5 ∧ p6 = q6 := by
  have a := decompose_glue p6 h0 h1 h2 h3 h4 h5
  rw [e, decompose_glue q6 g0 g1 g2 g3 g4 g5] at a
  simp only [List.cons.injEq, and_true] at a
  obtain ⟨a0, a1, a2, a3, a4, a5, a6⟩ := a
  exact ⟨a0.symm, a1.symm, a2.symm, a3.symm, a4.symm, a5.symm, a6.symm⟩

theorem opPrefix_eq (o : KvOp) : opPrefix o = opLetter o := by cases o <;> rfl
theorem nsPrefix_eq (n : Ns) : nsPrefix n = nsLetter n := by cases n <;> rfl

theorem opLetter_plain (o : KvOp) : join ∉ opLetter o := by cases o <;> decide
theorem nsLetter_plain (n : Ns) : join ∉ nsLetter n := by cases n <;> decide

theorem opLetter_inj {a b : KvOp} (h : opLetter a = opLetter b) : a = b := by
  cases a <;> cases b <;> first | rfl | (revert h; decide)

theorem nsLetter_inj {a b : Ns} (h : nsLetter a = nsLetter b) : a = b := by
  cases a <;> cases b <;> first | rfl | (revert h; decide)

theorem text_plain {o : Option Str} (h : PlainOpt o) : join ∉ text o := by
  cases o with
  | none => simp [text]
  | some s => exact h s rfl

theorem compose_glue (s : KeySpec) :
    composeKey s = glue (s.extraOp.getD [32] ++ opLetter s.op) (text s.dom) (nsLetter s.ns) (text s.nsPart)
      (text s.idCat) (text s.ident) (text s.core) := by
  simp [composeKey, doComposeKey, glue, opPrefix_eq, nsPrefix_eq, orNull, text]
  rfl

theorem composePrefix_glue (s : KeySpec) :
    composeKeyPrefix s = glue (opLetter s.op) (text s.dom) (nsLetter s.ns) (text s.nsPart) (text s.idCat)
      (text s.ident) [] := by
  simp [composeKeyPrefix, doComposeKey, glue, opPrefix_eq, nsPrefix_eq, orNull, text]

/-- the mark as the store keeps it: a blank is skipped -/
def storedMark (o : Option Str) : Str := if o.getD [32] = [32] then [] else o.getD [32]

theorem canon_compose (s : KeySpec) (hm : Mark s.extraOp) :
    Kvs.canon (composeKey s) = glue (storedMark s.extraOp ++ opLetter s.op) (text s.dom) (nsLetter s.ns) (text s.nsPart)
      (text s.idCat) (text s.ident) (text s.core) := by
  rw [compose_glue]
  have hop : ∀ (o : KvOp) (x : Str), List.dropWhile Kvs.isSpace (opLetter o ++ join :: x) = opLetter o ++ join :: x := by
    intro o x
    cases o <;> simp [opLetter, join, List.dropWhile_cons, Kvs.isSpace] <;> decide
  rcases hm with e | e | e | e <;> rw [e] <;> simp only [storedMark, Option.getD_none, Option.getD_some, Kvs.canon, glue]
  · simp only [↓reduceIte, List.nil_append, List.append_assoc, List.cons_append, List.dropWhile_cons]
    rw [show Kvs.isSpace 32 = true by decide, if_pos rfl, hop]
  · simp only [↓reduceIte, List.nil_append, List.append_assoc, List.cons_append, List.dropWhile_cons]
    rw [show Kvs.isSpace 32 = true by decide, if_pos rfl, hop]
  · rw [if_neg (by decide)]
    simp only [List.append_assoc, List.cons_append, List.nil_append, List.dropWhile_cons]
    rw [show Kvs.isSpace 126 = false by decide, if_neg (by decide)]
  · rw [if_neg (by decide)]
    simp only [List.append_assoc, List.cons_append, List.nil_append, List.dropWhile_cons]
    rw [show Kvs.isSpace 62 = false by decide, if_neg (by decide)]

theorem storedMark_plain {o : Option Str} (hm : Mark o) (op : KvOp) : join ∉ storedMark o ++ opLetter op := by
  rcases hm with e | e | e | e <;> rw [e] <;> cases op <;> decide

theorem mark_plain {o : Option Str} (hm : Mark o) (op : KvOp) : join ∉ o.getD [32] ++ opLetter op := by
  rcases hm with e | e | e | e <;> rw [e] <;> cases op <;> decide

theorem storedMark_inj {a b : Option Str} {p q : KvOp} (ha : Mark a) (hb : Mark b)
    (e : storedMark a ++ opLetter p = storedMark b ++ opLetter q) : a.getD [32] = b.getD [32] ∧ p = q := by
  rcases ha with ea | ea | ea | ea <;> rcases hb with eb | eb | eb | eb <;> rw [ea, eb] at e ⊢ <;> cases p <;> cases q <;>
    first | exact ⟨rfl, rfl⟩ | exact absurd e (by decide)

end Sid.Ubr
