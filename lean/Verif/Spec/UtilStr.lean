/-
How lists of words, and a key with its value, are written as text.
-/
namespace Sid.Spec.UStr

/-- A part of a word as written: a bare character, or text in quotes. -/
inductive Piece where
  | bare (c : UInt8)
  | quoted (q : UInt8) (t : List UInt8)
deriving DecidableEq, Repr

/-- the characters of a piece on paper -/
def Piece.text : Piece → List UInt8
  | .bare c => [c]
  | .quoted q t => q :: (t ++ [q])

/-- what the piece stands for -/
def Piece.value : Piece → List UInt8
  | .bare c => [c]
  | .quoted _ t => t

/-- A bare character is no delimiter and no quote; quoted text does not contain its quote. -/
def Piece.Ok (delims quotes : List UInt8) : Piece → Prop
  | .bare c => c ∉ delims ∧ c ∉ quotes
  | .quoted q t => q ∈ quotes ∧ q ∉ delims ∧ q ∉ t

/-- nothing follows, or a delimiter -/
def Boundary (delims : List UInt8) : List UInt8 → Prop
  | [] => True
  | c :: _ => c ∈ delims

/-- `Written delims quotes text ws`: the text is a way of writing down the words `ws`, one after the other, separated by delimiters,
    each as a sequence of pieces. -/
inductive Written (delims quotes : List UInt8) : List UInt8 → List (List UInt8) → Prop
  | blank (l : List UInt8) : (∀ c ∈ l, c ∈ delims) → Written delims quotes l []
  | word (lead : List UInt8) (ps : List Piece) (rest : List UInt8) (ws : List (List UInt8)) :
      (∀ c ∈ lead, c ∈ delims) → ps ≠ [] → (∀ p ∈ ps, p.Ok delims quotes) → Boundary delims rest →
      Written delims quotes rest ws →
      Written delims quotes (lead ++ (ps.map Piece.text).flatten ++ rest) ((ps.map Piece.value).flatten :: ws)

/-- blanks -/
def Blank (l : List UInt8) : Prop := ∀ c ∈ l, c ∈ [32, 9, 13, 10, 11, 12]

/-- `KeyVal text key val`: the text is a key, an equals sign and a value, bare or in one of the two quotes, possibly with blanks
    before, between and after. -/
def KeyVal (text key val : List UInt8) : Prop :=
  ∃ s1 s2 s3 s4 v, Blank s1 ∧ Blank s2 ∧ Blank s3 ∧ Blank s4 ∧
    text = s1 ++ key ++ s2 ++ 61 :: (s3 ++ v ++ s4) ∧
    (key ≠ [] ∧ ∀ c ∈ key, c ∉ [32, 9, 13, 10, 11, 12] ∧ c ≠ 61) ∧
    ((v = val ∧ val ≠ [] ∧ ∀ c ∈ val, c ∉ [32, 9, 13, 10, 11, 12] ∧ c ∉ [34, 39]) ∨
     (∃ q ∈ ([34, 39] : List UInt8), v = q :: (val ++ [q]) ∧ q ∉ val))

/-- nothing but a key and an equals sign -/
def NoValue (text : List UInt8) : Prop :=
  ∃ s1 key s2 s3, Blank s1 ∧ Blank s2 ∧ Blank s3 ∧ text = s1 ++ key ++ s2 ++ 61 :: s3 ∧
    (key ≠ [] ∧ ∀ c ∈ key, c ∉ [32, 9, 13, 10, 11, 12] ∧ c ≠ 61)

/-- `a` without regard to upper and lower case -/
def lowered (a : List UInt8) : List UInt8 := a.map fun c => if 65 ≤ c ∧ c ≤ 90 then c + 32 else c

end Sid.Spec.UStr
