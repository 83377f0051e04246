/-
JSON (RFC 8259): which texts there are and what they say.  Strings are limited to those without escapes: text in the sense of the
property has none of the characters that would need one.  Numbers are limited to whole ones, without exponent; there is no null.
-/
namespace Sid.Spec.Json

/-- what a text says -/
inductive J where
  | str (s : List UInt8)
  | num (i : Int)
  | bool (b : Bool)
  | arr (l : List J)
  | obj (l : List (List UInt8 × J))

/-- RFC 8259 section 2: space, tab, line feed, carriage return -/
def IsWs (c : UInt8) : Prop := c = 32 ∨ c = 9 ∨ c = 10 ∨ c = 13

/-- white space -/
def Ws (w : List UInt8) : Prop := ∀ c ∈ w, IsWs c

/-- text that may stand between quotation marks as it is (section 7): no control characters, no quotation mark, no backslash -/
def Plain (s : List UInt8) : Prop := ∀ c ∈ s, 32 ≤ c ∧ c ≠ 34 ∧ c ≠ 92

/-- a string in its quotation marks -/
def quoted (s : List UInt8) : List UInt8 := [34] ++ s ++ [34]

/-- value of a sequence of decimal digits -/
def value (ds : List Nat) : Nat := ds.foldl (fun n d => 10 * n + d) 0

/-- decimal digits, without leading zeros -/
structure Digits (ds : List Nat) : Prop where
  small : ∀ d ∈ ds, d < 10
  nonempty : ds ≠ []
  noZero : ds.head? = some 0 → ds = [0]

/-- the characters of digits -/
def digitText (ds : List Nat) : List UInt8 := ds.map fun d => UInt8.ofNat (48 + d)

/-- a member of an object, with the white space around its name and the text of its value -/
structure Member where
  before : List UInt8
  name : List UInt8
  after : List UInt8
  text : List UInt8
  val : J

/-- the text of a member -/
def Member.all (m : Member) : List UInt8 := m.before ++ quoted m.name ++ m.after ++ [58] ++ m.text

/-- `Text b j`: the text `b` — with white space before and after — is JSON and says `j` (sections 2-7) -/
inductive Text : List UInt8 → J → Prop
  | str (w s w') : Ws w → Ws w' → Plain s → Text (w ++ quoted s ++ w') (.str s)
  | num (w ds w') : Ws w → Ws w' → Digits ds → Text (w ++ digitText ds ++ w') (.num (value ds))
  | neg (w ds w') : Ws w → Ws w' → Digits ds → Text (w ++ ([45] ++ digitText ds) ++ w') (.num (-(value ds : Int)))
  | isTrue (w w') : Ws w → Ws w' → Text (w ++ [116, 114, 117, 101] ++ w') (.bool true)
  | isFalse (w w') : Ws w → Ws w' → Text (w ++ [102, 97, 108, 115, 101] ++ w') (.bool false)
  | noItems (w u w') : Ws w → Ws u → Ws w' → Text (w ++ ([91] ++ u ++ [93]) ++ w') (.arr [])
  | items (w) (l : List (List UInt8 × J)) (w') : Ws w → Ws w' → l ≠ [] → (∀ x ∈ l, Text x.1 x.2) →
      Text (w ++ ([91] ++ List.intercalate [44] (l.map Prod.fst) ++ [93]) ++ w') (.arr (l.map Prod.snd))
  | noMembers (w u w') : Ws w → Ws u → Ws w' → Text (w ++ ([123] ++ u ++ [125]) ++ w') (.obj [])
  | members (w) (l : List Member) (w') : Ws w → Ws w' → l ≠ [] →
      (∀ m ∈ l, Ws m.before ∧ Ws m.after ∧ Plain m.name) → (∀ m ∈ l, Text m.text m.val) →
      Text (w ++ ([123] ++ List.intercalate [44] (l.map Member.all) ++ [125]) ++ w') (.obj (l.map fun m => (m.name, m.val)))

end Sid.Spec.Json
