import Verif.Model.Str
/-
Model of the string utilities, /repo/src/internal/util.c:102-514, /repo/src/include/internal/util.h:71-100.

Simplifications: malloc succeeds; a C string is the list of its bytes without the NUL, given by the caller (`none`: NULL); upper and
lower case are those of ASCII ("C" locale).  Memory the code writes to is modelled where something can go wrong with it: the vector of
strings (slots and packed characters), the string read behind its end.
-/
namespace Sid.UStr
open Sid (Str)

/-- util.h:71 `UTIL_STR_DEFAULT_DELIMS` -/
def defDelims : Str := [32, 9, 13, 10, 11, 12]

/-- util.h:72 `UTIL_STR_DEFAULT_QUOTES` -/
def defQuotes : Str := [34, 39]

/-- util.c:317 is there no delimiter between a token and what follows (`strchr` finds the NUL, too) -/
def mergeNext (delims : Str) : Str → Bool
  | [] => false
  | c :: _ => !delims.contains c

theorem length_drop_le {p : UInt8 → Bool} : ∀ l : Str, (l.dropWhile p).length ≤ l.length
  | [] => Nat.le_refl _
  | c :: l => by
    rw [List.dropWhile_cons]; split
    · exact Nat.le_trans (length_drop_le l) (Nat.le_succ _)
    · exact Nat.le_refl _

/-- util.c:294-318 the loop of `util_str_iterate_tokens`: the tokens handed to the callback, each with `merge_back`; false if a quote
    is not closed.  The callback is taken to succeed; the token of 313 contains at least the character looked at in 299. -/
def tokens (delims quotes : Str) (s : Str) (mb : Bool) : List (Str × Bool) × Bool :=
  match h : s.dropWhile delims.contains with
  | [] => ([], true)
  | c :: t =>
    if quotes.contains c then
      match h2 : t.dropWhile (· ≠ c) with
      | [] => ([], false)
      | _ :: rest =>
        let r := tokens delims quotes rest (mergeNext delims rest)
        ((t.takeWhile (· ≠ c), mb) :: r.1, r.2)
    else
      let rest := t.dropWhile fun x => !(quotes ++ delims).contains x
      let r := tokens delims quotes rest (mergeNext delims rest)
      ((c :: t.takeWhile fun x => !(quotes ++ delims).contains x, mb) :: r.1, r.2)
termination_by s.length
decreasing_by
  all_goals
    have h1 := length_drop_le (p := delims.contains) s
    rw [h, List.length_cons] at h1
  · have h3 := length_drop_le (p := fun x => decide (x ≠ c)) t
    rw [h2, List.length_cons] at h3
    omega
  · have h3 := length_drop_le (p := fun x => !(quotes ++ delims).contains x) t
    omega

/-- util.c:271-321 `util_str_iterate_tokens` -/
def iterTokens (s : Option Str) (delims quotes : Option Str) : List (Str × Bool) × Bool :=
  match s with
  | none => ([], true)
  | some s => tokens (delims.getD []) (quotes.getD []) s false

/-- util.c:323-359 `util_str_comb_to_str`; `size`: of the caller's memory, `none`: allocated -/
def combToStr (size : Option Nat) (pre s suf : Option Str) : Option Str :=
  let l := pre.getD [] ++ s.getD [] ++ suf.getD []
  match size with
  | some n => if l.length + 1 > n then none else some l
  | none => some l

/-- util.c:366-375 `_count_token` over all tokens: tokens, characters -/
def countTokens (l : List (Str × Bool)) : Nat × Nat :=
  l.foldl (fun c t => (if t.2 then c.1 else c.1 + 1, c.2 + t.1.length)) (0, 0)

/-- util.c:377-381 `struct strv_iter`: the slots written so far, as offsets of strings in the area behind the vector (`i` is their
    number), what is written in the area so far (`s` points to its end) -/
structure Copier where
  ptrs : List Nat
  area : List UInt8
deriving DecidableEq, Repr

/-- util.c:383-402 `_copy_token_to_strv` -/
def copyToken (c : Copier) (t : Str × Bool) : Copier :=
  if t.2 && c.ptrs.length != 0 then { c with area := c.area.dropLast ++ t.1 ++ [0] }
  else ⟨c.ptrs ++ [c.area.length], c.area ++ t.1 ++ [0]⟩

/-- model only, for util.c:377-458: contents of a slot of a vector of strings; `junk`: what the memory held before -/
inductive Slot where
  | ptr (off : Nat)
  | null
  | junk
deriving DecidableEq, Repr

/-- model only, for util.c:377-458: a vector of strings in memory: its slots, the area behind them -/
structure Strv where
  slots : List Slot
  area : List UInt8
deriving DecidableEq, Repr

/-- util.c:404-408 `_get_strv_header_size` -/
def headerSize (tokens : Nat) : Nat := (tokens + 1) * 8

/-- util.c:410-418 `_get_strv_full_mem_size` -/
def fullSize (c : Nat × Nat) : Nat := headerSize c.1 + c.2 + c.1

/-- util.c:419-458 `util_str_comb_to_strv` -/
def combToStrv (size : Option Nat) (pre s suf : Option Str) (delims quotes : Option Str) : Option Strv :=
  let a := iterTokens pre delims quotes
  let b := iterTokens s delims quotes
  let c := iterTokens suf delims quotes
  if !(a.2 && b.2 && c.2) then none
  else
    let l := a.1 ++ b.1 ++ c.1
    let v := l.foldl copyToken ⟨[], []⟩
    let r : Strv := ⟨v.ptrs.map .ptr ++ [.null], v.area⟩
    match size with
    | some n => if fullSize (countTokens l) > n then none else some r
    | none => some r

/-- util.c:460-495 `util_strv_copy`: the slot behind the last string is not written -/
def strvCopy (size : Option Nat) (strv : List Str) : Option Strv :=
  let l := strv.map fun s => (s, false)
  let v := l.foldl copyToken ⟨[], []⟩
  let r : Strv := ⟨v.ptrs.map .ptr ++ [.junk], v.area⟩
  match size with
  | some n => if fullSize (countTokens l) > n then none else some r
  | none => some r

/-- model only, for util.c:419-495: the C string at an offset of memory, `none` if there is no end -/
def cstrAt (mem : List UInt8) (off : Nat) : Option Str :=
  if (0 : UInt8) ∈ mem.drop off then some ((mem.drop off).takeWhile (· ≠ 0)) else none

/-- model only, for util.c:419-495: how a vector of strings is read; `none`: undefined behaviour -/
def vread (area : List UInt8) : List Slot → Option (List Str)
  | .ptr o :: l =>
    match cstrAt area o, vread area l with
    | some s, some r => some (s :: r)
    | _, _ => none
  | .null :: _ => some []
  | _ => none

/-- model only, for util.c:419-495: as above -/
def Strv.strings (v : Strv) : Option (List Str) := vread v.area v.slots

/-- util.c:204-206 the loop of `util_str_rstr`: positions from `n` down to 1 -/
def rstrFrom (h n : Str) : Nat → Option Nat
  | 0 => none
  | p + 1 => if (h.drop (p + 1)).take n.length = n then some (p + 1) else rstrFrom h n p

/-- util.c:194-209 `util_str_rstr`: the position found -/
def rstr (h n : Str) : Option Nat :=
  if n.length > h.length then none else rstrFrom h n (h.length - n.length)

/-- used in util.c:211-244: `tolower` in the "C" locale -/
def lower (c : UInt8) : UInt8 := if 65 ≤ c && c ≤ 90 then c + 32 else c

/-- `strncmp(a, b, n) == 0`, `strncasecmp(a, b, n) == 0` where b has n characters -/
def sameN (ic : Bool) (a b : Str) : Bool :=
  if ic then (a.take b.length).map lower == b.map lower else a.take b.length == b

/-- used in util.c:194-244: `strstr`, `strcasestr`: the position found -/
def strstr (ic : Bool) (n : Str) : Str → Option Nat
  | [] => if sameN ic [] n then some 0 else none
  | c :: h => if sameN ic (c :: h) n then some 0 else (strstr ic n h).map (· + 1)

/-- util.c:211-244 `util_str_combstr`: the position returned -/
def combstr (h : Str) (pre needle suf : Option Str) (ic : Bool) : Option Nat :=
  let p := pre.getD []
  let n := needle.getD []
  let s := suf.getD []
  if p.length + n.length + s.length > h.length then none
  else
    let pm := p.length == 0 || sameN ic h p
    let sm := s.length == 0 || sameN ic (h.drop (h.length - s.length)) s
    match needle with
    | some n =>
      match strstr ic n (h.drop p.length) with
      | some i => if pm && sm then some (p.length + i) else none
      | none => none
    | none => if pm && sm then some 0 else none

/-- util.c:246-269 `util_str_copy_len`; `bufSize`: of the caller's buffer, `none`: allocated -/
def copyLen (s : Str) (len : Nat) (bufSize : Option Nat) : Option Str :=
  if len > 2147483647 then none
  else
    match bufSize with
    | some n => if n = 0 ∨ len > n - 1 then none else some (s.take len)
    | none => some (s.take len)

/-- util.c:497-514 `util_str_copy_substr`; the sum `offset + len` wraps -/
def copySubstr (size : Option Nat) (s : Str) (offset len : Nat) : Option Str :=
  if (offset + len) % 2 ^ 64 > s.length then none
  else
    match size with
    | none => some ((s.drop offset).take len)
    | some n => if len + 1 > n then none else some ((s.drop offset).take len)

/-- util.c:124-192: how `util_str_get_kv` ends -/
inductive Kv where
  | pair (key val : Str)
  | nodata
  | inval
deriving DecidableEq, Repr

/-- util.c:156-168, 185-187 a quoted value: `t` follows the quote -/
def kvQuoted (k : Str) (q : UInt8) (t : Str) : Kv :=
  match t.dropWhile (· ≠ q) with
  | [] => .inval
  | _ :: r => if r.dropWhile defDelims.contains = [] then .pair k (t.takeWhile (· ≠ q)) else .inval

/-- util.c:170-187 an unquoted value -/
def kvPlain (k : Str) (s : Str) : Kv :=
  let v := s.takeWhile fun c => !(defDelims ++ defQuotes).contains c
  match s.dropWhile fun c => !(defDelims ++ defQuotes).contains c with
  | [] => .pair k v
  | c :: r =>
    if defQuotes.contains c then .inval
    else if (c :: r).dropWhile defDelims.contains = [] then .pair k v else .inval

/-- util.c:153-187 the value; `none`: `strchr` of 156 finds the NUL of an empty value, the value is then looked for behind the end -/
def kvValue (k : Str) (s : Str) : Option Kv :=
  match s.dropWhile defDelims.contains with
  | [] => none
  | c :: t => if defQuotes.contains c then some (kvQuoted k c t) else some (kvPlain k (c :: t))

/-- util.c:124-192 `util_str_get_kv`; `none` is undefined behaviour -/
def getKv (s : Option Str) : Option Kv :=
  match s with
  | none => some .nodata
  | some s =>
    match s.dropWhile defDelims.contains with
    | [] => some .nodata
    | c :: t =>
      if c = 61 then some .inval
      else
        let k := (c :: t).takeWhile fun x => !(defDelims ++ [61]).contains x
        match ((c :: t).dropWhile fun x => !(defDelims ++ [61]).contains x).dropWhile defDelims.contains with
        | [] => some .inval
        | e :: r => if e = 61 then kvValue k r else some .inval

end Sid.UStr
