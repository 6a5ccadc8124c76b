import Verif.Model.Decimal

/-!
# Model of `/repo/assert/difflib/difflib.go`: the diff an assertion shows when two values differ

Go `int`s are natural numbers here (all of them are indices; the subtractions of the code are never negative).  Maps are
functions.  `none` = a panic (an index out of range), or recursion that does not end with the fuel given.
-/

namespace Yarql
namespace Diff

/-- `match` (difflib.go:49-53) -/
structure Match where
  a : Nat
  b : Nat
  size : Nat
deriving DecidableEq, Repr

/-- the tags of `opCode` (difflib.go:55-61, 359-366): `'r'`, `'d'`, `'i'`, `'e'` -/
inductive Tag where
  | replace | delete | insert | equal
deriving DecidableEq, Repr

/-- `opCode` (difflib.go:55-61) -/
structure OpCode where
  tag : Tag
  i1 : Nat
  i2 : Nat
  j1 : Nat
  j2 : Nat
deriving DecidableEq, Repr

/-- `sequenceMatcher` (difflib.go:89-100) after `SetSeqs`: the two sequences, the index of the second and its junk.
Not modelled: the caches `matchingBlocks` and `opCodes` (every matcher is asked once), `fullBCount` (unused). -/
structure Matcher where
  a : List Bytes
  b : List Bytes
  b2j : Bytes → List Nat
  bJunk : Bytes → Bool

/-- the first loop of `chainB` (difflib.go:147-152): where a line occurs, ascending -/
def indicesFrom (s : Bytes) : List Bytes → Nat → List Nat
  | [], _ => []
  | x :: xs, i => if x = s then i :: indicesFrom s xs (i + 1) else indicesFrom s xs (i + 1)

/-- `popular` (difflib.go:169-181): of 200 lines or more, those that occur more often than in one of a hundred -/
def popular (b : List Bytes) (s : Bytes) : Bool := b.length ≥ 200 && (indicesFrom s b 0).length > b.length / 100 + 1

/-- `newMatcher` (difflib.go:102-106) with `SetSeq1`, `SetSeq2` (123-143; the comparisons of addresses are never true) and
`chainB` (145-184): `autoJunk` is set, `IsJunk` is nil -/
def newMatcher (a b : List Bytes) : Matcher :=
  ⟨a, b, fun s => if popular b s then [] else indicesFrom s b 0, fun _ => false⟩

/-- `j2len[j-1]` (difflib.go:245): `j - 1` may be -1, which is not in the map -/
def before (j2len : Nat → Nat) : Nat → Nat
  | 0 => 0
  | j + 1 => j2len j

/-- the inner loop of `findLongestMatch` (difflib.go:236-250): the indices of `a[i]` in `b`; the new map and the best match -/
def scanRow (blo bhi i : Nat) (j2len : Nat → Nat) : List Nat → (Nat → Nat) → Match → (Nat → Nat) × Match
  | [], new, best => (new, best)
  | j :: js, new, best =>
    if j < blo then scanRow blo bhi i j2len js new best
    else if j ≥ bhi then (new, best)
    else
      let k := before j2len j + 1
      scanRow blo bhi i j2len js (fun x => if x = j then k else new x)
        (if k > best.size then ⟨i + 1 - k, j + 1 - k, k⟩ else best)

/-- the outer loop (difflib.go:232-252), `n` more rounds; the condition `i != ahi` is `i < ahi`, as `alo ≤ ahi` in every call -/
def scan (m : Matcher) (blo bhi : Nat) : Nat → Nat → (Nat → Nat) → Match → Option Match
  | 0, _, _, best => some best
  | n + 1, i, j2len, best =>
    match m.a[i]? with
    | none => none
    | some x =>
      let r := scanRow blo bhi i j2len (m.b2j x) (fun _ => 0) best
      scan m blo bhi n (i + 1) r.1 r.2

/-- a loop that extends a match to the left (difflib.go:258-261, 275-278): `junk` tells which lines to take; `n` bounds the
number of rounds (`besti` does: it gets smaller) -/
def extendLeft (m : Matcher) (junk : Bool) (alo blo : Nat) : Nat → Match → Option Match
  | 0, best => some best
  | n + 1, best =>
    if best.a > alo ∧ best.b > blo then
      match m.b[best.b - 1]?, m.a[best.a - 1]? with
      | some y, some x =>
        if m.bJunk y = junk ∧ x = y then extendLeft m junk alo blo n ⟨best.a - 1, best.b - 1, best.size + 1⟩ else some best
      | _, _ => none
    else some best

/-- a loop that extends a match to the right (difflib.go:262-266, 279-283); `n` bounds the number of rounds (`ahi` does) -/
def extendRight (m : Matcher) (junk : Bool) (ahi bhi : Nat) : Nat → Match → Option Match
  | 0, best => some best
  | n + 1, best =>
    if best.a + best.size < ahi ∧ best.b + best.size < bhi then
      match m.b[best.b + best.size]?, m.a[best.a + best.size]? with
      | some y, some x =>
        if m.bJunk y = junk ∧ x = y then extendRight m junk ahi bhi n ⟨best.a, best.b, best.size + 1⟩ else some best
      | _, _ => none
    else some best

/-- `findLongestMatch` (difflib.go:215-286) -/
def findLongestMatch (m : Matcher) (alo ahi blo bhi : Nat) : Option Match := do
  let best ← scan m blo bhi (ahi - alo) alo (fun _ => 0) ⟨alo, blo, 0⟩
  let best ← extendLeft m false alo blo best.a best
  let best ← extendRight m false ahi bhi ahi best
  let best ← extendLeft m true alo blo best.a best
  extendRight m true ahi bhi ahi best

/-- `matchBlocks` in `GetMatchingBlocks` (difflib.go:304-318), without the list it appends to -/
def matchBlocks (m : Matcher) : Nat → Nat → Nat → Nat → Nat → Option (List Match)
  | 0, _, _, _, _ => none
  | fuel + 1, alo, ahi, blo, bhi =>
    (findLongestMatch m alo ahi blo bhi).bind fun x =>
      if x.size > 0 then
        (if alo < x.a ∧ blo < x.b then matchBlocks m fuel alo x.a blo x.b else some []).bind fun left =>
        (if x.a + x.size < ahi ∧ x.b + x.size < bhi then matchBlocks m fuel (x.a + x.size) ahi (x.b + x.size) bhi else some []).bind fun right =>
        some (left ++ x :: right)
      else some []

/-- the loop that joins adjacent blocks (difflib.go:323-345): `cur` is `i1, j1, k1` -/
def collapse : Match → List Match → List Match
  | cur, [] => if cur.size > 0 then [cur] else []
  | cur, x :: xs =>
    if cur.a + cur.size = x.a ∧ cur.b + cur.size = x.b then collapse ⟨cur.a, cur.b, cur.size + x.size⟩ xs
    else if cur.size > 0 then cur :: collapse x xs
    else collapse x xs

/-- `GetMatchingBlocks` (difflib.go:299-350); `fuel` bounds the depth of the recursion (the lines of `a` do) -/
def getMatchingBlocks (m : Matcher) (fuel : Nat) : Option (List Match) := do
  let matched ← matchBlocks m fuel 0 m.a.length 0 m.b.length
  return collapse ⟨0, 0, 0⟩ matched ++ [⟨m.a.length, m.b.length, 0⟩]

/-- the loop of `GetOpCodes` (difflib.go:374-398) -/
def opCodes : Nat → Nat → List Match → List OpCode
  | _, _, [] => []
  | i, j, x :: xs =>
    (if i < x.a ∧ j < x.b then [⟨.replace, i, x.a, j, x.b⟩]
      else if i < x.a then [⟨.delete, i, x.a, j, x.b⟩]
      else if j < x.b then [⟨.insert, i, x.a, j, x.b⟩]
      else []) ++
    (if x.size > 0 then [⟨.equal, x.a, x.a + x.size, x.b, x.b + x.size⟩] else []) ++
    opCodes (x.a + x.size) (x.b + x.size) xs

/-- `GetOpCodes` (difflib.go:367-401) -/
def getOpCodes (m : Matcher) (fuel : Nat) : Option (List OpCode) := (getMatchingBlocks m fuel).map (opCodes 0 0)

/-- the first fixup of `GetGroupedOpCodes` (difflib.go:416-420) -/
def fixFirst (n : Nat) : List OpCode → List OpCode
  | [] => []
  | c :: cs => (if c.tag = .equal then ⟨c.tag, max c.i1 (c.i2 - n), c.i2, max c.j1 (c.j2 - n), c.j2⟩ else c) :: cs

/-- the second fixup (difflib.go:421-425): the last code -/
def fixLast (n : Nat) : List OpCode → List OpCode
  | [] => []
  | [c] => [if c.tag = .equal then ⟨c.tag, c.i1, min c.i2 (c.i1 + n), c.j1, min c.j2 (c.j1 + n)⟩ else c]
  | c :: cs => c :: fixLast n cs

/-- the loop of `GetGroupedOpCodes` (difflib.go:426-445) with the group being collected -/
def groupLoop (n : Nat) : List OpCode → List OpCode → List (List OpCode)
  | group, [] => if group.length > 0 ∧ ¬ (group.length = 1 ∧ group.head?.map (·.tag) = some .equal) then [group] else []
  | group, c :: cs =>
    if c.tag = .equal ∧ c.i2 - c.i1 > n + n then
      (group ++ [⟨c.tag, c.i1, min c.i2 (c.i1 + n), c.j1, min c.j2 (c.j1 + n)⟩]) ::
        groupLoop n [⟨c.tag, max c.i1 (c.i2 - n), c.i2, max c.j1 (c.j2 - n), c.j2⟩] cs
    else groupLoop n (group ++ [c]) cs

/-- `GetGroupedOpCodes` (difflib.go:407-446) for `n ≥ 0` (the only caller passes 1) -/
def getGroupedOpCodes (m : Matcher) (fuel n : Nat) : Option (List (List OpCode)) := do
  let codes ← getOpCodes m fuel
  let codes := if codes.length = 0 then [⟨.equal, 0, 1, 0, 1⟩] else codes
  return groupLoop n [] (fixLast n (fixFirst n codes))

/-- `formatRangeUnified` (difflib.go:449-460) -/
def formatRange (start stop : Nat) : Bytes :=
  if stop - start = 1 then natDigits (start + 1)
  else if stop - start = 0 then natDigits start ++ [c%','] ++ natDigits 0
  else natDigits (start + 1) ++ [c%','] ++ natDigits (stop - start)

/-- `xs[i:j]`; a panic if the indices are not in order or beyond the list (Go allows up to the capacity) -/
def slice (xs : List Bytes) (i j : Nat) : Option (List Bytes) :=
  if i ≤ j ∧ j ≤ xs.length then some ((xs.take j).drop i) else none

/-- the lines with a mark in front of each (difflib.go:516-520, 524-528, 531-535) -/
def marked (c : Byte) (lines : List Bytes) : Bytes := lines.flatMap (fun l => c :: l)

/-- one code of a group (difflib.go:513-537) -/
def writeCode (a b : List Bytes) (c : OpCode) : Option Bytes :=
  if c.tag = .equal then (slice a c.i1 c.i2).map (marked c%' ')
  else
    (if c.tag = .replace ∨ c.tag = .delete then (slice a c.i1 c.i2).map (marked c%'-') else some []).bind fun old =>
    (if c.tag = .replace ∨ c.tag = .insert then (slice b c.j1 c.j2).map (marked c%'+') else some []).bind fun new =>
    some (old ++ new)

/-- the loop over the codes of a group (difflib.go:513-537) -/
def writeCodes (a b : List Bytes) : List OpCode → Option Bytes
  | [] => some []
  | c :: cs => do
    let x ← writeCode a b c
    let y ← writeCodes a b cs
    return x ++ y

/-- one group (difflib.go:507-537); `g[0]` of an empty group panics -/
def writeGroup (a b : List Bytes) (g : List OpCode) : Option Bytes :=
  match g.head?, g.getLast? with
  | some first, some last => do
    let body ← writeCodes a b g
    return b%"@@ -" ++ formatRange first.i1 last.i2 ++ b%" +" ++ formatRange first.j1 last.j2 ++ b%" @@\n" ++ body
  | _, _ => none

/-- the loop over the groups (difflib.go:495-538) -/
def writeGroups (a b : List Bytes) : List (List OpCode) → Option Bytes
  | [] => some []
  | g :: gs => do
    let x ← writeGroup a b g
    let y ← writeGroups a b gs
    return x ++ y

/-- `GetUnifiedDiffString` (difflib.go:543-547) with `WriteUnifiedDiff` (481-540) into a buffer, which takes every write -/
def unifiedDiff (a b : List Bytes) (fuel : Nat) : Option Bytes := do
  let groups ← getGroupedOpCodes (newMatcher a b) fuel 1
  let body ← writeGroups a b groups
  return (if groups = [] then [] else b%"--- Expected\n+++ Actual\n") ++ body

/-- `strings.SplitAfter(s, "\n")` -/
def splitAfter : Bytes → List Bytes
  | [] => [[]]
  | c :: cs =>
    if c = c%'\n' then [c] :: splitAfter cs
    else match splitAfter cs with
      | [] => [[c]]
      | l :: ls => (c :: l) :: ls

/-- `lines[len(lines)-1] += "\n"` (difflib.go:553) -/
def endLast : List Bytes → List Bytes
  | [] => []
  | [l] => [l ++ [c%'\n']]
  | l :: ls => l :: endLast ls

/-- `SplitLines` (difflib.go:551-555) -/
def splitLines (s : Bytes) : List Bytes := endLast (splitAfter s)

/-- the diff of two strings as `diff` shows it (assert/assert.go:795-800), after the text `"\n\nDiff:\n"` -/
def textDiff (expected actual : Bytes) (fuel : Nat) : Option Bytes := unifiedDiff (splitLines expected) (splitLines actual) fuel

end Diff
end Yarql
