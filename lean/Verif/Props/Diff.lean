import Verif.Proofs.DiffLongest
import Verif.Proofs.Patch
import Verif.Proofs.DiffContext

/-!
# C89, C90, C91, C98: the diff an assertion shows

`Patch` (Spec/Patch.lean) says what a unified diff is, without reference to how one is found.
-/

namespace Yarql
namespace Diff
open Patch

/-- the lines of a text are what `SplitLines` gives, and nothing else -/
theorem splitLines_spec (s : Bytes) (ls : List Bytes) : Lines s ls ↔ splitLines s = ls := by
  constructor
  · intro h
    exact lines_unique (splitLines_lines s) h.2 (by rw [splitLines_flatten, h.1])
  · intro h
    rw [← h]
    exact ⟨splitLines_flatten s, splitLines_lines s⟩

/-- **C89** (lines).  For any two lists of lines the diff is made (no index is out of range, the recursion ends), and it is a
unified diff that turns the first into the second. -/
theorem C89_lines (a b : List Bytes) (fuel : Nat) (hf : a.length < fuel) : ∃ kept text, unifiedDiff a b fuel = some text ∧ UnifiedDiff a b kept text := by
  obtain ⟨kept, text, h1, h2, -⟩ := unifiedDiff_ok a b hf
  exact ⟨kept, text, h1, h2⟩

/-- **C89** (texts).  For any two texts the diff is made, and it is a unified diff of their lines. -/
theorem C89_texts (expected actual : Bytes) (old new : List Bytes) (ho : Lines expected old) (hn : Lines actual new) (fuel : Nat) (hf : old.length < fuel) :
    ∃ kept text, textDiff expected actual fuel = some text ∧ UnifiedDiff old new kept text := by
  unfold textDiff
  rw [(splitLines_spec _ _).1 ho, (splitLines_spec _ _).1 hn]
  exact C89_lines old new fuel hf

/-- **C90**.  The diff of two texts is empty exactly if the texts are the same. -/
theorem C90_empty (expected actual : Bytes) (fuel : Nat) (hf : expected.length + 1 < fuel) : textDiff expected actual fuel = some [] ↔ expected = actual := by
  unfold textDiff
  constructor
  · intro h
    have hlen : (splitLines expected).length < fuel := by
      rw [splitLines_length]
      have := List.count_le_length (a := c%'\n') (l := expected)
      omega
    obtain ⟨kept, text, h1, h2, -⟩ := unifiedDiff_ok (splitLines expected) (splitLines actual) hlen
    rw [h] at h1
    injection h1 with h1
    subst h1
    generalize ht : ([] : Bytes) = t at h2
    cases h2 with
    | same e => exact splitLines_injective e
    | hunks => cases ht
  · rintro rfl
    cases fuel with
    | zero => omega
    | succ fuel => exact unifiedDiff_same fuel

/-- **C90** (what is lost).  Nothing: from the expected text and the diff the actual text can be told. -/
theorem C90_recover (expected actual actual' : Bytes) (fuel : Nat) (hf : expected.length + 1 < fuel) (h : textDiff expected actual fuel = textDiff expected actual' fuel) :
    actual = actual' := by
  unfold textDiff at h
  have hlen : (splitLines expected).length < fuel := by
    rw [splitLines_length]
    have := List.count_le_length (a := c%'\n') (l := expected)
    omega
  obtain ⟨kept, text, h1, h2, -⟩ := unifiedDiff_ok (splitLines expected) (splitLines actual) hlen
  obtain ⟨kept', text', h1', h2', -⟩ := unifiedDiff_ok (splitLines expected) (splitLines actual') hlen
  rw [h1, h1'] at h
  injection h with h
  subst h
  exact splitLines_injective (unifiedDiff_unique h2 h2' (splitLines_lines _) (splitLines_lines _) (splitLines_lines _)).1

theorem indicesFrom_length (s : Bytes) : ∀ (xs : List Bytes) (i : Nat), (indicesFrom s xs i).length = xs.count s
  | [], _ => rfl
  | x :: xs, i => by
    unfold indicesFrom
    split
    · rename_i h
      rw [h, List.length_cons, indicesFrom_length s xs, List.count_cons_self]
    · rename_i h
      rw [indicesFrom_length s xs, List.count_cons_of_ne h]

/-- no line is so frequent that it is left out of the index -/
theorem popular_rare {b : List Bytes} (h : b.length < 200 ∨ ∀ s, b.count s ≤ b.length / 100 + 1) (s : Bytes) : popular b s = false := by
  unfold popular
  rw [indicesFrom_length]
  rcases h with h | h
  · have : decide (b.length ≥ 200) = false := decide_eq_false (by omega)
    rw [this]
    rfl
  · have : decide (b.count s > b.length / 100 + 1) = false := decide_eq_false (by have := h s; omega)
    rw [this, Bool.and_false]

theorem common_run {a b : List Bytes} {p q k : Nat} (h : Common a b p q k) : Run a b p q k := by
  intro t ht
  have h1 := h.1
  refine ⟨a[p + t]'(by omega), List.getElem?_eq_getElem _, ?_⟩
  rw [← h.2.2 t ht]
  exact List.getElem?_eq_getElem _

/-- **C91** (the match, as documented), if the second list has less than 200 lines, or no line more often than in one of a hundred (plus one): the match is one of `a[alo:ahi]` and
`b[blo:bhi]`, none is longer, of the longest it is the first in `a`, and of those the first in `b`. -/
theorem C91_match_partial (a b : List Bytes) (hb : b.length < 200 ∨ ∀ s, b.count s ≤ b.length / 100 + 1) (alo ahi blo bhi : Nat) (h1 : alo ≤ ahi) (h2 : ahi ≤ a.length) (h3 : blo ≤ bhi) (h4 : bhi ≤ b.length) :
    ∃ i j k, findLongestMatch (newMatcher a b) alo ahi blo bhi = some ⟨i, j, k⟩ ∧
      (alo ≤ i ∧ i + k ≤ ahi ∧ blo ≤ j ∧ j + k ≤ bhi ∧ Common a b i j k) ∧
      ∀ i' j' k', alo ≤ i' → i' + k' ≤ ahi → blo ≤ j' → j' + k' ≤ bhi → Common a b i' j' k' →
        k' ≤ k ∧ (k' = k → i ≤ i' ∧ (i = i' → j ≤ j')) := by
  obtain ⟨⟨i, j, k⟩, e, hx, hmax⟩ := findLongestMatch_longest (m := newMatcher a b) (newMatcher_indexed a b) (newMatcher_full a (popular_rare hb)) h2 h4 h1 h3
  have k1 := hx.ahi
  have k2 := hx.bhi
  dsimp only at k1 k2
  refine ⟨i, j, k, e, ⟨hx.alo, k1, hx.blo, k2, by omega, by omega, fun t ht => ?_⟩, fun i' j' k' c1 c2 c3 c4 c5 => ?_⟩
  · obtain ⟨x, y1, y2⟩ := hx.run t ht
    exact y1.trans y2.symm
  · have := hmax i' j' k' c1 c3 c2 c4 (common_run c5)
    unfold Prefer at this
    dsimp only at this
    omega

/-- **C91** (the diff), if the actual text has less than 200 lines, or no line more often than in one of a hundred (plus one): at least as many lines are kept as any run of lines that is
common to both texts has.  (A diff that removes everything and adds everything would be a unified diff, too.) -/
theorem C91_keeps_partial (expected actual : Bytes) (old new : List Bytes) (ho : Lines expected old) (hn : Lines actual new) (hb : new.length < 200 ∨ ∀ s, new.count s ≤ new.length / 100 + 1) (fuel : Nat) (hf : old.length < fuel) :
    ∃ kept text, textDiff expected actual fuel = some text ∧ UnifiedDiff old new kept text ∧ ∀ p q k, Common old new p q k → k ≤ kept := by
  unfold textDiff
  rw [(splitLines_spec _ _).1 ho, (splitLines_spec _ _).1 hn]
  obtain ⟨kept, text, e1, e2, e3⟩ := unifiedDiff_ok old new hf
  refine ⟨kept, text, e1, e2, fun p q k hc => ?_⟩
  obtain ⟨i, j, l, f1, f2, f3⟩ := C91_match_partial old new hb 0 old.length 0 new.length (Nat.zero_le _) (Nat.le_refl _) (Nat.zero_le _) (Nat.le_refl _)
  have := e3 _ f1
  have := (f3 p q k (Nat.zero_le _) hc.1 (Nat.zero_le _) hc.2.1 hc).1
  dsimp only at *
  omega

/-- **C98**.  A diff shows the changes with one line of context on each side and nothing else: every line that is not marked is next to a
marked one, a hunk that starts (stops) with a change starts (stops) where the texts do, and between two hunks there are lines left out. -/
theorem C98_context (expected actual : Bytes) (old new : List Bytes) (ho : Lines expected old) (hn : Lines actual new) (fuel : Nat) (hf : old.length < fuel) :
    ∃ text, textDiff expected actual fuel = some text ∧ Context.UnifiedDiff old new text := by
  unfold textDiff
  rw [(splitLines_spec _ _).1 ho, (splitLines_spec _ _).1 hn]
  exact unifiedDiff_shown old new hf

namespace DiffDemo

/-- two texts that differ in their second and their sixth line -/
def expected : Bytes := b%"one\ntwo\nthree\nfour\nfive\nsix"
def actual : Bytes := b%"one\n2\nthree\nfour\nfive\n6\nseven"

example : textDiff expected actual 10 = some b%"--- Expected\n+++ Actual\n@@ -1,3 +1,3 @@\n one\n-two\n+2\n three\n@@ -5,2 +5,3 @@\n five\n-six\n+6\n+seven\n" := by decide +kernel

/-- the hypotheses of C89 to C91 hold of them -/
example : Lines expected [b%"one\n", b%"two\n", b%"three\n", b%"four\n", b%"five\n", b%"six\n"] := (splitLines_spec _ _).2 (by decide +kernel)
example : Lines actual [b%"one\n", b%"2\n", b%"three\n", b%"four\n", b%"five\n", b%"6\n", b%"seven\n"] := (splitLines_spec _ _).2 (by decide +kernel)
example : expected.length + 1 < 100 := by decide +kernel

/-- what C98 says of a hunk is not true of each: not of one with two lines of context in front, not of one without a change -/
example : Context.Near [true, false, false, true] ∧ ¬ Context.Near [true, true, false] ∧ ¬ Context.Near [true] := by
  refine ⟨?_, fun h => ?_, fun h => ?_⟩
  · intro t ht
    rcases t with _ | _ | _ | _ | t
    · exact Or.inl rfl
    · cases ht
    · cases ht
    · exact Or.inr ⟨2, rfl, rfl⟩
    · simp at ht
  · rcases h 0 rfl with k | ⟨s, k, -⟩
    · cases k
    · cases k
  · rcases h 0 rfl with k | ⟨s, k, -⟩
    · cases k
    · cases k

/-- insertion at the beginning: the range of the old text is empty -/
example : textDiff b%"b\nc\nd" b%"a\nb\nc\nd" 10 = some b%"--- Expected\n+++ Actual\n@@ -1 +1,2 @@\n+a\n b\n" := by decide +kernel

/-- an empty text still has a line -/
example : textDiff [] b%"x" 10 = some b%"--- Expected\n+++ Actual\n@@ -1 +1 @@\n-\n+x\n" := by decide +kernel

/-- no lines at all (only through `GetUnifiedDiffString`): an empty range is named by the line before it -/
example : unifiedDiff [] [b%"x\n"] 10 = some b%"--- Expected\n+++ Actual\n@@ -0,0 +1 @@\n+x\n" := by decide +kernel

/-- **Finding**: with 200 lines or more, lines that occur often are left out of the index, and what is said about
`findLongestMatch` (difflib.go:193-205) does not hold: four lines are common to both lists, the match has one. -/
def often : List Bytes := [b%"y\n", b%"x\n", b%"x\n", b%"x\n", b%"x\n"]
def many : List Bytes := [b%"x\n", b%"x\n", b%"x\n", b%"x\n"] ++ List.replicate 195 b%"z\n" ++ [b%"y\n"]

theorem C91_refuted : many.length = 200 ∧ Common often many 1 0 4 ∧ findLongestMatch (newMatcher often many) 0 5 0 200 = some ⟨0, 199, 1⟩ := by
  refine ⟨by decide +kernel, ⟨by decide +kernel, by decide +kernel, ?_⟩, by decide +kernel⟩
  intro t ht
  rcases (by omega : t = 0 ∨ t = 1 ∨ t = 2 ∨ t = 3) with rfl | rfl | rfl | rfl <;> decide +kernel

end DiffDemo
end Diff
end Yarql
