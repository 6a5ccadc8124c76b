import Verif.Proofs.DocSound
import Verif.Spec.Grammar

/-!
# Query parser: C01, C05, C06 (and the parser side of C04)

`Parser.parseQuery query target` models `ParseQueryToBytecode` (bytecode.go:45-78); its result is
`.ok () s` with the bytecode `s.res`, the fragment table `s.frags`, the selected operation `s.targetIdx` and the error
list `s.errs`, or `.panic` / `.oof` (a Go run-time panic / a loop that does not end).
-/

namespace Yarql
open Parser Doc

theorem parse_post (query : Bytes) (target : Option Bytes) :
    ∃ s, parseQuery query target = .ok () s ∧ DocPost ⟨query, target⟩ PS.init s := by
  have h := parseQuery_sound query target
  unfold wp at h
  dsimp only at h
  unfold parseQuery
  generalize docLoop (parseFuel query) (List.length query + 2) { query := query, target := target } PS.init = r at h ⊢
  cases r with
  | ok a s => exact ⟨s, rfl, h⟩
  | panic => exact h.elim
  | oof => exact h.elim

/-- **C01.** For every query and target, parsing returns normally, with errors or with the bytecode of a document. -/
theorem C01_parse_total (query : Bytes) (target : Option Bytes) :
    ∃ s, parseQuery query target = .ok () s ∧
      (s.errs ≠ [] ∨ s.errs = [] ∧ ∃ d : List Def, docWF d ∧ s.res = encDoc d) := by
  obtain ⟨s, h, hp⟩ := parse_post query target
  refine ⟨s, h, ?_⟩
  by_cases he : s.errs = []
  · obtain ⟨d, hd, hr, _⟩ := hp.out he
    exact Or.inr ⟨he, d, hd, by simpa [PS.init] using hr⟩
  · exact Or.inl he

/-- **C05** (one error): wherever the parser stands, reporting an error records the 1-based line and the 0-based byte
column of that position, as defined by `Spec/Location.lean`, and stops nothing else from changing. -/
theorem C05_error_location (msg : Bytes) (cfg : PCfg) (s : PS) :
    err msg cfg s = .ok true { s with errs := s.errs ++
      [⟨msg, 1 + Location.lineBreaks (cfg.query.take s.charNr), Location.column (cfg.query.take s.charNr)⟩] } :=
  Location.err_location msg cfg s

/-- **C05** (all errors of a parse): every error in the result carries the line and column of a position of the query. -/
theorem C05_errors_located (query : Bytes) (target : Option Bytes) (s : PS) (h : parseQuery query target = .ok () s) :
    ∀ e ∈ s.errs, ∃ p, p ≤ query.length ∧ e.line = 1 + Location.lineBreaks (query.take p) ∧
      e.col = Location.column (query.take p) := by
  obtain ⟨s', h', hp⟩ := parse_post query target
  rw [h] at h'
  cases h'
  obtain ⟨es, he, hl⟩ := hp.errs
  intro e hmem
  rw [he] at hmem
  exact hl e (by simpa [PS.init] using hmem)

theorem stepTgt_none (target : Option Bytes) (ops : List (Nat × Bytes)) : stepTgt target none ops = selectedOp target ops := by
  unfold stepTgt
  cases selectedOp target ops <;> rfl

/-- **C06.** A parse without errors has produced the encoding of a well-formed document, the fragment table of that
document and the position of the operation the target selects. -/
theorem C06_accepted_is_encoding (query : Bytes) (target : Option Bytes) (s : PS) (h : parseQuery query target = .ok () s)
    (hok : s.errs = []) :
    ∃ d : List Def, docWF d ∧ s.res = encDoc d ∧ s.frags = fragPositions 0 d ∧
      s.targetIdx = selectedOp target (opPositions 0 d) := by
  obtain ⟨s', h', hp⟩ := parse_post query target
  rw [h] at h'
  cases h'
  obtain ⟨d, hd, hr, hf, ht⟩ := hp.out hok
  exact ⟨d, hd, by simpa [PS.init] using hr, by simpa [PS.init] using hf, by simpa [PS.init, stepTgt_none] using ht⟩

/-- Every entry of a document's fragment table is the position of the `F` of one of its fragment definitions. -/
theorem fragPositions_point (d : List Def) (pre : Bytes) (p : Nat) (hp : p ∈ fragPositions pre.length d) :
    ∃ f, Def.frag f ∈ d ∧ ∃ post, (pre ++ encDoc d).drop (p - 1) = encFragment f ++ post ∧ 0 < p := by
  induction d generalizing pre with
  | nil => simp [fragPositions] at hp
  | cons x ds ih =>
    cases x with
    | op o =>
      simp only [fragPositions] at hp
      have e : pre.length + (encOperation o).length = (pre ++ encOperation o).length := by simp
      rw [e] at hp
      obtain ⟨f, hf, post, hpost, h0⟩ := ih (pre ++ encOperation o) hp
      exact ⟨f, List.mem_cons_of_mem _ hf, post, by simpa [encDoc, encDef] using hpost, h0⟩
    | frag f =>
      simp only [fragPositions, List.mem_cons] at hp
      rcases hp with rfl | hp
      · refine ⟨f, List.mem_cons_self, encDoc ds, ?_, by omega⟩
        simp [encDoc, encDef]
      · have e : pre.length + (encFragment f).length = (pre ++ encFragment f).length := by simp
        rw [e] at hp
        obtain ⟨f', hf, post, hpost, h0⟩ := ih (pre ++ encFragment f) hp
        exact ⟨f', List.mem_cons_of_mem _ hf, post, by simpa [encDoc, encDef] using hpost, h0⟩

/-- **C06** (fragment table): each recorded position points at a fragment definition of the accepted document. -/
theorem C06_fragment_positions (query : Bytes) (target : Option Bytes) (s : PS) (h : parseQuery query target = .ok () s)
    (hok : s.errs = []) : ∃ d : List Def, docWF d ∧ s.res = encDoc d ∧
      ∀ p ∈ s.frags, ∃ f, Def.frag f ∈ d ∧ ∃ post, s.res.drop (p - 1) = encFragment f ++ post ∧ s.res[p]? = some c%'F' := by
  obtain ⟨d, hd, hr, hf, _⟩ := C06_accepted_is_encoding query target s h hok
  refine ⟨d, hd, hr, fun p hp => ?_⟩
  rw [hf] at hp
  obtain ⟨f, hm, post, hpost, h0⟩ := fragPositions_point d [] p (by simpa using hp)
  refine ⟨f, hm, post, by simpa [hr] using hpost, ?_⟩
  have e : s.res[p]? = (s.res.drop (p - 1))[1]? := by rw [List.getElem?_drop]; congr 1; omega
  rw [e, hr, show (encDoc d).drop (p - 1) = encFragment f ++ post by simpa using hpost]
  simp [encFragment]

/-! Non-vacuity: a query with a fragment, an alias, arguments and a directive is accepted, one with a typo is rejected. -/

/-- Test helper: result of a parse as bytes / error count. -/
def parseDemo (q : Bytes) (t : Option Bytes) : Option (Bytes × List Nat × Option Nat × List (Nat × Nat)) :=
  match parseQuery q t with
  | .ok _ s => some (s.res.take 3, s.frags, s.targetIdx, s.errs.map (fun e => (e.line, e.col)))
  | _ => none

example : parseDemo b%"query A { x: f @skip(if: true) (a: [1, \"b\"]) { ...F } } fragment F on T { g }" none =
    some ([0, c%'o', c%'q'], [100], some 0, []) := by decide +kernel

example : parseDemo b%"query A {\n  f(a: }\n}" none = some ([0, c%'o', c%'q'], [], some 0, [(2, 7)]) := by decide +kernel

end Yarql
